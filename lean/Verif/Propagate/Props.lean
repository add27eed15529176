import Verif.Propagate.Lemmas

/-! # Staleness propagation: properties C31, C32, C33, C61 -/

namespace Verif.Propagate
open Verif

variable {G : Graph} {u : Nat} {upd : Finset Nat}

/-! ## What a whole propagation does -/

theorem FPost.append {R E : Nat → Prop} {st st' : St} (h : FPost G u upd R E st st') (o : List Nat) :
    FPost G u upd R E { st with ran := st.ran ++ o } { st' with ran := st'.ran ++ o } := by
  refine ⟨h.seen, h.marked, h.nsw, h.nsn, h.closed, h.wait, h.mkd, fun y => ?_, h.reach⟩
  have := h.ran y
  simp only [List.count_append]
  omega

/-- The loop of lines 65-66 of `update_protocol.py`. -/
theorem top_post {B R : Nat → Prop} (hR : Closed G u B R) {n : Nat} : ∀ (o : List Nat) (st st' : St),
    (∀ s ∈ o, s ∈ upd ∧ s ∈ st.seen ∧ R s ∧ ¬ B s) → (∀ b, B b → b ∈ st.seen) →
    o.foldlM (fun st s => go G u upd n .deps true s st) st = .ok st' →
    FPost G u upd R (fun _ => False) { st with ran := st.ran ++ o } st' ∧ ∀ s ∈ o, ∀ c ∈ kids G u s, c ∈ st'.seen
  | [], st, st', _, _, h => by
    cases h
    rw [List.append_nil]
    exact ⟨FPost.refl _, fun s hs => absurd hs List.not_mem_nil⟩
  | s :: o, st, st', ho, hB, h => by
    rw [List.foldlM_cons] at h
    cases h1 : go G u upd n .deps true s st with
    | error e =>
      rw [h1] at h
      cases h
    | ok st1 =>
      rw [h1] at h
      obtain ⟨hs1, hs2, hs3, hs4⟩ := ho s List.mem_cons_self
      obtain ⟨p1, p2⟩ : FPost G u upd R (fun _ => False) (enter G u upd st s) st1 ∧ _ :=
        go_post hR n .deps true s st st1 h1 hs3 (.inl ⟨rfl, hs4⟩) hB
      have he : enter G u upd st s = st.run s := by
        unfold enter
        rw [if_neg, see_of_mem hs2]
        unfold eligible
        simp [hs1]
      rw [he] at p1
      obtain ⟨q1, q2⟩ := top_post hR o st1 st'
        (fun x hx => ⟨(ho x (List.mem_cons_of_mem _ hx)).1, p1.seen (ho x (List.mem_cons_of_mem _ hx)).2.1,
          (ho x (List.mem_cons_of_mem _ hx)).2.2⟩) (fun b hb => p1.seen (hB b hb)) h
      refine ⟨?_, fun x hx c hc => ?_⟩
      · have := (p1.append o).trans q1
        have e : (st.ran ++ s :: o) = (st.run s).ran ++ o := by
          show _ = (st.ran ++ [s]) ++ o
          rw [List.append_assoc]
          rfl
        rw [e]
        exact this
      · rcases List.mem_cons.1 hx with rfl | hx
        · exact q1.seen (p2 c hc)
        · exact q2 x hx c hc

/-- Taking the symbols of a list in some order. -/
def Orders (ord : List Nat → List Nat) : Prop := ∀ l : List Nat, (∀ x, x ∈ ord l ↔ x ∈ l) ∧ (l.Nodup → (ord l).Nodup)

variable {n : Nat} {direct D : List Nat} {desc : Bool} {ord : List Nat → List Nat} {st st' : St} {S : List Nat}

/-- The two phases of a propagation that returned. -/
theorem call_post {B R : Nat → Prop} (hord : Orders ord) (h : call G n u direct D desc upd ord st = .ok (S, st'))
    (hR : Closed G u B R) (hRS : ∀ s ∈ S, R s ∧ ¬ B s) (hBD : ∀ b, B b → b ∈ D) :
    ∃ st1 X : St, S = st1.seen ∧ CPost G { st with seen := [], ran := [] } st1 ∧
      (∀ s ∈ direct, G.isImport s = true ∨ s ∈ S) ∧
      X.marked = st1.marked ∧ X.nsw = st1.nsw ∧ X.ran = ord S ∧ (∀ y, y ∈ X.seen ↔ y ∈ D ∨ y ∈ S) ∧
      FPost G u (upd ∪ S.toFinset) R (fun _ => False) X st' ∧ ∀ s ∈ S, ∀ c ∈ kids G u s, c ∈ st'.seen := by
  unfold call at h
  cases h1 : direct.foldlM (fun st s => collect G desc n s st) { st with seen := [], ran := [] } with
  | error e =>
    rw [h1] at h
    cases h
  | ok st1 =>
    rw [h1] at h
    simp only at h
    cases h2 : (ord st1.seen).foldlM (fun st s => go G u (upd ∪ st1.seen.toFinset) n .deps true s st)
        (D.foldl St.see st1) with
    | error e =>
      rw [h2] at h
      cases h
    | ok st2 =>
      rw [h2] at h
      simp only [Except.ok.injEq, Prod.mk.injEq] at h
      obtain ⟨rfl, rfl⟩ := h
      have p1 := foldl_cpost (G := G) _ _ _ (fun a _ st st' hc => (collect_post desc n a st st' hc).1) h1
      obtain ⟨e1, e2, e3, e4⟩ := sees_spec D st1
      have hran : st1.ran = [] := p1.ran
      obtain ⟨q1, q2⟩ := top_post hR (ord st1.seen) (D.foldl St.see st1) st2
        (fun s hs => by
          have hs' := ((hord st1.seen).1 s).1 hs
          exact ⟨Finset.mem_union_right _ (List.mem_toFinset.2 hs'), (e4 s).2 (.inr hs'), hRS s hs'⟩)
        (fun b hb => (e4 b).2 (.inl (hBD b hb))) h2
      refine ⟨st1, { D.foldl St.see st1 with ran := (D.foldl St.see st1).ran ++ ord st1.seen }, rfl, p1, fun s hs => ?_, e1, e2, ?_, e4, q1, fun s hs => q2 s (((hord st1.seen).1 s).2 hs)⟩
      · -- every directly updated symbol was collected
        have aux : ∀ (xs : List Nat) (st st1 : St), xs.foldlM (fun st s => collect G desc n s st) st = .ok st1 →
            s ∈ xs → G.isImport s = true ∨ s ∈ st1.seen := by
          intro xs
          induction xs with
          | nil => exact fun _ _ _ h => absurd h List.not_mem_nil
          | cons x xs ih =>
            intro st st1 hf hm
            rw [List.foldlM_cons] at hf
            cases hx : collect G desc n x st with
            | error e =>
              rw [hx] at hf
              cases hf
            | ok st0 =>
              rw [hx] at hf
              rcases List.mem_cons.1 hm with rfl | hm
              · rcases (collect_post desc n s st st0 hx).2 with h' | h'
                · exact .inr ((foldl_cpost (G := G) _ _ _
                    (fun a _ st st' hc => (collect_post desc n a st st' hc).1) hf).seen h')
                · exact .inl h'
              · exact ih st0 st1 hf hm
        exact aux direct _ st1 h1 hs
      · show (D.foldl St.see st1).ran ++ ord st1.seen = _
        rw [e3, hran, List.nil_append]

/-! ## C31: propagation ends -/

/-- C31. Let `V` be the finite set of symbols there are. Whatever the edges, namespaces and aliases are, cycles included, a
propagation returns once recursion depth `2 * |V| + 3` is allowed, and it handles each symbol at most once. -/
theorem propagation_terminates (V : Finset Nat) (hord : Orders ord)
    (hV : ∀ a ∈ V, ∀ b, b ∈ G.children a ∨ b ∈ G.members (G.obj a) ∨ b ∈ G.ownMembers (G.obj a) ∨
      (∃ o, G.cont a = some o ∧ b ∈ G.aliases o) → b ∈ V) (hdirect : ∀ s ∈ direct, s ∈ V)
    (hn : 2 * V.card + 3 ≤ n) (st : St) :
    ∃ S st', call G n u direct D desc upd ord st = .ok (S, st') ∧ ∀ y, st'.ran.count y ≤ 1 := by
  have hup : ∀ a b, b ∈ upward G a → ∃ o, G.cont a = some o ∧ b ∈ G.aliases o := by
    intro a b hb
    unfold upward at hb
    by_cases hm : G.isModule a = true
    · rw [if_pos hm] at hb
      exact absurd hb List.not_mem_nil
    · rw [if_neg hm] at hb
      cases hc : G.cont a with
      | none =>
        rw [hc] at hb
        exact absurd hb List.not_mem_nil
      | some o =>
        rw [hc] at hb
        exact ⟨o, rfl, hb⟩
  have hho : ∀ a b, b ∈ holders G a → ∃ o, G.cont a = some o ∧ b ∈ G.aliases o := by
    intro a b hb
    unfold holders at hb
    cases hc : G.cont a with
    | none =>
      rw [hc] at hb
      exact absurd hb List.not_mem_nil
    | some o =>
      rw [hc] at hb
      simp only at hb
      by_cases hm : G.nsModule o = true
      · rw [if_pos hm] at hb
        exact absurd hb List.not_mem_nil
      · rw [if_neg hm] at hb
        exact ⟨o, rfl, hb⟩
  have hki : ∀ a b, b ∈ kids G u a → b ∈ G.children a := by
    intro a b hb
    unfold kids at hb
    split_ifs at hb
    · exact hb
    · exact (List.mem_filter.1 hb).1
  have hV1 : ∀ a ∈ V, ∀ b, b ∈ upward G a ∨ b ∈ G.members (G.obj a) → b ∈ V := by
    rintro a ha b (hb | hb)
    · exact hV a ha b (.inr (.inr (.inr (hup a b hb))))
    · exact hV a ha b (.inr (.inl hb))
  have hV2 : ∀ a ∈ V, ∀ b, Step G u a b → b ∈ V := by
    rintro a ha b (hb | hb | hb | ⟨h, hh, hb⟩)
    · exact hV a ha b (.inl (hki a b hb))
    · exact hV a ha b (.inr (.inr (.inr (hho a b hb))))
    · exact hV a ha b (.inr (.inr (.inl hb)))
    · exact hV h (hV a ha h (.inr (.inr (.inr (hho a h hh))))) b (.inl (hki h b hb))
  have hun : ∀ st, unseen V st ≤ V.card := fun st => Finset.card_filter_le _ _
  -- the first phase
  have hc : ∀ (xs : List Nat), (∀ s ∈ xs, s ∈ V) → ∀ st : St, (∀ y ∈ st.seen, y ∈ V) →
      ∃ st', xs.foldlM (fun st s => collect G desc n s st) st = .ok st' := by
    intro xs hxs st _
    obtain ⟨st', h, _⟩ := foldl_ok (f := fun st s => collect G desc n s st) (fun _ => True) xs st trivial
      (fun x hx st _ => by
        obtain ⟨st', h⟩ := collect_ok desc V hV1 n x st (hxs x hx) (by have := hun st; omega)
        exact ⟨st', h, trivial⟩)
    exact ⟨st', h⟩
  -- it stays within `V`
  have hcV : ∀ (m s : Nat) (st st' : St), s ∈ V → (∀ y ∈ st.seen, y ∈ V) → collect G desc m s st = .ok st' →
      ∀ y ∈ st'.seen, y ∈ V := by
    intro m
    induction m with
    | zero =>
      intro s st st' _ _ h
      cases h
    | succ m ih =>
      intro s st st' hs hst h
      have hfold : ∀ (xs : List Nat), (∀ x ∈ xs, x ∈ V) → ∀ st st' : St, (∀ y ∈ st.seen, y ∈ V) →
          xs.foldlM (fun st a => collect G desc m a st) st = .ok st' → ∀ y ∈ st'.seen, y ∈ V := by
        intro xs
        induction xs with
        | nil =>
          intro _ st st' hst h
          cases h
          exact hst
        | cons x xs ihx =>
          intro hxs st st' hst h
          rw [List.foldlM_cons] at h
          cases hx : collect G desc m x st with
          | error e =>
            rw [hx] at h
            cases h
          | ok st1 =>
            rw [hx] at h
            exact ihx (fun y hy => hxs y (List.mem_cons_of_mem _ hy)) st1 st'
              (ih x st st1 (hxs x List.mem_cons_self) hst hx) h
      unfold collect at h
      by_cases hx : G.isImport s = true ∨ s ∈ st.seen
      · rw [if_pos hx] at h
        cases h
        exact hst
      · rw [if_neg hx] at h
        have hst1 : ∀ y ∈ (st.fresh G s).seen, y ∈ V := by
          intro y hy
          rcases List.mem_append.1 hy with h' | h'
          · exact hst y h'
          · rw [List.mem_singleton.1 h']
            exact hs
        cases h1 : (upward G s).foldlM (fun st a => collect G desc m a st) (st.fresh G s) with
        | error e =>
          rw [h1] at h
          cases h
        | ok st1 =>
          rw [h1] at h
          simp only at h
          have q := hfold _ (fun x hx => hV1 s hs x (.inl hx)) _ st1 hst1 h1
          cases hdesc : desc with
          | false =>
            rw [hdesc, if_neg (by decide)] at h
            cases h
            exact q
          | true =>
            rw [hdesc, if_pos rfl] at h
            have := hfold (G.members (G.obj s)) (fun x hx => hV1 s hs x (.inr hx)) st1 st' q
            rw [hdesc] at this
            exact this h
  obtain ⟨st1, h1⟩ := hc direct hdirect { st with seen := [], ran := [] } (fun y hy => absurd hy List.not_mem_nil)
  have hst1 : ∀ y ∈ st1.seen, y ∈ V := by
    have aux : ∀ (xs : List Nat), (∀ s ∈ xs, s ∈ V) → ∀ st st1 : St, (∀ y ∈ st.seen, y ∈ V) →
        xs.foldlM (fun st s => collect G desc n s st) st = .ok st1 → ∀ y ∈ st1.seen, y ∈ V := by
      intro xs
      induction xs with
      | nil =>
        intro _ st st1 hst h
        cases h
        exact hst
      | cons x xs ih =>
        intro hxs st st1 hst h
        rw [List.foldlM_cons] at h
        cases hx : collect G desc n x st with
        | error e =>
          rw [hx] at h
          cases h
        | ok st0 =>
          rw [hx] at h
          exact ih (fun y hy => hxs y (List.mem_cons_of_mem _ hy)) st0 st1
            (hcV n x st st0 (hxs x List.mem_cons_self) hst hx) h
    exact aux direct hdirect _ st1 (fun y hy => absurd hy List.not_mem_nil) h1
  obtain ⟨st2, h2, _⟩ := foldl_ok (f := fun st s => go G u (upd ∪ st1.seen.toFinset) n .deps true s st) (fun _ => True)
    (ord st1.seen) (D.foldl St.see st1) trivial (fun s hs st _ => by
      obtain ⟨st', h⟩ := go_ok (upd := upd ∪ st1.seen.toFinset) V hV2 n .deps true s st
        (hst1 s (((hord st1.seen).1 s).1 hs)) (by have := hun st; simp only [need]; omega)
      exact ⟨st', h, trivial⟩)
  have hcall : call G n u direct D desc upd ord st = .ok (st1.seen, st2) := by
    unfold call
    rw [h1]
    simp only
    rw [h2]
  refine ⟨st1.seen, st2, hcall, fun y => ?_⟩
  obtain ⟨st1', X, hS, p1, _, _, _, x3, x4, q, _⟩ := call_post (B := fun _ => False) (R := fun _ => True) hord hcall
    (fun _ _ _ _ _ => trivial) (fun _ _ => ⟨trivial, id⟩) (fun _ h => h.elim)
  have hnd : (ord st1.seen).Nodup := by
    refine (hord st1.seen).2 ?_
    rw [hS]
    exact p1.nodup List.nodup_nil
  have hr := q.ran y
  rw [x3] at hr
  have hc1 := List.nodup_iff_count_le_one.1 hnd y
  by_cases hy : y ∈ st1.seen
  · have : y ∈ X.seen := (x4 y).2 (.inr hy)
    rw [if_neg (fun hc => hc.1 this)] at hr
    omega
  · have : (ord st1.seen).count y = 0 := List.count_eq_zero.2 (fun hc => hy (((hord st1.seen).1 y).1 hc))
    rw [this] at hr
    split_ifs at hr <;> omega

/-! ## C32: what is not marked -/

/-- C32, marks. A symbol that a propagation marks as stale was not updated by the statement or cell, is not on the right-hand
side, and is not the updated symbol or one of the containers and members updated with it; the latter are not marked
afterwards at all. -/
theorem marks_spare (hord : Orders ord) (h : call G n u direct D desc upd ord st = .ok (S, st')) :
    (∀ y ∈ st'.marked, y ∉ st.marked → y ∉ D ∧ y ∉ upd ∧ y ≠ u ∧ G.disabled y = false) ∧
    (∀ y ∈ S, y ∉ st'.marked) ∧ ∀ s ∈ direct, G.isImport s = true ∨ s ∈ S := by
  obtain ⟨st1, X, hS, p1, p2, x1, x2, x3, x4, q, _⟩ := call_post (B := fun _ => False) (R := fun _ => True) hord h
    (fun _ _ _ _ _ => trivial) (fun _ _ => ⟨trivial, id⟩) (fun _ h => h.elim)
  refine ⟨fun y hy hn => ?_, fun y hy hm => ?_, p2⟩
  · rcases q.mkd y hy with h1 | ⟨h1, h2, _⟩
    · rw [x1] at h1
      exact absurd (p1.marked h1) hn
    · unfold eligible at h1
      simp only [Bool.and_eq_true, Bool.not_eq_true', decide_eq_false_iff_not] at h1
      exact ⟨fun hd => h2 ((x4 y).2 (.inl hd)), fun hu => h1.1.1 (Finset.mem_union_left _ hu), fun e => h1.2 e.symm,
        h1.1.2⟩
  · rcases q.mkd y hm with h1 | ⟨_, h2, _⟩
    · rw [x1] at h1
      rw [hS] at hy
      exact (p1.fresh y hy List.not_mem_nil).1 h1
    · exact h2 ((x4 y).2 (.inr hy))

/-- C32 in part. A symbol on the right-hand side, or one updated by the statement or cell, whose object has no symbols inside
is not waiting after the propagation if it was not before. Missing: containers, see `rhs_violated`. -/
theorem rhs_not_waiting_partial (hord : Orders ord) (h : call G n u direct D desc upd ord st = .ok (S, st')) {y : Nat}
    (hy : y ∈ D ∨ y ∈ upd) (hno : ∀ z, G.cont z ≠ some (G.obj y)) (hw : ¬ Waiting G st y) : ¬ Waiting G st' y := by
  obtain ⟨st1, X, hS, p1, p2, x1, x2, x3, x4, q, _⟩ := call_post (B := fun _ => False) (R := fun _ => True) hord h
    (fun _ _ _ _ _ => trivial) (fun _ _ => ⟨trivial, id⟩) (fun _ h => h.elim)
  rintro ⟨hd, hm | ⟨z, hz⟩⟩
  · by_cases hm' : y ∈ st.marked
    · exact hw ⟨hd, .inl hm'⟩
    · obtain ⟨h1, h2, _⟩ := (marks_spare hord h).1 y hm hm'
      exact hy.elim h1 h2
  · rcases q.nsn _ hz with h1 | h1
    · rw [x2] at h1
      exact hw ⟨hd, .inr ⟨z, p1.nsw h1⟩⟩
    · exact hno z h1

/-- `x` (1), `lst = [x]` (2, object 20), `lst[0]` (3), which uses `x`. -/
def exG : Graph where
  children := fun s => if s = 1 then [3] else []
  obj := fun s => if s = 2 then 20 else 10
  aliases := fun o => if o = 20 then [2] else if o = 10 then [1, 3] else []
  cont := fun s => if s = 3 then some 20 else none
  nsModule := fun _ => false
  members := fun o => if o = 20 then [3] else []
  ownMembers := fun o => if o = 20 then [3] else []
  cloned := fun _ => none
  isImport := fun _ => false
  isModule := fun _ => false
  disabled := fun _ => false

theorem orders_id : Orders id := fun _ => ⟨fun _ => Iff.rfl, fun h => h⟩

/-- C32 does not hold as stated: after `lst = [x]`, the assignment `x = len(lst)` leaves `lst` waiting, because its element
uses `x`, although `lst` is on the right-hand side. -/
theorem rhs_violated : ∃ S st', call exG 20 1 [1] [2] false ∅ id ⟨[], ∅, ∅, []⟩ = .ok (S, st') ∧
    ¬ Waiting exG ⟨[], ∅, ∅, []⟩ 2 ∧ Waiting exG st' 2 := by
  refine ⟨[1], ⟨[1, 2, 3], {3}, {(20, 3)}, [1, 3]⟩, rfl, ?_, rfl, .inr ⟨3, ?_⟩⟩
  · rintro ⟨_, h | ⟨z, h⟩⟩
    · exact absurd h (Finset.notMem_empty _)
    · exact absurd h (Finset.notMem_empty _)
  · exact Finset.mem_singleton_self _

/-! ## C33: users are told -/

/-- `b` uses `a`, other than as an instance of the class `a`. -/
def UserOf (G : Graph) (u a b : Nat) : Prop := b ∈ G.children a ∧ (u = a ∨ G.cloned b ≠ some (G.obj a))

theorem mem_kids {a b : Nat} : b ∈ kids G u a ↔ UserOf G u a b := by
  unfold kids UserOf
  by_cases h : u = a
  · rw [if_pos h]
    simp [h]
  · rw [if_neg h, List.mem_filter]
    simp [h]

/-- C33 in part. Take a symbol that can be reached from an updated one along user edges without leaving a right-hand side symbol that
was not updated itself. If it is eligible (not on the right-hand side, not updated by statement or cell, warnings not
disabled), it is waiting after the propagation. Missing: states with foreign symbols in an alias set (C30), see
`users_violated`. -/
theorem users_told_partial (hord : Orders ord) (h : call G n u direct D desc upd ord st = .ok (S, st'))
    (hal : ∀ o, ∀ y ∈ G.aliases o, G.obj y = o) {r y : Nat} (hr : r ∈ direct) (hi : G.isImport r = false)
    (hpath : Relation.ReflTransGen (fun a b => (a ∉ D ∨ a ∈ S) ∧ UserOf G u a b) r y)
    (hy : y ∉ D ∧ y ∉ upd ∧ y ∉ S ∧ y ≠ u ∧ G.disabled y = false) : Waiting G st' y := by
  obtain ⟨st1, X, hS, p1, p2, x1, x2, x3, x4, q, qk⟩ := call_post (B := fun _ => False) (R := fun _ => True) hord h
    (fun _ _ _ _ _ => trivial) (fun _ _ => ⟨trivial, id⟩) (fun _ h => h.elim)
  have hrS : r ∈ S := (p2 r hr).resolve_left (by rw [hi]; decide)
  have hseen : ∀ z, Relation.ReflTransGen (fun a b => (a ∉ D ∨ a ∈ S) ∧ UserOf G u a b) r z → z ∈ st'.seen := by
    intro z hz
    induction hz with
    | refl => exact q.seen ((x4 r).2 (.inr hrS))
    | tail _ hab ih =>
      rename_i a b _
      have hb := mem_kids.2 hab.2
      by_cases haS : a ∈ S
      · exact qk a haS b hb
      · have haD := hab.1.resolve_right haS
        exact q.closed a ih (fun hm => ((x4 a).1 hm).elim haD haS) id b hb
  have hw := q.wait y (hseen y hpath) (fun hm => ((x4 y).1 hm).elim hy.1 hy.2.2.1) id (by
    unfold eligible
    simp only [Bool.and_eq_true, Bool.not_eq_true', decide_eq_false_iff_not, Finset.mem_union, List.mem_toFinset]
    exact ⟨⟨fun hc => hc.elim hy.2.1 hy.2.2.1, hy.2.2.2.2⟩, fun e => hy.2.2.2.1 e.symm⟩)
  refine ⟨hy.2.2.2.2, ?_⟩
  rcases hw with hw | ⟨o, z, ho, hz⟩
  · exact .inl hw
  · right
    refine ⟨z, ?_⟩
    rw [hal o y ho]
    exact hz

/-- As `exG`, but 5 uses `x` as well, has an object of its own, and is nevertheless in the alias set of the list. -/
def foreignG : Graph where
  children := fun s => if s = 1 then [3, 5] else []
  obj := fun s => if s = 2 then 20 else if s = 5 then 50 else 10
  aliases := fun o => if o = 20 then [2, 5] else if o = 50 then [5] else if o = 10 then [1, 3] else []
  cont := fun s => if s = 3 then some 20 else none
  nsModule := fun _ => false
  members := fun o => if o = 20 then [3] else []
  ownMembers := fun o => if o = 20 then [3] else []
  cloned := fun _ => none
  isImport := fun _ => false
  isModule := fun _ => false
  disabled := fun _ => false

/-- C33 does not hold as stated: an alias set with a foreign symbol, which `Verif.Sym.alias_violated` shows to arise, hides a
user of `x` from propagation. The symbol is taken for a name of the list, and is passed over when its turn comes. -/
theorem users_violated : ∃ S st', call foreignG 20 1 [1] [] false ∅ id ⟨[], ∅, ∅, []⟩ = .ok (S, st') ∧
    UserOf foreignG 1 1 5 ∧ 5 ∉ S ∧ foreignG.disabled 5 = false ∧ ¬ Waiting foreignG st' 5 := by
  refine ⟨[1], ⟨[1, 3, 2, 5], {3}, {(20, 3)}, [1, 3]⟩, rfl, ⟨by decide, .inl rfl⟩, by decide, rfl, ?_⟩
  rintro ⟨_, h | ⟨z, h⟩⟩
  · exact absurd h (by decide)
  · have : (foreignG.obj 5, z) = (20, 3) := Finset.mem_singleton.1 h
    exact absurd (Prod.mk.inj this).1 (by decide)

/-- `b` is a name of an object, other than a module, that holds `a`. -/
def HolderOf (G : Graph) (a b : Nat) : Prop := ∃ o, G.cont a = some o ∧ G.nsModule o = false ∧ b ∈ G.aliases o

/-- News about `a` are news to `b`: a user, a name of what holds `a`, a part of `a`, or a user of what holds `a`. -/
def Affects (G : Graph) (u a b : Nat) : Prop :=
  UserOf G u a b ∨ HolderOf G a b ∨ b ∈ G.ownMembers (G.obj a) ∨ ∃ h, HolderOf G a h ∧ UserOf G u h b

theorem mem_holders {a b : Nat} : b ∈ holders G a ↔ HolderOf G a b := by
  unfold holders HolderOf
  cases G.cont a with
  | none => simp
  | some o => cases hm : G.nsModule o <;> simp [hm]

theorem step_affects {a b : Nat} : Step G u a b ↔ Affects G u a b := by
  unfold Step Affects
  simp only [mem_kids, mem_holders]

/-- Only symbols that can be reached are marked. -/
theorem marks_reachable (hord : Orders ord) (h : call G n u direct D desc upd ord st = .ok (S, st')) {y : Nat}
    (hy : y ∈ st'.marked) (hn : y ∉ st.marked) : ∃ s ∈ S, Relation.ReflTransGen (Affects G u) s y := by
  suffices hh : ∃ s ∈ S, Relation.ReflTransGen (Step G u) s y by
    obtain ⟨s, hs, hp⟩ := hh
    exact ⟨s, hs, Relation.ReflTransGen.mono (fun a b hab => step_affects.1 hab) _ _ hp⟩
  obtain ⟨st1, X, hS, p1, p2, x1, x2, x3, x4, q, _⟩ := call_post (B := fun _ => False)
    (R := fun y => ∃ s ∈ S, Relation.ReflTransGen (Step G u) s y) hord h
    (fun a b _ ⟨s, hs, hp⟩ hab => ⟨s, hs, hp.tail hab⟩) (fun s hs => ⟨⟨s, hs, .refl⟩, id⟩) (fun _ h => h.elim)
  have hseen : y ∈ st'.seen ∧ y ∉ X.seen := by
    rcases q.mkd y hy with h1 | ⟨_, h2, h3⟩
    · rw [x1] at h1
      exact absurd (p1.marked h1) hn
    · exact ⟨h3, h2⟩
  rcases q.reach y hseen.1 with h1 | h1
  · exact absurd h1 hseen.2
  · exact h1

/-- An update of `a` is one of `b`, which is not imported: a name of what holds `a`, or, on the way down, a part of `a`. -/
def Touches (G : Graph) (desc : Bool) (a b : Nat) : Prop :=
  G.isImport b = false ∧
    ((G.isModule a = false ∧ ∃ o, G.cont a = some o ∧ b ∈ G.aliases o) ∨ desc = true ∧ b ∈ G.members (G.obj a))

theorem cstep_touches {a b : Nat} : CStep G desc a b ↔ Touches G desc a b := by
  unfold CStep Touches upward
  cases hm : G.isModule a
  · cases hc : G.cont a <;> simp
  · simp

/-- The symbols treated as updated are exactly those that can be reached from the directly updated ones by going to the names
of the container, or, on a mutation or an overwrite, to the members, without passing imported symbols. -/
theorem updated_exact (h : call G n u direct D desc upd ord st = .ok (S, st')) (y : Nat) :
    y ∈ S ↔ ∃ s ∈ direct, G.isImport s = false ∧ Relation.ReflTransGen (Touches G desc) s y := by
  suffices hh : y ∈ S ↔ ∃ s ∈ direct, G.isImport s = false ∧ Relation.ReflTransGen (CStep G desc) s y by
    rw [hh]
    constructor <;> rintro ⟨s, hs, hi, hp⟩
    · exact ⟨s, hs, hi, Relation.ReflTransGen.mono (fun a b hab => cstep_touches.1 hab) _ _ hp⟩
    · exact ⟨s, hs, hi, Relation.ReflTransGen.mono (fun a b hab => cstep_touches.2 hab) _ _ hp⟩
  unfold call at h
  cases h1 : direct.foldlM (fun st s => collect G desc n s st) { st with seen := [], ran := [] } with
  | error e =>
    rw [h1] at h
    cases h
  | ok st1 =>
    rw [h1] at h
    simp only at h
    cases h2 : (ord st1.seen).foldlM (fun st s => go G u (upd ∪ st1.seen.toFinset) n .deps true s st)
        (D.foldl St.see st1) with
    | error e =>
      rw [h2] at h
      cases h
    | ok st2 =>
      rw [h2] at h
      simp only [Except.ok.injEq, Prod.mk.injEq] at h
      obtain ⟨rfl, rfl⟩ := h
      obtain ⟨p1, p2⟩ := foldl_dpost (G := G) (desc := desc)
        (R := fun y => ∃ s ∈ direct, G.isImport s = false ∧ Relation.ReflTransGen (CStep G desc) s y) direct
        { st with seen := [], ran := [] } st1 (fun a ha st st' hc =>
          collect_dpost desc (fun x z ⟨s, hs, hi, hp⟩ hxz => ⟨s, hs, hi, hp.tail hxz⟩) n a st st'
            (fun hi => ⟨a, ha, hi, .refl⟩) hc) h1
      constructor
      · exact fun hy => (p1.reach y hy).resolve_left List.not_mem_nil
      · rintro ⟨s, hs, hi, hp⟩
        induction hp with
        | refl => exact p2 s hs hi
        | tail _ hab ih => exact p1.closed _ ih List.not_mem_nil _ hab

/-! ## C61: the order of registration -/

/-- C61 in part. Without containers, the marks after a propagation are settled by the marks before, the edges and the set of
updated symbols: a symbol is marked if it was and is not updated, or if it is eligible and reached along user edges.
Missing: notebooks with containers, see `order_violated`. -/
theorem marks_exact_partial (hord : Orders ord) (h : call G n u direct D desc upd ord st = .ok (S, st'))
    (hcont : ∀ s, G.cont s = none) (hown : ∀ o, G.ownMembers o = []) (hns : st.nsw = ∅) (y : Nat) :
    y ∈ st'.marked ↔ y ∉ S ∧ (y ∈ st.marked ∨ (y ∉ D ∧ y ∉ upd ∧ y ≠ u ∧ G.disabled y = false ∧
      ∃ s ∈ S, Relation.ReflTransGen (fun a b => (a ∉ D ∨ a ∈ S) ∧ UserOf G u a b) s y)) := by
  obtain ⟨st1, X, hS, p1, p2, x1, x2, x3, x4, q, qk⟩ := call_post (B := fun y => y ∈ D ∧ y ∉ S)
    (R := fun y => ∃ s ∈ S, Relation.ReflTransGen (fun a b => (a ∉ D ∨ a ∈ S) ∧ UserOf G u a b) s y) hord h
    (fun a b hB ⟨s, hs, hp⟩ hab => by
      have hho : holders G a = [] := by
        unfold holders
        rw [hcont]
      refine ⟨s, hs, hp.tail ⟨?_, ?_⟩⟩
      · by_cases ha : a ∈ S
        · exact .inr ha
        · exact .inl (fun hd => hB ⟨hd, ha⟩)
      · rcases hab with hb | hb | hb | ⟨c, hc, _⟩
        · exact mem_kids.1 hb
        · rw [hho] at hb
          exact absurd hb List.not_mem_nil
        · rw [hown] at hb
          exact absurd hb List.not_mem_nil
        · rw [hho] at hc
          exact absurd hc List.not_mem_nil)
    (fun s hs => ⟨⟨s, hs, .refl⟩, fun hb => hb.2 hs⟩) (fun _ h => h.1)
  constructor
  · intro hy
    have hyS : y ∉ S := fun hs => (marks_spare hord h).2.1 y hs hy
    refine ⟨hyS, ?_⟩
    by_cases hm : y ∈ st.marked
    · exact .inl hm
    · right
      obtain ⟨h1, h2, h3, h4⟩ := (marks_spare hord h).1 y hy hm
      refine ⟨h1, h2, h3, h4, ?_⟩
      rcases q.mkd y hy with h5 | ⟨_, h6, h7⟩
      · rw [x1] at h5
        exact absurd (p1.marked h5) hm
      · exact (q.reach y h7).resolve_left h6
  · rintro ⟨hyS, hm | ⟨h1, h2, h3, h4, s, hs, hp⟩⟩
    · refine q.marked ?_
      rw [x1]
      rw [hS] at hyS
      exact p1.kept y hm hyS
    · have hseen : ∀ z, Relation.ReflTransGen (fun a b => (a ∉ D ∨ a ∈ S) ∧ UserOf G u a b) s z → z ∈ st'.seen := by
        intro z hz
        induction hz with
        | refl => exact q.seen ((x4 s).2 (.inr hs))
        | tail _ hab ih =>
          rename_i a b _
          have hb := mem_kids.2 hab.2
          by_cases haS : a ∈ S
          · exact qk a haS b hb
          · exact q.closed a ih (fun hm => ((x4 a).1 hm).elim (hab.1.resolve_right haS) haS) id b hb
      rcases q.wait y (hseen y hp) (fun hm => ((x4 y).1 hm).elim h1 hyS) id (by
        unfold eligible
        simp only [Bool.and_eq_true, Bool.not_eq_true', decide_eq_false_iff_not, Finset.mem_union, List.mem_toFinset]
        exact ⟨⟨fun hc => hc.elim h2 hyS, h4⟩, fun e => h3 e.symm⟩) with hw | ⟨o, z, _, hz⟩
      · exact hw
      · rcases q.nsn _ hz with h5 | h5
        · rw [x2] at h5
          have := p1.nsw h5
          rw [hns] at this
          exact absurd this (Finset.notMem_empty _)
        · rw [hcont] at h5
          cases h5

/-- As `exG`, but `lst = [x, 7]` where 4 is `lst[1]`, and `lst` was computed from `x` as a whole too; `kids` is the order in
which the users of `x` were registered. -/
def orderG (kids : List Nat) : Graph where
  children := fun s => if s = 1 then kids else []
  obj := fun s => if s = 2 then 20 else 10
  aliases := fun o => if o = 20 then [2] else if o = 10 then [1, 3, 4] else []
  cont := fun s => if s = 3 ∨ s = 4 then some 20 else none
  nsModule := fun _ => false
  members := fun o => if o = 20 then [3, 4] else []
  ownMembers := fun o => if o = 20 then [3, 4] else []
  cloned := fun _ => none
  isImport := fun _ => false
  isModule := fun _ => false
  disabled := fun _ => false

/-- C61 does not hold as stated. If the element `lst[0]` was registered as a user of `x` before `lst`, an update of `x` leaves
`lst[1]` as it is; if `lst` was registered first, `lst[1]` becomes stale. -/
theorem order_violated : (∀ s c, c ∈ (orderG [3, 2]).children s ↔ c ∈ (orderG [2, 3]).children s) ∧
    ∃ S S' a b, call (orderG [3, 2]) 20 1 [1] [] false ∅ id ⟨[], ∅, ∅, []⟩ = .ok (S, a) ∧
      call (orderG [2, 3]) 20 1 [1] [] false ∅ id ⟨[], ∅, ∅, []⟩ = .ok (S', b) ∧
      ¬ Waiting (orderG [3, 2]) a 4 ∧ Waiting (orderG [2, 3]) b 4 := by
  refine ⟨fun s c => ?_, [1], [1], ⟨[1, 3, 2], {3}, {(20, 3)}, [1, 3]⟩, ⟨[1, 2, 3, 4], {4, 3, 2}, {(20, 4), (20, 3)}, [1, 2, 3, 4]⟩, rfl, rfl, ?_, ?_⟩
  · unfold orderG
    by_cases h : s = 1 <;> simp [h, or_comm]
  · rintro ⟨_, h | ⟨z, h⟩⟩
    · exact absurd h (by decide)
    · have : ((orderG [3, 2]).obj 4, z) = (20, 3) := Finset.mem_singleton.1 h
      exact absurd (Prod.mk.inj this).1 (by decide)
  · exact ⟨rfl, .inl (by decide)⟩

/-! ## Concrete cases -/

/-- `a` (1), `b` (2), `c` (3), which use each other in a cycle and, `c`, also `d` (4). -/
def cycG : Graph where
  children := fun s => if s = 1 then [2] else if s = 2 then [3, 1] else if s = 3 then [1, 2] else if s = 4 then [3] else []
  obj := fun s => s
  aliases := fun o => [o]
  cont := fun _ => none
  nsModule := fun _ => false
  members := fun _ => []
  ownMembers := fun _ => []
  cloned := fun _ => none
  isImport := fun _ => false
  isModule := fun _ => false
  disabled := fun _ => false

/-- `propagation_terminates` on a cycle. -/
example : ∃ S st', call cycG 11 4 [4] [2] false ∅ id ⟨[], ∅, ∅, []⟩ = .ok (S, st') ∧ ∀ y, st'.ran.count y ≤ 1 := by
  refine propagation_terminates (V := {1, 2, 3, 4}) orders_id ?_ ?_ (by decide) _
  · intro a ha b hb
    simp only [Finset.mem_insert, Finset.mem_singleton] at ha
    rcases ha with rfl | rfl | rfl | rfl <;> simp [cycG] at hb <;> rcases hb with rfl | rfl <;> decide
  · decide

/-- `marks_spare`, `users_told_partial` and `marks_exact_partial`: `d = f(b)` with `c` a user of `d`. `c` and `a` become stale, `b` on
the right-hand side does not. -/
example : call cycG 11 4 [4] [2] false ∅ id ⟨[], ∅, ∅, []⟩ = .ok ([4], ⟨[4, 2, 3, 1], {1, 3}, ∅, [4, 3, 1]⟩) := rfl

example : Waiting cycG ⟨[4, 2, 3, 1], {1, 3}, ∅, [4, 3, 1]⟩ 1 :=
  users_told_partial (r := 4) (D := [2]) (direct := [4]) (upd := ∅) (n := 11) (st := ⟨[], ∅, ∅, []⟩) (S := [4]) (desc := false)
    (ord := id) orders_id rfl (fun o y hy => List.mem_singleton.1 hy) (List.mem_singleton.2 rfl) rfl
    (.tail (.tail .refl (b := 4) (c := 3) ⟨.inr (by decide), by decide, .inl rfl⟩)
      ⟨.inl (by decide), by decide, .inr (by decide)⟩) (by decide)

example : ¬ Waiting cycG ⟨[4, 2, 3, 1], {1, 3}, ∅, [4, 3, 1]⟩ 2 :=
  rhs_not_waiting_partial (D := [2]) (direct := [4]) (upd := ∅) (n := 11) (st := ⟨[], ∅, ∅, []⟩) (S := [4]) (desc := false)
    (ord := id) (u := 4) orders_id rfl (.inl (by decide)) (fun _ h => by cases h)
    (by
      rintro ⟨_, h | ⟨z, h⟩⟩
      · exact absurd h (Finset.notMem_empty _)
      · exact absurd h (Finset.notMem_empty _))

/-- `updated_exact`: after `lst[0] = 5`, `lst` counts as updated too. -/
example : 2 ∈ [3, 2] :=
  (updated_exact (G := exG) (n := 9) (u := 3) (direct := [3]) (D := []) (desc := false) (upd := ∅) (ord := id)
    (st := ⟨[], {2}, {(20, 3)}, []⟩) (st' := ⟨[3, 2], ∅, ∅, [3, 2]⟩) (S := [3, 2]) rfl 2).2
    ⟨3, by decide, rfl, .tail .refl ⟨rfl, .inl (by decide)⟩⟩

/-- `marks_reachable` is not vacuous: `c` was not marked before and is afterwards. -/
example : ∃ s ∈ [4], Relation.ReflTransGen (Affects cycG 4) s 3 :=
  marks_reachable (G := cycG) (n := 11) (u := 4) (direct := [4]) (D := [2]) (desc := false) (upd := ∅) (ord := id)
    (st := ⟨[], ∅, ∅, []⟩) (st' := ⟨[4, 2, 3, 1], {1, 3}, ∅, [4, 3, 1]⟩) orders_id rfl (by decide) (Finset.notMem_empty _)

end Verif.Propagate
