import Mathlib.Logic.Relation
import Mathlib.Data.Finset.Card
import Verif.Propagate.Model

/-! # Staleness propagation: lemmas -/

namespace Verif.Propagate
open Verif

variable {G : Graph} {u : Nat} {upd : Finset Nat}

/-- Where propagation can go from a symbol. -/
def Step (G : Graph) (u a b : Nat) : Prop :=
  b ∈ kids G u a ∨ b ∈ holders G a ∨ b ∈ G.ownMembers (G.obj a) ∨ ∃ h ∈ holders G a, b ∈ kids G u h

/-- A predicate on symbols that propagation does not leave if it does not enter the symbols of `B`. -/
def Closed (G : Graph) (u : Nat) (B R : Nat → Prop) : Prop := ∀ a b, ¬ B a → R a → Step G u a b → R b

/-- The symbol is marked, or it is listed for an object whose namespace has waiting members. -/
def W (G : Graph) (st : St) (y : Nat) : Prop := y ∈ st.marked ∨ ∃ o z, y ∈ G.aliases o ∧ (o, z) ∈ st.nsw

theorem W.mono {st st' : St} {y : Nat} (h : W G st y) (h1 : st.marked ⊆ st'.marked) (h2 : st.nsw ⊆ st'.nsw) :
    W G st' y := by
  rcases h with h | ⟨o, z, ho, hz⟩
  · exact .inl (h1 h)
  · exact .inr ⟨o, z, ho, h2 hz⟩

/-- What calls without `skip_seen_check` guarantee, but for the symbols `E`. -/
structure FPost (G : Graph) (u : Nat) (upd : Finset Nat) (R E : Nat → Prop) (st st' : St) : Prop where
  seen : st.seen ⊆ st'.seen
  marked : st.marked ⊆ st'.marked
  nsw : st.nsw ⊆ st'.nsw
  nsn : ∀ p ∈ st'.nsw, p ∈ st.nsw ∨ G.cont p.2 = some p.1
  closed : ∀ y ∈ st'.seen, y ∉ st.seen → ¬ E y → ∀ c ∈ kids G u y, c ∈ st'.seen
  wait : ∀ y ∈ st'.seen, y ∉ st.seen → ¬ E y → eligible G u upd y = true → W G st' y
  mkd : ∀ y ∈ st'.marked, y ∈ st.marked ∨ eligible G u upd y = true ∧ y ∉ st.seen ∧ y ∈ st'.seen
  ran : ∀ y, st'.ran.count y ≤ st.ran.count y + if y ∉ st.seen ∧ y ∈ st'.seen then 1 else 0
  reach : ∀ y ∈ st'.seen, y ∈ st.seen ∨ R y

variable {B R E : Nat → Prop}

theorem FPost.refl (st : St) : FPost G u upd R E st st where
  seen := fun _ h => h
  marked := fun _ h => h
  nsw := fun _ h => h
  nsn := fun _ h => .inl h
  closed := fun _ h h' => absurd h h'
  wait := fun _ h h' => absurd h h'
  mkd := fun _ h => .inl h
  ran := fun _ => Nat.le_add_right _ _
  reach := fun _ h => .inl h

theorem FPost.trans {st st1 st2 : St} (h : FPost G u upd R E st st1) (h' : FPost G u upd R E st1 st2) :
    FPost G u upd R E st st2 where
  seen := fun _ hx => h'.seen (h.seen hx)
  marked := fun _ hx => h'.marked (h.marked hx)
  nsw := fun _ hx => h'.nsw (h.nsw hx)
  nsn := fun p hp => (h'.nsn p hp).elim (h.nsn p) .inr
  closed := fun y hy hn he c hc => by
    by_cases hm : y ∈ st1.seen
    · exact h'.seen (h.closed y hm hn he c hc)
    · exact h'.closed y hy hm he c hc
  wait := fun y hy hn he hel => by
    by_cases hm : y ∈ st1.seen
    · exact (h.wait y hm hn he hel).mono h'.marked h'.nsw
    · exact h'.wait y hy hm he hel
  mkd := fun y hy => by
    rcases h'.mkd y hy with h1 | ⟨h1, h2, h3⟩
    · exact (h.mkd y h1).imp id (fun ⟨h4, h5, h6⟩ => ⟨h4, h5, h'.seen h6⟩)
    · exact .inr ⟨h1, fun hc => h2 (h.seen hc), h3⟩
  ran := fun y => by
    have h1 := h.ran y
    have h2 := h'.ran y
    by_cases a : y ∈ st.seen
    · have b := h.seen a
      simp only [a, b, not_true, false_and, if_false] at h1 h2 ⊢
      omega
    · by_cases b : y ∈ st1.seen
      · have c := h'.seen b
        simp only [a, b, c, not_true, not_false_iff, true_and, false_and, if_true, if_false] at h1 h2 ⊢
        omega
      · by_cases c : y ∈ st2.seen
        · simp only [a, b, c, not_false_iff, true_and, and_false, if_true, if_false] at h1 h2 ⊢
          omega
        · simp only [b, c, and_false, if_false] at h1 h2 ⊢
          omega
  reach := fun y hy => by
    rcases h'.reach y hy with h1 | h1
    · exact h.reach y h1
    · exact .inr h1

theorem FPost.weaken {E' : Nat → Prop} {st st' : St} (h : FPost G u upd R E st st') (hE : ∀ y, E y → E' y) :
    FPost G u upd R E' st st' :=
  ⟨h.seen, h.marked, h.nsw, h.nsn, fun y a b c => h.closed y a b (fun e => c (hE y e)),
    fun y a b c => h.wait y a b (fun e => c (hE y e)), h.mkd, h.ran, h.reach⟩

/-- A loop of such calls. -/
theorem foldl_fpost {f : St → Nat → Except Err St} : ∀ (xs : List Nat) (st st' : St),
    (∀ x ∈ xs, ∀ st st', (∀ b, B b → b ∈ st.seen) → f st x = .ok st' → FPost G u upd R E st st' ∧ x ∈ st'.seen) →
    (∀ b, B b → b ∈ st.seen) → xs.foldlM f st = .ok st' → FPost G u upd R E st st' ∧ ∀ x ∈ xs, x ∈ st'.seen
  | [], st, st', _, _, h => by
    cases h
    exact ⟨FPost.refl st, fun x hx => absurd hx List.not_mem_nil⟩
  | x :: xs, st, st', hf, hB, h => by
    rw [List.foldlM_cons] at h
    cases hx : f st x with
    | error e =>
      rw [hx] at h
      cases h
    | ok st1 =>
      rw [hx] at h
      obtain ⟨h1, h2⟩ := hf x List.mem_cons_self st st1 hB hx
      obtain ⟨h3, h4⟩ := foldl_fpost xs st1 st' (fun y hy => hf y (List.mem_cons_of_mem _ hy))
        (fun b hb => h1.seen (hB b hb)) h
      refine ⟨h1.trans h3, fun y hy => ?_⟩
      rcases List.mem_cons.1 hy with rfl | hy
      · exact h3.seen h2
      · exact h4 y hy

theorem mem_see {st : St} {s y : Nat} : y ∈ (st.see s).seen ↔ y = s ∨ y ∈ st.seen := by
  unfold St.see
  by_cases h : s ∈ st.seen
  · rw [if_pos h]
    constructor
    · exact .inr
    · rintro (rfl | h')
      · exact h
      · exact h'
  · rw [if_neg h]
    simp [or_comm]

theorem see_marked (st : St) (s : Nat) : (st.see s).marked = st.marked := by
  unfold St.see
  split_ifs <;> rfl

theorem see_nsw (st : St) (s : Nat) : (st.see s).nsw = st.nsw := by
  unfold St.see
  split_ifs <;> rfl

theorem see_ran (st : St) (s : Nat) : (st.see s).ran = st.ran := by
  unfold St.see
  split_ifs <;> rfl

theorem see_of_mem {st : St} {s : Nat} (h : s ∈ st.seen) : st.see s = st := by
  unfold St.see
  rw [if_pos h]

theorem noteWaiting_seen (s : Nat) (st : St) : (noteWaiting G s st).seen = st.seen := by
  unfold noteWaiting
  split
  · rfl
  · split_ifs <;> rfl

theorem noteWaiting_fpost (s : Nat) (st : St) : FPost G u upd R E st (noteWaiting G s st) := by
  unfold noteWaiting
  split
  · exact FPost.refl st
  · rename_i o ho
    split_ifs
    · exact FPost.refl st
    · exact ⟨fun _ h => h, fun _ h => h, fun _ h => Finset.mem_insert_of_mem h,
        fun p hp => (Finset.mem_insert.1 hp).elim (fun e => .inr (by rw [e]; exact ho)) .inl, fun _ h h' => absurd h h',
        fun _ h h' => absurd h h', fun _ h => .inl h, fun _ => Nat.le_add_right _ _, fun _ h => .inl h⟩

theorem noteWaiting_holder {s a : Nat} (st : St) (ha : a ∈ holders G s) :
    ∃ o, a ∈ G.aliases o ∧ (o, s) ∈ (noteWaiting G s st).nsw := by
  unfold holders at ha
  unfold noteWaiting
  cases hc : G.cont s with
  | none =>
    rw [hc] at ha
    exact absurd ha List.not_mem_nil
  | some o =>
    rw [hc] at ha
    simp only at ha ⊢
    by_cases hm : G.nsModule o = true
    · rw [if_pos hm] at ha
      exact absurd ha List.not_mem_nil
    · rw [if_neg hm] at ha ⊢
      exact ⟨o, ha, Finset.mem_insert_self _ _⟩

/-- The state in which `_propagate_waiting_to_deps` goes on after its tests. -/
def enter (G : Graph) (u : Nat) (upd : Finset Nat) (st : St) (s : Nat) : St :=
  if eligible G u upd s then ((st.see s).run s).mark s else (st.see s).run s

theorem enter_seen (st : St) (s : Nat) : (enter G u upd st s).seen = (st.see s).seen := by
  unfold enter
  split_ifs <;> rfl

theorem enter_ran (st : St) (s : Nat) : (enter G u upd st s).ran = st.ran ++ [s] := by
  unfold enter
  rw [← see_ran st s]
  split_ifs <;> rfl

theorem enter_nsw (st : St) (s : Nat) : (enter G u upd st s).nsw = st.nsw := by
  unfold enter
  rw [← see_nsw st s]
  split_ifs <;> rfl

theorem mem_enter_marked {st : St} {s y : Nat} :
    y ∈ (enter G u upd st s).marked ↔ y ∈ st.marked ∨ eligible G u upd s = true ∧ y = s := by
  unfold enter
  by_cases h : eligible G u upd s = true
  · rw [if_pos h]
    show y ∈ insert s (st.see s).marked ↔ _
    rw [see_marked, Finset.mem_insert]
    simp [h, or_comm]
  · rw [if_neg h]
    show y ∈ (st.see s).marked ↔ _
    rw [see_marked]
    simp [h]

/-- From the state after the tests of `_propagate_waiting_to_deps` to the state before. -/
theorem FPost.ofEnter {st st' : St} {s : Nat} (h : FPost G u upd R E (enter G u upd st s) st') (hs : s ∉ st.seen)
    (hk : ∀ c ∈ kids G u s, c ∈ st'.seen) (hR : R s) : FPost G u upd R E st st' := by
  have hsee : ∀ y, y ∈ (enter G u upd st s).seen ↔ y = s ∨ y ∈ st.seen := fun y => by rw [enter_seen, mem_see]
  refine ⟨fun y hy => h.seen ((hsee y).2 (.inr hy)), fun y hy => h.marked (mem_enter_marked.2 (.inl hy)),
    fun y hy => h.nsw (by rw [enter_nsw]; exact hy),
    fun p hp => (h.nsn p hp).elim (fun hq => .inl (by rw [enter_nsw] at hq; exact hq)) .inr, fun y hy hn he c hc => ?_, fun y hy hn he hel => ?_,
    fun y hy => ?_, fun y => ?_, fun y hy => ?_⟩
  · by_cases hys : y = s
    · subst hys
      exact hk c hc
    · exact h.closed y hy (fun hm => ((hsee y).1 hm).elim hys hn) he c hc
  · by_cases hys : y = s
    · subst hys
      exact .inl (h.marked (mem_enter_marked.2 (.inr ⟨hel, rfl⟩)))
    · exact h.wait y hy (fun hm => ((hsee y).1 hm).elim hys hn) he hel
  · rcases h.mkd y hy with h1 | ⟨h1, h2, h2'⟩
    · rcases mem_enter_marked.1 h1 with h3 | ⟨h3, rfl⟩
      · exact .inl h3
      · exact .inr ⟨h3, hs, h.seen ((hsee _).2 (.inl rfl))⟩
    · exact .inr ⟨h1, fun hc => h2 ((hsee y).2 (.inr hc)), h2'⟩
  · have h1 := h.ran y
    rw [enter_ran, List.count_append] at h1
    by_cases hys : y = s
    · subst hys
      have a : y ∈ (enter G u upd st y).seen := (hsee y).2 (.inl rfl)
      have b : y ∈ st'.seen := h.seen a
      simp only [a, b, hs, not_true, false_and, not_false_iff, true_and, if_false, if_true,
        List.count_singleton_self] at h1 ⊢
      omega
    · have e : (y ∈ (enter G u upd st s).seen) ↔ y ∈ st.seen := by rw [hsee]; simp [hys]
      have z : List.count y [s] = 0 := List.count_eq_zero.2 (by simpa using hys)
      simp only [e, z] at h1
      omega
  · rcases h.reach y hy with h1 | h1
    · rcases (hsee y).1 h1 with rfl | h2
      · exact .inr hR
      · exact .inl h2
    · exact .inr h1

theorem FPost.ofSee {st st' : St} {s : Nat} (h : FPost G u upd R E (st.see s) st') (hR : R s) :
    FPost G u upd R (fun y => E y ∨ y = s) st st' := by
  refine ⟨fun y hy => h.seen (mem_see.2 (.inr hy)), fun y hy => h.marked (by rw [see_marked]; exact hy),
    fun y hy => h.nsw (by rw [see_nsw]; exact hy),
    fun p hp => (h.nsn p hp).elim (fun hq => .inl (by rw [see_nsw] at hq; exact hq)) .inr, fun y hy hn he c hc => ?_, fun y hy hn he hel => ?_,
    fun y hy => ?_, fun y => ?_, fun y hy => ?_⟩
  · exact h.closed y hy (fun hm => (mem_see.1 hm).elim (fun e => he (.inr e)) hn) (fun e => he (.inl e)) c hc
  · exact h.wait y hy (fun hm => (mem_see.1 hm).elim (fun e => he (.inr e)) hn) (fun e => he (.inl e)) hel
  · rcases h.mkd y hy with h1 | ⟨h1, h2, h2'⟩
    · rw [see_marked] at h1
      exact .inl h1
    · exact .inr ⟨h1, fun hc => h2 (mem_see.2 (.inr hc)), h2'⟩
  · have h1 := h.ran y
    rw [see_ran] at h1
    refine h1.trans (Nat.add_le_add_left ?_ _)
    by_cases a : y ∈ st.seen
    · have b : y ∈ (st.see s).seen := mem_see.2 (.inr a)
      simp [a, b]
    · by_cases b : y ∈ st'.seen
      · simp only [a, b, not_false_iff, true_and, if_true]
        split_ifs <;> decide
      · simp [b]
  · rcases h.reach y hy with h1 | h1
    · rcases mem_see.1 h1 with rfl | h2
      · exact .inr hR
      · exact .inl h2
    · exact .inr h1

/-- What a call guarantees if it got past its test. -/
def GPost (G : Graph) (u : Nat) (upd : Finset Nat) (R : Nat → Prop) (f : Fn) (s : Nat) (st st' : St) : Prop :=
  match f with
  | .parents => FPost G u upd R (fun _ => False) (st.see s) st'
  | .children => FPost G u upd R (fun _ => False) (st.see s) st'
  | .deps => FPost G u upd R (fun _ => False) (enter G u upd st s) st' ∧ ∀ c ∈ kids G u s, c ∈ st'.seen

/-- A call of `_propagate_waiting_to_deps` without `skip_seen_check`. -/
theorem deps_false {n s : Nat} {st st' : St} (hR : R s)
    (ih : s ∉ st.seen → GPost G u upd R .deps s st st')
    (h : go G u upd n .deps false s st = .ok st') :
    FPost G u upd R (fun _ => False) st st' ∧ s ∈ st'.seen := by
  by_cases hs : s ∈ st.seen
  · have : st' = st := by
      cases n with
      | zero => cases h
      | succ n =>
        unfold go at h
        rw [if_pos ⟨rfl, hs⟩] at h
        cases h
        rfl
    subst this
    exact ⟨FPost.refl _, hs⟩
  · obtain ⟨h1, h2⟩ := ih hs
    refine ⟨h1.ofEnter hs h2 hR, h1.seen ?_⟩
    rw [enter_seen, mem_see]
    exact .inl rfl

/-- A call of `_propagate_waiting_to_namespace_parents` without `skip_seen_check`. -/
theorem parents_false {n s : Nat} {st st' : St} (hR : R s)
    (ih : s ∉ st.seen → GPost G u upd R .parents s st st')
    (h : go G u upd n .parents false s st = .ok st') :
    FPost G u upd R (fun y => y = s) st st' ∧ s ∈ st'.seen := by
  by_cases hs : s ∈ st.seen
  · have : st' = st := by
      cases n with
      | zero => cases h
      | succ n =>
        unfold go at h
        rw [if_pos ⟨rfl, hs⟩] at h
        cases h
        rfl
    subst this
    exact ⟨FPost.refl _, hs⟩
  · have h1 : FPost G u upd R (fun _ => False) (st.see s) st' := ih hs
    exact ⟨(h1.ofSee hR).weaken (fun y hy => hy.resolve_left id), h1.seen (mem_see.2 (.inl rfl))⟩

theorem go_post (hR : Closed G u B R) : ∀ (n : Nat) (f : Fn) (skip : Bool) (s : Nat) (st st' : St),
    go G u upd n f skip s st = .ok st' → R s → (skip = true ∧ ¬ B s ∨ s ∉ st.seen) → (∀ b, B b → b ∈ st.seen) →
    GPost G u upd R f s st st'
  | 0, _, _, _, _, _, h, _, _, _ => by cases h
  | n + 1, f, skip, s, st, st', h, hs, hx, hB => by
    have ih := go_post hR n
    have hsB : ¬ B s := hx.elim (fun h => h.2) (fun h hb => h (hB s hb))
    have hdeps : ∀ c, R c → ∀ st st', (∀ b, B b → b ∈ st.seen) → go G u upd n .deps false c st = .ok st' →
        FPost G u upd R (fun _ => False) st st' ∧ c ∈ st'.seen := fun c hc st st' hB hgo =>
      deps_false hc (fun hx => ih .deps false c st st' hgo hc (.inr hx) hB) hgo
    have hBsee : ∀ b, B b → b ∈ (st.see s).seen := fun b hb => mem_see.2 (.inr (hB b hb))
    unfold go at h
    rw [if_neg (by
      rintro ⟨h1, h2⟩
      rcases hx with ⟨hx, _⟩ | hx
      · rw [h1] at hx; cases hx
      · exact hx h2)] at h
    cases f with
    | parents =>
      simp only at h
      cases h1 : (holders G s).foldlM (fun st a => go G u upd n .parents false a st) (noteWaiting G s (st.see s)) with
      | error e =>
        rw [h1] at h
        cases h
      | ok st1 =>
        rw [h1] at h
        simp only at h
        obtain ⟨p1, p1'⟩ := foldl_fpost (G := G) (u := u) (upd := upd) (R := R) (B := B)
          (E := fun y => y ∈ holders G s) _ _ _ (fun a ha st st' hB hgo => by
          have hRa : R a := hR s a hsB hs (.inr (.inl ha))
          obtain ⟨q1, q2⟩ := parents_false (upd := upd) hRa
            (fun hx => ih .parents false a st st' hgo hRa (.inr hx) hB) hgo
          exact ⟨q1.weaken (fun y hy => hy ▸ ha), q2⟩) (by rw [noteWaiting_seen]; exact hBsee) h1
        have p2 : FPost G u upd R (fun _ => False) st1 st' ∧
            ∀ a ∈ holders G s, ∀ c ∈ kids G u a, c ∈ st'.seen := by
          have aux : ∀ (as : List Nat), (∀ a ∈ as, a ∈ holders G s) → ∀ st1 st', (∀ b, B b → b ∈ st1.seen) →
              as.foldlM (fun st a => (kids G u a).foldlM (fun st c => go G u upd n .deps false c st) st) st1 = .ok st' →
              FPost G u upd R (fun _ => False) st1 st' ∧ ∀ a ∈ as, ∀ c ∈ kids G u a, c ∈ st'.seen := by
            intro as
            induction as with
            | nil =>
              intro _ st1 st' _ hf
              cases hf
              exact ⟨FPost.refl _, fun a ha => absurd ha List.not_mem_nil⟩
            | cons a as iha =>
              intro hm st1 st' hB1 hf
              rw [List.foldlM_cons] at hf
              cases h2 : (kids G u a).foldlM (fun st c => go G u upd n .deps false c st) st1 with
              | error e =>
                rw [h2] at hf
                cases hf
              | ok st2 =>
                rw [h2] at hf
                obtain ⟨q1, q2⟩ := foldl_fpost (G := G) (u := u) (upd := upd) (R := R) (B := B) (E := fun _ => False)
                  _ _ _ (fun c hc st st' hB hgo =>
                    hdeps c (hR s c hsB hs (.inr (.inr (.inr ⟨a, hm a List.mem_cons_self, hc⟩)))) st st' hB hgo) hB1 h2
                obtain ⟨r1, r2⟩ := iha (fun b hb => hm b (List.mem_cons_of_mem _ hb)) st2 st'
                  (fun b hb => q1.seen (hB1 b hb)) hf
                refine ⟨q1.trans r1, fun b hb c hc => ?_⟩
                rcases List.mem_cons.1 hb with rfl | hb
                · exact r1.seen (q2 c hc)
                · exact r2 b hb c hc
          exact aux _ (fun a ha => ha) st1 st' (fun b hb => p1.seen (by rw [noteWaiting_seen]; exact hBsee b hb)) h
        obtain ⟨p2, p2'⟩ := p2
        have p0 : FPost G u upd R (fun y => y ∈ holders G s) (st.see s) (noteWaiting G s (st.see s)) :=
          noteWaiting_fpost s _
        have p := (p0.trans p1).trans (p2.weaken (fun y hy => hy.elim))
        refine ⟨p.seen, p.marked, p.nsw, p.nsn, fun y hy hn _ c hc => ?_, fun y hy hn _ hel => ?_, p.mkd, p.ran, p.reach⟩
        · by_cases ha : y ∈ holders G s
          · exact p2' y ha c hc
          · exact p.closed y hy hn ha c hc
        · by_cases ha : y ∈ holders G s
          · obtain ⟨o, h1, h2⟩ := noteWaiting_holder (st.see s) ha
            exact .inr ⟨o, s, h1, p2.nsw (p1.nsw h2)⟩
          · exact p.wait y hy hn ha hel
    | children =>
      simp only at h
      exact (foldl_fpost (G := G) (u := u) (upd := upd) (R := R) (B := B) (E := fun _ => False) _ _ _
        (fun c hc st st' hB hgo => hdeps c (hR s c hsB hs (.inr (.inr (.inl hc)))) st st' hB hgo) hBsee h).1
    | deps =>
      simp only at h
      have hkids : ∀ st1 st', (∀ b, B b → b ∈ st1.seen) → (kids G u s).foldlM (fun st c => go G u upd n .deps false c st) st1 = .ok st' →
          FPost G u upd R (fun _ => False) st1 st' ∧ ∀ c ∈ kids G u s, c ∈ st'.seen := fun st1 st' hB1 hf =>
        foldl_fpost (B := B) _ _ _ (fun c hc st st' hB hgo => hdeps c (hR s c hsB hs (.inl hc)) st st' hB hgo) hB1 hf
      by_cases he : eligible G u upd s = true
      · rw [if_pos he] at h
        have hX : enter G u upd st s = ((st.see s).run s).mark s := by
          unfold enter
          rw [if_pos he]
        have hmem : s ∈ (((st.see s).run s).mark s).seen := mem_see.2 (.inl rfl)
        cases h1 : go G u upd n .parents true s (((st.see s).run s).mark s) with
        | error e =>
          rw [h1] at h
          cases h
        | ok st1 =>
          rw [h1] at h
          simp only at h
          have q1 : FPost G u upd R (fun _ => False) ((((st.see s).run s).mark s).see s) st1 :=
            ih .parents true s _ st1 h1 hs (.inl ⟨rfl, hsB⟩) hBsee
          rw [see_of_mem hmem] at q1
          cases h2 : go G u upd n .children true s st1 with
          | error e =>
            rw [h2] at h
            cases h
          | ok st2 =>
            rw [h2] at h
            simp only at h
            have q2 : FPost G u upd R (fun _ => False) (st1.see s) st2 :=
              ih .children true s _ st2 h2 hs (.inl ⟨rfl, hsB⟩) (fun b hb => q1.seen (hBsee b hb))
            rw [see_of_mem (q1.seen hmem)] at q2
            obtain ⟨q3, q4⟩ := hkids st2 st' (fun b hb => q2.seen (q1.seen (hBsee b hb))) h
            refine ⟨?_, q4⟩
            rw [hX]
            exact (q1.trans q2).trans q3
      · rw [if_neg he] at h
        have hX : enter G u upd st s = (st.see s).run s := by
          unfold enter
          rw [if_neg he]
        obtain ⟨q3, q4⟩ := hkids ((st.see s).run s) st' hBsee h
        refine ⟨?_, q4⟩
        rw [hX]
        exact q3

/-! ## Recursion ends -/

/-- Symbols of `V` not seen yet. -/
def unseen (V : Finset Nat) (st : St) : Nat := (V.filter (fun x => x ∉ st.seen)).card

theorem unseen_mono {V : Finset Nat} {st st' : St} (h : st.seen ⊆ st'.seen) : unseen V st' ≤ unseen V st := by
  refine Finset.card_le_card (fun x hx => ?_)
  rw [Finset.mem_filter] at hx ⊢
  exact ⟨hx.1, fun hc => hx.2 (h hc)⟩

theorem unseen_lt {V : Finset Nat} {st st' : St} {s : Nat} (h : st.seen ⊆ st'.seen) (hs : s ∈ V) (hn : s ∉ st.seen)
    (hm : s ∈ st'.seen) : unseen V st' + 1 ≤ unseen V st := by
  refine Finset.card_lt_card ⟨fun x hx => ?_, fun hsub => ?_⟩
  · rw [Finset.mem_filter] at hx ⊢
    exact ⟨hx.1, fun hc => hx.2 (h hc)⟩
  · have := hsub (Finset.mem_filter.2 ⟨hs, hn⟩)
    exact (Finset.mem_filter.1 this).2 hm

theorem go_seen {n : Nat} {f : Fn} {skip : Bool} {s : Nat} {st st' : St} (h : go G u upd n f skip s st = .ok st') :
    st.seen ⊆ st'.seen ∧ s ∈ st'.seen := by
  by_cases hx : skip = false ∧ s ∈ st.seen
  · cases n with
    | zero => cases h
    | succ n =>
      unfold go at h
      rw [if_pos hx] at h
      cases h
      exact ⟨fun _ h => h, hx.2⟩
  · have hx' : skip = true ∨ s ∉ st.seen := by
      cases skip
      · exact .inr (fun hm => hx ⟨rfl, hm⟩)
      · exact .inl rfl
    have hp := go_post (B := fun _ => False) (R := fun _ => True) (fun _ _ _ _ _ => trivial) n f skip s st st' h trivial
      (hx'.imp_left (fun h => ⟨h, id⟩)) (fun _ h => h.elim)
    cases f with
    | parents =>
      have hp : FPost G u upd _ _ (st.see s) st' := hp
      exact ⟨fun y hy => hp.seen (mem_see.2 (.inr hy)), hp.seen (mem_see.2 (.inl rfl))⟩
    | children =>
      have hp : FPost G u upd _ _ (st.see s) st' := hp
      exact ⟨fun y hy => hp.seen (mem_see.2 (.inr hy)), hp.seen (mem_see.2 (.inl rfl))⟩
    | deps =>
      have hp : FPost G u upd _ _ (enter G u upd st s) st' := hp.1
      exact ⟨fun y hy => hp.seen (by rw [enter_seen]; exact mem_see.2 (.inr hy)),
        hp.seen (by rw [enter_seen]; exact mem_see.2 (.inl rfl))⟩

/-- A loop whose calls return. -/
theorem foldl_ok {f : St → Nat → Except Err St} (Q : St → Prop) : ∀ (xs : List Nat) (st : St), Q st →
    (∀ x ∈ xs, ∀ st, Q st → ∃ st', f st x = .ok st' ∧ Q st') → ∃ st', xs.foldlM f st = .ok st' ∧ Q st'
  | [], st, hQ, _ => ⟨st, rfl, hQ⟩
  | x :: xs, st, hQ, hf => by
    obtain ⟨st1, h1, h2⟩ := hf x List.mem_cons_self st hQ
    obtain ⟨st2, h3, h4⟩ := foldl_ok Q xs st1 h2 (fun y hy => hf y (List.mem_cons_of_mem _ hy))
    refine ⟨st2, ?_, h4⟩
    rw [List.foldlM_cons, h1]
    exact h3

/-- The depth a call needs. -/
def need (f : Fn) (skip : Bool) : Nat :=
  match skip, f with
  | false, _ => 1
  | true, .deps => 3
  | true, _ => 2

theorem go_ok (V : Finset Nat) (hV : ∀ a ∈ V, ∀ b, Step G u a b → b ∈ V) :
    ∀ (n : Nat) (f : Fn) (skip : Bool) (s : Nat) (st : St), s ∈ V → 2 * unseen V st + need f skip ≤ n →
      ∃ st', go G u upd n f skip s st = .ok st'
  | 0, f, skip, s, st, _, hn => by
    exfalso
    cases skip <;> cases f <;> simp [need] at hn
  | n + 1, f, skip, s, st, hs, hn => by
    have ih := go_ok V hV n
    by_cases hx : skip = false ∧ s ∈ st.seen
    · exact ⟨st, by unfold go; rw [if_pos hx]⟩
    -- the calls without `skip_seen_check` return
    have hq : ∀ f c, c ∈ V → ∀ st0, 2 * unseen V st0 + 1 ≤ n →
        ∃ st', go G u upd n f false c st0 = .ok st' ∧ 2 * unseen V st' + 1 ≤ n := by
      intro f c hc st0 h0
      obtain ⟨st', h'⟩ := ih f false c st0 hc h0
      have := unseen_mono (V := V) (go_seen h').1
      exact ⟨st', h', by omega⟩
    -- what is left after the symbol was added
    have hdec : 2 * unseen V (st.see s) + need f true ≤ n + 1 ∨ 2 * unseen V (st.see s) + 3 ≤ n + 1 := by
      cases skip with
      | true =>
        left
        have := unseen_mono (V := V) (st := st) (st' := st.see s) (fun y hy => mem_see.2 (.inr hy))
        omega
      | false =>
        right
        have hns : s ∉ st.seen := fun hm => hx ⟨rfl, hm⟩
        have := unseen_lt (V := V) (st := st) (st' := st.see s) (fun y hy => mem_see.2 (.inr hy)) hs hns
          (mem_see.2 (.inl rfl))
        simp only [need] at hn
        omega
    unfold go
    rw [if_neg hx]
    cases f with
    | parents =>
      have h2 : 2 * unseen V (st.see s) + 1 ≤ n := by
        simp only [need] at hdec
        omega
      simp only
      have hu : unseen V (noteWaiting G s (st.see s)) = unseen V (st.see s) := by
        unfold unseen
        rw [noteWaiting_seen]
      obtain ⟨st1, h1, q1⟩ := foldl_ok (f := fun st a => go G u upd n .parents false a st)
        (fun st => 2 * unseen V st + 1 ≤ n) (holders G s) (noteWaiting G s (st.see s)) (by rw [hu]; exact h2)
        (fun a ha st0 h0 => hq .parents a (hV s hs a (.inr (.inl ha))) st0 h0)
      rw [h1]
      simp only
      obtain ⟨st2, h3, _⟩ := foldl_ok
        (f := fun st a => (kids G u a).foldlM (fun st c => go G u upd n .deps false c st) st)
        (fun st => 2 * unseen V st + 1 ≤ n) (holders G s) st1 q1
        (fun a ha st0 h0 => foldl_ok (f := fun st c => go G u upd n .deps false c st)
          (fun st => 2 * unseen V st + 1 ≤ n) (kids G u a) st0 h0
          (fun c hc st0 h0 => hq .deps c (hV a (hV s hs a (.inr (.inl ha))) c (.inl hc)) st0 h0))
      exact ⟨st2, h3⟩
    | children =>
      have h2 : 2 * unseen V (st.see s) + 1 ≤ n := by
        simp only [need] at hdec
        omega
      simp only
      obtain ⟨st1, h1, _⟩ := foldl_ok (f := fun st c => go G u upd n .deps false c st)
        (fun st => 2 * unseen V st + 1 ≤ n) (G.ownMembers (G.obj s)) (st.see s) h2
        (fun c hc st0 h0 => hq .deps c (hV s hs c (.inr (.inr (.inl hc)))) st0 h0)
      exact ⟨st1, h1⟩
    | deps =>
      have h2 : 2 * unseen V (st.see s) + 2 ≤ n := by
        simp only [need] at hdec
        omega
      simp only
      have hk : ∀ st0, 2 * unseen V st0 + 1 ≤ n →
          ∃ st', (kids G u s).foldlM (fun st c => go G u upd n .deps false c st) st0 = .ok st' := by
        intro st0 h0
        obtain ⟨st1, h1, _⟩ := foldl_ok (f := fun st c => go G u upd n .deps false c st)
          (fun st => 2 * unseen V st + 1 ≤ n) (kids G u s) st0 h0
          (fun c hc st0 h0 => hq .deps c (hV s hs c (.inl hc)) st0 h0)
        exact ⟨st1, h1⟩
      by_cases he : eligible G u upd s = true
      · rw [if_pos he]
        obtain ⟨st1, h1⟩ := ih .parents true s (((st.see s).run s).mark s) hs h2
        rw [h1]
        simp only
        have u1 : unseen V st1 ≤ unseen V (st.see s) := unseen_mono (V := V) (go_seen h1).1
        obtain ⟨st2, h3⟩ := ih .children true s st1 hs (by simp only [need]; omega)
        rw [h3]
        simp only
        have u2 := unseen_mono (V := V) (go_seen h3).1
        exact hk st2 (by omega)
      · rw [if_neg he]
        refine hk _ ?_
        show 2 * unseen V (st.see s) + 1 ≤ n
        omega

/-! ## The first phase -/

/-- What the first phase guarantees. -/
structure CPost (G : Graph) (st st' : St) : Prop where
  seen : st.seen ⊆ st'.seen
  marked : st'.marked ⊆ st.marked
  nsw : st'.nsw ⊆ st.nsw
  fresh : ∀ y ∈ st'.seen, y ∉ st.seen → y ∉ st'.marked ∧ G.isImport y = false
  ran : st'.ran = st.ran
  nodup : st.seen.Nodup → st'.seen.Nodup
  kept : ∀ y ∈ st.marked, y ∉ st'.seen → y ∈ st'.marked

theorem CPost.refl (st : St) : CPost G st st :=
  ⟨fun _ h => h, fun _ h => h, fun _ h => h, fun _ h h' => absurd h h', rfl, fun h => h, fun _ h _ => h⟩

theorem CPost.trans {st st1 st2 : St} (h : CPost G st st1) (h' : CPost G st1 st2) : CPost G st st2 where
  seen := fun _ hx => h'.seen (h.seen hx)
  marked := fun _ hx => h.marked (h'.marked hx)
  nsw := fun _ hx => h.nsw (h'.nsw hx)
  fresh := fun y hy hn => by
    by_cases hm : y ∈ st1.seen
    · exact ⟨fun hc => (h.fresh y hm hn).1 (h'.marked hc), (h.fresh y hm hn).2⟩
    · exact h'.fresh y hy hm
  ran := h'.ran.trans h.ran
  nodup := fun hx => h'.nodup (h.nodup hx)
  kept := fun y hy hn => h'.kept y (h.kept y hy (fun hc => hn (h'.seen hc))) hn

theorem foldl_cpost {f : St → Nat → Except Err St} : ∀ (xs : List Nat) (st st' : St),
    (∀ x ∈ xs, ∀ st st', f st x = .ok st' → CPost G st st') → xs.foldlM f st = .ok st' → CPost G st st'
  | [], st, st', _, h => by
    cases h
    exact CPost.refl st
  | x :: xs, st, st', hf, h => by
    rw [List.foldlM_cons] at h
    cases hx : f st x with
    | error e =>
      rw [hx] at h
      cases h
    | ok st1 =>
      rw [hx] at h
      exact (hf x List.mem_cons_self st st1 hx).trans
        (foldl_cpost xs st1 st' (fun y hy => hf y (List.mem_cons_of_mem _ hy)) h)

theorem fresh_cpost {st : St} {s : Nat} (hs : s ∉ st.seen) (hi : G.isImport s = false) : CPost G st (st.fresh G s) where
  seen := fun _ h => List.mem_append_left _ h
  marked := fun _ h => Finset.mem_of_mem_erase h
  nsw := fun p h => by
    unfold St.fresh at h
    simp only at h
    split_ifs at h
    · exact h
    · split at h
      · exact h
      · exact Finset.mem_of_mem_erase h
  fresh := fun y hy hn => by
    have : y = s := by
      rcases List.mem_append.1 hy with h | h
      · exact absurd h hn
      · simpa using h
    subst this
    exact ⟨Finset.notMem_erase _ _, hi⟩
  ran := rfl
  nodup := fun h => List.Nodup.append h (List.nodup_singleton s) (by simpa using hs)
  kept := fun y hy hn => Finset.mem_erase.2
    ⟨fun e => hn (List.mem_append_right _ (List.mem_singleton.2 e)), hy⟩

theorem collect_post (desc : Bool) : ∀ (n s : Nat) (st st' : St), collect G desc n s st = .ok st' →
    CPost G st st' ∧ (s ∈ st'.seen ∨ G.isImport s = true)
  | 0, _, _, _, h => by cases h
  | n + 1, s, st, st', h => by
    unfold collect at h
    by_cases hx : G.isImport s = true ∨ s ∈ st.seen
    · rw [if_pos hx] at h
      cases h
      exact ⟨CPost.refl st, hx.symm⟩
    · rw [if_neg hx] at h
      rw [not_or] at hx
      have hf := fresh_cpost (G := G) hx.2 (by simpa using hx.1)
      have hm : s ∈ (st.fresh G s).seen := List.mem_append_right _ (List.mem_singleton.2 rfl)
      cases h1 : (upward G s).foldlM (fun st a => collect G desc n a st) (st.fresh G s) with
      | error e =>
        rw [h1] at h
        cases h
      | ok st1 =>
        rw [h1] at h
        simp only at h
        have p1 := foldl_cpost (G := G) _ _ _ (fun a _ st st' hc => (collect_post desc n a st st' hc).1) h1
        cases desc with
        | false =>
          cases h
          exact ⟨hf.trans p1, .inl (p1.seen hm)⟩
        | true =>
          have p2 := foldl_cpost (G := G) _ _ _ (fun a _ st st' hc => (collect_post true n a st st' hc).1) h
          exact ⟨(hf.trans p1).trans p2, .inl (p2.seen (p1.seen hm))⟩

/-- One step of the collection of updated symbols. -/
def CStep (G : Graph) (desc : Bool) (a b : Nat) : Prop :=
  G.isImport b = false ∧ (b ∈ upward G a ∨ desc = true ∧ b ∈ G.members (G.obj a))

/-- What the collection guarantees about the set it builds. -/
structure DPost (G : Graph) (desc : Bool) (R : Nat → Prop) (st st' : St) : Prop where
  seen : st.seen ⊆ st'.seen
  closed : ∀ y ∈ st'.seen, y ∉ st.seen → ∀ c, CStep G desc y c → c ∈ st'.seen
  reach : ∀ y ∈ st'.seen, y ∈ st.seen ∨ R y

theorem DPost.trans {desc : Bool} {st st1 st2 : St} (h : DPost G desc R st st1) (h' : DPost G desc R st1 st2) :
    DPost G desc R st st2 where
  seen := fun _ hx => h'.seen (h.seen hx)
  closed := fun y hy hn c hc => by
    by_cases hm : y ∈ st1.seen
    · exact h'.seen (h.closed y hm hn c hc)
    · exact h'.closed y hy hm c hc
  reach := fun y hy => (h'.reach y hy).elim (h.reach y) .inr

theorem foldl_dpost {desc : Bool} {f : St → Nat → Except Err St} : ∀ (xs : List Nat) (st st' : St),
    (∀ x ∈ xs, ∀ st st', f st x = .ok st' →
      DPost G desc R st st' ∧ (G.isImport x = false → x ∈ st'.seen)) → xs.foldlM f st = .ok st' →
    DPost G desc R st st' ∧ ∀ x ∈ xs, G.isImport x = false → x ∈ st'.seen
  | [], st, st', _, h => by
    cases h
    exact ⟨⟨fun _ h => h, fun _ h h' => absurd h h', fun _ h => .inl h⟩, fun x hx => absurd hx List.not_mem_nil⟩
  | x :: xs, st, st', hf, h => by
    rw [List.foldlM_cons] at h
    cases hx : f st x with
    | error e =>
      rw [hx] at h
      cases h
    | ok st1 =>
      rw [hx] at h
      obtain ⟨p1, p2⟩ := hf x List.mem_cons_self st st1 hx
      obtain ⟨q1, q2⟩ := foldl_dpost xs st1 st' (fun y hy => hf y (List.mem_cons_of_mem _ hy)) h
      refine ⟨p1.trans q1, fun y hy hi => ?_⟩
      rcases List.mem_cons.1 hy with rfl | hy
      · exact q1.seen (p2 hi)
      · exact q2 y hy hi

theorem collect_dpost (desc : Bool) (hR : ∀ a b, R a → CStep G desc a b → R b) : ∀ (n s : Nat) (st st' : St),
    (G.isImport s = false → R s) → collect G desc n s st = .ok st' →
    DPost G desc R st st' ∧ (G.isImport s = false → s ∈ st'.seen)
  | 0, _, _, _, _, h => by cases h
  | n + 1, s, st, st', hs, h => by
    unfold collect at h
    by_cases hx : G.isImport s = true ∨ s ∈ st.seen
    · rw [if_pos hx] at h
      cases h
      refine ⟨⟨fun _ h => h, fun _ h h' => absurd h h', fun _ h => .inl h⟩, fun hi => ?_⟩
      rcases hx with hx | hx
      · rw [hi] at hx
        cases hx
      · exact hx
    · rw [if_neg hx] at h
      rw [not_or] at hx
      have hi : G.isImport s = false := by simpa using hx.1
      have hRs := hs hi
      have hsee : ∀ y, y ∈ (st.fresh G s).seen ↔ y ∈ st.seen ∨ y = s := fun y => by
        show y ∈ st.seen ++ [s] ↔ _
        simp
      cases h1 : (upward G s).foldlM (fun st a => collect G desc n a st) (st.fresh G s) with
      | error e =>
        rw [h1] at h
        cases h
      | ok st1 =>
        rw [h1] at h
        simp only at h
        obtain ⟨p1, p2⟩ := foldl_dpost (G := G) (desc := desc) (R := R) _ _ _ (fun a ha st st' hc =>
          collect_dpost desc hR n a st st' (fun hia => hR s a hRs ⟨hia, .inl ha⟩) hc) h1
        have hfin : ∀ st2, DPost G desc R st1 st2 →
            (desc = true → ∀ x ∈ G.members (G.obj s), G.isImport x = false → x ∈ st2.seen) →
            DPost G desc R st st2 ∧ (G.isImport s = false → s ∈ st2.seen) := by
          intro st2 q1 q2
          have p := p1.trans q1
          refine ⟨⟨fun y hy => p.seen ((hsee y).2 (.inl hy)), fun y hy hn c hc => ?_, fun y hy => ?_⟩,
            fun _ => p.seen ((hsee s).2 (.inr rfl))⟩
          · by_cases hys : y = s
            · subst hys
              rcases hc with ⟨hci, hc | ⟨hd, hc⟩⟩
              · exact q1.seen (p2 c hc hci)
              · exact q2 hd c hc hci
            · exact p.closed y hy (fun hm => ((hsee y).1 hm).elim hn hys) c hc
          · rcases p.reach y hy with h2 | h2
            · rcases (hsee y).1 h2 with h3 | rfl
              · exact .inl h3
              · exact .inr hRs
            · exact .inr h2
        by_cases hd : desc = true
        · rw [if_pos hd] at h
          obtain ⟨q1, q2⟩ := foldl_dpost (G := G) (desc := desc) (R := R) _ _ _ (fun a ha st st' hc =>
            collect_dpost desc hR n a st st' (fun hia => hR s a hRs ⟨hia, .inr ⟨hd, ha⟩⟩) hc) h
          exact hfin st' q1 (fun _ => q2)
        · rw [if_neg hd] at h
          cases h
          exact hfin st' ⟨fun _ h => h, fun _ h h' => absurd h h', fun _ h => .inl h⟩ (fun hd' => absurd hd' hd)

theorem collect_ok (desc : Bool) (V : Finset Nat)
    (hV : ∀ a ∈ V, ∀ b, b ∈ upward G a ∨ b ∈ G.members (G.obj a) → b ∈ V) :
    ∀ (n s : Nat) (st : St), s ∈ V → unseen V st + 1 ≤ n → ∃ st', collect G desc n s st = .ok st'
  | 0, _, _, _, h => by omega
  | n + 1, s, st, hs, hn => by
    unfold collect
    by_cases hx : G.isImport s = true ∨ s ∈ st.seen
    · exact ⟨st, by rw [if_pos hx]⟩
    · rw [if_neg hx]
      rw [not_or] at hx
      have hm : s ∈ (st.fresh G s).seen := List.mem_append_right _ (List.mem_singleton.2 rfl)
      have hlt := unseen_lt (V := V) (st := st) (st' := st.fresh G s) (fun y hy => List.mem_append_left _ hy) hs hx.2 hm
      have hq : ∀ c, c ∈ V → ∀ st0, unseen V st0 + 1 ≤ n →
          ∃ st', collect G desc n c st0 = .ok st' ∧ unseen V st' + 1 ≤ n := by
        intro c hc st0 h0
        obtain ⟨st', h'⟩ := collect_ok desc V hV n c st0 hc h0
        have := unseen_mono (V := V) (collect_post desc n c st0 st' h').1.seen
        exact ⟨st', h', by omega⟩
      obtain ⟨st1, h1, q1⟩ := foldl_ok (f := fun st a => collect G desc n a st) (fun st => unseen V st + 1 ≤ n)
        (upward G s) (st.fresh G s) (by omega) (fun a ha st0 h0 => hq a (hV s hs a (.inl ha)) st0 h0)
      rw [h1]
      simp only
      cases desc with
      | false => exact ⟨st1, rfl⟩
      | true =>
        obtain ⟨st2, h2, _⟩ := foldl_ok (f := fun st a => collect G true n a st) (fun st => unseen V st + 1 ≤ n)
          (G.members (G.obj s)) st1 q1 (fun a ha st0 h0 => hq a (hV s hs a (.inr ha)) st0 h0)
        exact ⟨st2, h2⟩

theorem sees_spec : ∀ (D : List Nat) (st : St), (D.foldl St.see st).marked = st.marked ∧
    (D.foldl St.see st).nsw = st.nsw ∧ (D.foldl St.see st).ran = st.ran ∧
    ∀ y, y ∈ (D.foldl St.see st).seen ↔ y ∈ D ∨ y ∈ st.seen
  | [], st => ⟨rfl, rfl, rfl, fun y => by simp⟩
  | d :: D, st => by
    obtain ⟨h1, h2, h3, h4⟩ := sees_spec D (st.see d)
    rw [List.foldl_cons]
    refine ⟨h1.trans (see_marked st d), h2.trans (see_nsw st d), h3.trans (see_ran st d), fun y => ?_⟩
    rw [h4, mem_see, List.mem_cons]
    constructor
    · rintro (h | h | h)
      · exact .inl (.inr h)
      · exact .inl (.inl h)
      · exact .inr h
    · rintro ((h | h) | h)
      · exact .inr (.inl h)
      · exact .inl h
      · exact .inr (.inr h)

end Verif.Propagate
