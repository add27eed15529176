import Verif.Watch.Spec

/-! Proofs about watchpoints. -/

namespace Verif.Watch
open Spec

/-- No predicate in the table raises. -/
def SafeW (w : Nat → List Pred) : Prop := ∀ x f, some f ∈ w x → ∀ v, f v ≠ none

theorem passing_some (v : Int) : ∀ (l : List Pred), (∀ f, some f ∈ l → f v ≠ none) →
    ∃ r, passing v l = some r ∧ (r = [] ↔ ¬ Passes l v)
  | [], _ => ⟨[], rfl, by simp [Passes]⟩
  | p :: l, h => by
    obtain ⟨r, hr, hr'⟩ := passing_some v l (fun f hf => h f (List.mem_cons_of_mem _ hf))
    cases p with
    | none => exact ⟨none :: r, by simp [passing, Pred.holds, hr], by simp [Passes]⟩
    | some f =>
      have := h f (List.mem_cons_self ..)
      cases hf : f v with
      | none => exact absurd hf this
      | some b =>
        cases b with
        | true => exact ⟨some f :: r, by simp [passing, Pred.holds, hf, hr], by simp [Passes, hf]⟩
        | false =>
          refine ⟨r, by simp [passing, Pred.holds, hf, hr], ?_⟩
          rw [hr']
          apply not_congr
          constructor
          · rintro (h1 | ⟨g, h1, h2⟩)
            · exact .inl (List.mem_cons_of_mem _ h1)
            · exact .inr ⟨g, List.mem_cons_of_mem _ h1, h2⟩
          · rintro (h1 | ⟨g, h1, h2⟩)
            · simp at h1; exact .inl h1
            · rcases List.mem_cons.mp h1 with h1 | h1
              · injection h1 with h1; subst h1; rw [hf] at h2; cases h2
              · exact .inr ⟨g, h1, h2⟩

theorem passing_none (v : Int) (f : Int → Option Bool) (hf : f v = none) : ∀ (l : List Pred), some f ∈ l → passing v l = none
  | p :: l, h => by
    unfold passing
    rcases List.mem_cons.mp h with h | h
    · subst h; simp [Pred.holds, hf]
    · have := passing_none v f hf l h
      split <;> simp [this]

theorem check_safe (s : St) (hw : SafeW s.wps) : ∀ (l : List Nat),
    (check s l).2 = true ∧ ((check s l).1 = [] ↔ ∀ x ∈ l, ¬ Passes (s.wps x) (s.obj x))
  | [] => by simp [check]
  | x :: l => by
    obtain ⟨h1, h2⟩ := check_safe s hw l
    obtain ⟨r, hr, hr'⟩ := passing_some (s.obj x) (s.wps x) (fun f hf => hw x f hf _)
    simp only [check, hr, h1, true_and]
    by_cases hn : r = []
    · simp [hn, h2, hr'.mp hn]
    · simp only [hn, if_false, List.mem_cons, forall_eq_or_imp]
      constructor
      · intro h; simp at h
      · intro h; exact absurd (hr'.mpr h.1) hn

theorem check_raises (s : St) (x : Nat) (f : Int → Option Bool) (hf : f (s.obj x) = none) (hx : some f ∈ s.wps x) :
    ∀ (l : List Nat), x ∈ l → (check s l).2 = false
  | y :: l, h => by
    unfold check
    by_cases hy : x = y
    · subst hy; rw [passing_none _ f hf _ hx]
    · have := check_raises s x f hf hx l (by simpa [hy] using h)
      split <;> simp [this]

theorem setAll_final (x : Nat) : ∀ (l : List (Nat × Int)) (o : Nat → Int), setAll o l x = (final l x).getD (o x)
  | [], o => by simp [setAll, final]
  | (y, v) :: l, o => by
    rw [setAll, setAll_final x l]
    unfold final
    rw [List.reverse_cons, List.find?_append]
    cases h : List.find? (fun q => q.1 == x) l.reverse with
    | some q => simp
    | none =>
      by_cases hy : y = x
      · simp [hy, upd]
      · have : ¬ x = y := fun e => hy e.symm
        simp [hy, upd, this]

theorem final_mem (l : List (Nat × Int)) (x : Nat) : x ∈ l.map Prod.fst ↔ ∃ v, final l x = some v := by
  unfold final
  constructor
  · intro h
    obtain ⟨q, hq, rfl⟩ := List.mem_map.mp h
    cases hf : List.find? (fun p => p.1 == q.1) l.reverse with
    | some p => exact ⟨p.2, by simp⟩
    | none =>
      have := List.find?_eq_none.mp hf q (List.mem_reverse.mpr hq)
      simp at this
  · rintro ⟨v, h⟩
    cases hf : List.find? (fun p => p.1 == x) l.reverse with
    | none => simp [hf] at h
    | some p =>
      have h1 := List.find?_some hf
      have h2 := List.mem_of_find?_eq_some hf
      exact List.mem_map.mpr ⟨p, List.mem_reverse.mp h2, by simpa using h1⟩

theorem addWatch_wps (s : St) (e : Ev) : (addWatch s e.act).wps = after s.wps e := by
  unfold addWatch after
  cases e.act with
  | watch x p => funext y; by_cases h : y = x <;> simp [upd, h]
  | _ => rfl

/-- One execution when no predicate raises. -/
theorem step_safe (ord : List Nat → List Nat) (ho : ∀ l x, x ∈ ord l ↔ x ∈ l) (s : St) (e : Ev) (hw : SafeW (after s.wps e))
    (hp : s.pend = []) (ha : s.active = []) :
    (step ord s e).wps = after s.wps e ∧ (step ord s e).n = s.n + 1 ∧ (step ord s e).pend = [] ∧ (step ord s e).active = [] ∧
    (∀ i, i ∈ (step ord s e).fin ↔ i ∈ s.fin ∨ (e.traced = true ∧ i = e.sid)) ∧
    (((e.traced = true ∧ e.sid ∉ s.fin) ∧ Triggers s.wps e ∧ (step ord s e).hits = s.n :: s.hits) ∨
     (¬ ((e.traced = true ∧ e.sid ∉ s.fin) ∧ Triggers s.wps e) ∧ (step ord s e).hits = s.hits)) := by
  by_cases hs : e.traced = false ∨ e.sid ∈ s.fin
  · have e1 : step ord s e = { addWatch s e.act with n := s.n + 1 } := by unfold step; rw [if_pos hs]
    have e2 : (addWatch s e.act).pend = s.pend ∧ (addWatch s e.act).active = s.active ∧ (addWatch s e.act).fin = s.fin ∧
        (addWatch s e.act).hits = s.hits := by unfold addWatch; split <;> simp
    rw [e1]
    refine ⟨addWatch_wps s e, rfl, e2.1.trans hp, e2.2.1.trans ha, ?_, .inr ⟨fun h => hs.elim (fun g => by rw [g] at h; exact absurd h.1.1 (by decide)) h.1.2, e2.2.2.2⟩⟩
    intro i
    simp only [e2.2.2.1]
    refine ⟨.inl, fun h => h.elim id (fun h => ?_)⟩
    rcases hs with hs | hs
    · rw [hs] at h; exact absurd h.1 (by decide)
    · exact h.2 ▸ hs
  · have htr : e.traced = true := by cases h : e.traced with
      | true => rfl
      | false => exact absurd (.inl h) hs
    have hs2 : e.sid ∉ s.fin := fun h => hs (.inr h)
    cases hact : e.act with
    | assign l =>
      have hafter : after s.wps e = s.wps := by unfold after; rw [hact]
      rw [hafter] at hw ⊢
      have e1 : step ord s e =
          (let s' := note s (.assign l)
           let r := check s' (ord s'.pend)
           if r.2 then stop { s' with fin := e.sid :: s'.fin, pend := [], active := s'.active ++ r.1 }
           else { s' with active := s'.active ++ r.1, n := s'.n + 1 }) := by
        unfold step; rw [if_neg hs, hact]; rfl
      have c := check_safe (note s (.assign l)) hw (ord (note s (.assign l)).pend)
      rw [e1]
      dsimp only
      rw [if_pos c.1]
      have hn : (note s (.assign l)).active = [] := ha
      rw [hn, List.nil_append]
      have ht : Triggers s.wps e ↔ ¬ (check (note s (.assign l)) (ord (note s (.assign l)).pend)).1 = [] := by
        rw [c.2]
        unfold Triggers
        rw [hact]
        dsimp only
        have hm : ∀ x, x ∈ ord (note s (.assign l)).pend ↔ ∃ v, final l x = some v := by
          intro x
          rw [ho, ← final_mem]
          simp [note, hp]
        have hobj : ∀ x v, final l x = some v → (note s (.assign l)).obj x = v := by
          intro x v h
          show setAll s.obj l x = v
          rw [setAll_final, h]; rfl
        constructor
        · rintro ⟨x, v, h1, h2⟩ h
          refine h x ((hm x).mpr ⟨v, h1⟩) ?_
          rw [hobj x v h1]
          exact h2
        · intro h
          by_contra h'
          apply h
          intro x hx hpx
          obtain ⟨v, hv⟩ := (hm x).mp hx
          rw [hobj x v hv] at hpx
          exact h' ⟨x, v, hv, hpx⟩
      unfold stop
      by_cases hc : (check (note s (.assign l)) (ord (note s (.assign l)).pend)).1 = []
      · simp only [hc, if_true]
        refine ⟨rfl, rfl, trivial, trivial, ?_, .inr ⟨fun h => ht.mp h.2 hc, rfl⟩⟩
        intro i
        simp [note, or_comm, htr]
      · simp only [hc, if_false]
        refine ⟨rfl, rfl, trivial, trivial, ?_, .inl ⟨⟨htr, hs2⟩, ht.mpr hc, rfl⟩⟩
        intro i
        simp [note, or_comm, htr]
    | watch x p =>
      have hnil : ord [] = [] := List.eq_nil_iff_forall_not_mem.mpr (fun x h => by simpa using (ho [] x).mp h)
      have e1 : step ord s e = { s with wps := after s.wps e, fin := e.sid :: s.fin, n := s.n + 1 } := by
        unfold step
        rw [if_neg hs, hact]
        have := addWatch_wps s e
        rw [hact] at this
        simp only [note, addWatch, hp, hnil, check, if_true, ha, List.append_nil, stop] at this ⊢
        rw [← this]
      rw [e1]
      refine ⟨rfl, rfl, hp, ha, ?_, .inr ⟨?_, rfl⟩⟩
      · intro i; simp [or_comm, htr]
      · rintro ⟨_, h⟩; unfold Triggers at h; rw [hact] at h; exact h
    | other =>
      have hnil : ord [] = [] := List.eq_nil_iff_forall_not_mem.mpr (fun x h => by simpa using (ho [] x).mp h)
      have e1 : step ord s e = { s with wps := after s.wps e, fin := e.sid :: s.fin, n := s.n + 1 } := by
        unfold step
        rw [if_neg hs, hact]
        simp only [note, addWatch, hp, hnil, check, if_true, ha, List.append_nil, stop]
        unfold after
        rw [hact]
      rw [e1]
      refine ⟨rfl, rfl, hp, ha, ?_, .inr ⟨?_, rfl⟩⟩
      · intro i; simp [or_comm, htr]
      · rintro ⟨_, h⟩; unfold Triggers at h; rw [hact] at h; exact h

/-- Execution `e` after `p` is one after which the program stops. -/
def Stops (p : List (Nat × Ev)) (e : Nat × Ev) : Prop :=
  Triggers (watched (fun _ => []) p) e.2 ∧ e.2.traced = true ∧ ∀ d ∈ p, d.1 = e.1 → d.2.traced = true → d.2.sid ≠ e.2.sid

/-- The invariant: after the executions `pre`, the last ones in cell `i`. -/
structure Inv (pre : List (Nat × Ev)) (i : Nat) (s : St) : Prop where
  wps : s.wps = watched (fun _ => []) pre
  n : s.n = pre.length
  pend : s.pend = []
  active : s.active = []
  le : ∀ d ∈ pre, d.1 ≤ i
  fin : ∀ j, j ∈ s.fin ↔ ∃ d ∈ pre, d.1 = i ∧ d.2.traced = true ∧ d.2.sid = j
  hits : ∀ k, k ∈ s.hits ↔ ∃ p e q, pre = p ++ e :: q ∧ p.length = k ∧ Stops p e
  sorted : s.hits.Pairwise (· > ·)
  lt : ∀ k ∈ s.hits, k < s.n

theorem watched_snoc (w : Nat → List Pred) (pre : List (Nat × Ev)) (d : Nat × Ev) :
    watched w (pre ++ [d]) = after (watched w pre) d.2 := by simp [watched]

theorem snoc_split {α : Type} (pre p q : List α) (d e : α) (h : pre ++ [d] = p ++ e :: q) :
    (q = [] ∧ p = pre ∧ e = d) ∨ ∃ q', q = q' ++ [d] ∧ pre = p ++ e :: q' := by
  rcases List.eq_nil_or_concat q with rfl | ⟨q', z, rfl⟩
  · have := List.append_inj' h rfl
    simp at this
    exact .inl ⟨rfl, this.1.symm, this.2.symm⟩
  · right
    have h' : pre ++ [d] = (p ++ e :: q') ++ [z] := by simpa using h
    have := List.append_inj' h' rfl
    simp at this
    exact ⟨q', by simp [this.2], this.1⟩

theorem inv_step (ord : List Nat → List Nat) (ho : ∀ l x, x ∈ ord l ↔ x ∈ l) (pre : List (Nat × Ev)) (i : Nat) (s : St) (e : Ev)
    (h : Inv pre i s) (hw : SafeW (watched (fun _ => []) (pre ++ [(i, e)]))) : Inv (pre ++ [(i, e)]) i (step ord s e) := by
  rw [watched_snoc, ← h.wps] at hw
  obtain ⟨g1, g2, g3, g4, g5, g6⟩ := step_safe ord ho s e hw h.pend h.active
  have hfin : e.sid ∉ s.fin ↔ ∀ d ∈ pre, d.1 = i → d.2.traced = true → d.2.sid ≠ e.sid := by
    rw [h.fin]
    constructor
    · intro g d hd h1 h2 h3; exact g ⟨d, hd, h1, h2, h3⟩
    · rintro g ⟨d, hd, h1, h2, h3⟩; exact g d hd h1 h2 h3
  have hst : ((e.traced = true ∧ e.sid ∉ s.fin) ∧ Triggers s.wps e) ↔ Stops pre (i, e) := by
    unfold Stops
    rw [hfin, ← h.wps]
    exact and_comm
  have hold : ∀ k, (∃ p d q, pre ++ [(i, e)] = p ++ d :: q ∧ p.length = k ∧ Stops p d) ↔
      (k = pre.length ∧ Stops pre (i, e)) ∨ k ∈ s.hits := by
    intro k
    rw [h.hits]
    constructor
    · rintro ⟨p, d, q, h1, h2, h3⟩
      rcases snoc_split _ _ _ _ _ h1 with ⟨rfl, rfl, rfl⟩ | ⟨q', rfl, h4⟩
      · exact .inl ⟨h2.symm, h3⟩
      · exact .inr ⟨p, d, q', h4, h2, h3⟩
    · rintro (⟨rfl, h1⟩ | ⟨p, d, q, h1, h2, h3⟩)
      · exact ⟨pre, _, [], rfl, rfl, h1⟩
      · exact ⟨p, d, q ++ [(i, e)], by simp [h1], h2, h3⟩
  refine ⟨?_, ?_, g3, g4, ?_, ?_, ?_, ?_, ?_⟩
  · rw [watched_snoc, ← h.wps]; exact g1
  · rw [g2, h.n]; simp
  · intro d hd
    rcases List.mem_append.mp hd with hd | hd
    · exact h.le d hd
    · simp at hd; subst hd; exact Nat.le_refl _
  · intro j
    rw [g5, h.fin]
    constructor
    · rintro (⟨d, hd, h1⟩ | ⟨h0, rfl⟩)
      · exact ⟨d, List.mem_append_left _ hd, h1⟩
      · exact ⟨(i, e), by simp, rfl, h0, rfl⟩
    · rintro ⟨d, hd, h1, h2, h3⟩
      rcases List.mem_append.mp hd with hd | hd
      · exact .inl ⟨d, hd, h1, h2, h3⟩
      · simp at hd; subst hd; exact .inr ⟨h2, h3.symm⟩
  · intro k
    rw [hold]
    rcases g6 with ⟨a, b, c⟩ | ⟨a, c⟩
    · rw [c, List.mem_cons, h.n]
      exact ⟨fun g => g.elim (fun g => .inl ⟨g, hst.mp ⟨a, b⟩⟩) .inr, fun g => g.elim (fun g => .inl g.1) .inr⟩
    · rw [c]
      exact ⟨.inr, fun g => g.elim (fun g => absurd (hst.mpr g.2) a) id⟩
  · rcases g6 with ⟨a, b, c⟩ | ⟨a, c⟩
    · rw [c]; exact List.pairwise_cons.mpr ⟨fun k hk => h.lt k hk, h.sorted⟩
    · rw [c]; exact h.sorted
  · intro k hk
    rw [g2]
    rcases g6 with ⟨a, b, c⟩ | ⟨a, c⟩
    · rw [c] at hk
      rcases List.mem_cons.mp hk with rfl | hk
      · exact Nat.lt_succ_self _
      · exact Nat.lt_succ_of_lt (h.lt k hk)
    · rw [c] at hk; exact Nat.lt_succ_of_lt (h.lt k hk)

theorem watched_mem (x : Nat) (p : Pred) : ∀ (l : List (Nat × Ev)) (w : Nat → List Pred), p ∈ watched w l x →
    p ∈ w x ∨ ∃ d ∈ l, d.2.act = .watch x p
  | [], w, h => .inl h
  | d :: l, w, h => by
    rcases watched_mem x p l (after w d.2) h with h | ⟨c, hc, h⟩
    · unfold after at h
      cases hd : d.2.act with
      | watch y q =>
        simp only [hd] at h
        by_cases hy : x = y
        · subst hy
          simp at h
          rcases h with h | rfl
          · exact .inl h
          · exact .inr ⟨d, List.mem_cons_self .., hd⟩
        · rw [if_neg hy] at h; exact .inl h
      | assign _ => simp only [hd] at h; exact .inl h
      | other => simp only [hd] at h; exact .inl h
    · exact .inr ⟨c, List.mem_cons_of_mem _ hc, h⟩

theorem safe_prefix (l pre post : List (Nat × Ev)) (hl : l = pre ++ post)
    (hs : ∀ e ∈ l, ∀ x f, e.2.act = .watch x (some f) → ∀ v, f v ≠ none) : SafeW (watched (fun _ => []) pre) := by
  intro x f hf v
  rcases watched_mem x _ pre _ hf with h | ⟨d, hd, h⟩
  · cases h
  · exact hs d (hl ▸ List.mem_append_left _ hd) x f h v

theorem inv_cell (ord : List Nat → List Nat) (ho : ∀ l x, x ∈ ord l ↔ x ∈ l) (i : Nat) (all : List (Nat × Ev))
    (hs : ∀ e ∈ all, ∀ x f, e.2.act = .watch x (some f) → ∀ v, f v ≠ none) : ∀ (c : List Ev) (pre post : List (Nat × Ev)) (s : St),
    all = pre ++ c.map (fun e => (i, e)) ++ post → Inv pre i s → Inv (pre ++ c.map (fun e => (i, e))) i (c.foldl (step ord) s)
  | [], pre, post, s, _, h => by simpa using h
  | e :: c, pre, post, s, ha, h => by
    have := inv_cell ord ho i all hs c (pre ++ [(i, e)]) post (step ord s e) (by simp [ha])
      (inv_step ord ho pre i s e h (safe_prefix all _ (c.map (fun e => (i, e)) ++ post) (by simp [ha]) hs))
    simpa using this

theorem inv_cells (ord : List Nat → List Nat) (ho : ∀ l x, x ∈ ord l ↔ x ∈ l) (all : List (Nat × Ev))
    (hs : ∀ e ∈ all, ∀ x f, e.2.act = .watch x (some f) → ∀ v, f v ≠ none) : ∀ (cells : List (List Ev)) (i : Nat)
    (pre : List (Nat × Ev)) (s : St), all = pre ++ flat i cells → (∀ d ∈ pre, d.1 < i) →
    (∀ j, Inv pre j { s with fin := [], pend := [] } ∨ ∃ d ∈ pre, j ≤ d.1) →
    ∃ j, Inv (pre ++ flat i cells) j { cells.foldl (runCell ord) s with fin := [], pend := [] } ∨
      Inv (pre ++ flat i cells) j (cells.foldl (runCell ord) s)
  | [], i, pre, s, ha, hl, h => by
    rcases h i with h | ⟨d, hd, h⟩
    · exact ⟨i, .inl (by simpa [flat] using h)⟩
    · exact absurd (hl d hd) (Nat.not_lt.mpr h)
  | c :: cells, i, pre, s, ha, hl, h => by
    have h0 : Inv pre i { s with fin := [], pend := [] } := by
      rcases h i with h | ⟨d, hd, h⟩
      · exact h
      · exact absurd (hl d hd) (Nat.not_lt.mpr h)
    have h1 := inv_cell ord ho i all hs c pre (flat (i + 1) cells) _ (by simp [ha, flat]) h0
    have hl' : ∀ d ∈ pre ++ c.map (fun e => (i, e)), d.1 < i + 1 := fun d hd => Nat.lt_succ_of_le (h1.le d hd)
    have := inv_cells ord ho all hs cells (i + 1) (pre ++ c.map (fun e => (i, e))) (runCell ord s c) (by simp [ha, flat]) hl' (by
      intro j
      by_cases hj : ∃ d ∈ pre ++ c.map (fun e => (i, e)), j ≤ d.1
      · exact .inr hj
      · refine .inl ⟨h1.wps, h1.n, rfl, h1.active, ?_, ?_, h1.hits, h1.sorted, h1.lt⟩
        · intro d hd
          rcases Nat.lt_or_ge d.1 j with g | g
          · exact Nat.le_of_lt g
          · exact absurd ⟨d, hd, g⟩ hj
        · intro k
          constructor
          · intro g; cases g
          · rintro ⟨d, hd, g, _⟩; exact absurd ⟨d, hd, Nat.le_of_eq g.symm⟩ hj)
    simpa [flat] using this

/-- When no predicate raises: the program stops after exactly those executions that should stop it and are the first traced ones of their
statement in the cell; and once after each. -/
theorem stops_exact (ord : List Nat → List Nat) (ho : ∀ l x, x ∈ ord l ↔ x ∈ l) (cells : List (List Ev)) (hs : Safe cells) :
    (run ord cells).hits.Pairwise (· > ·) ∧ ∀ k, k ∈ (run ord cells).hits ↔ ShouldStop cells k ∧ First cells k := by
  have h := inv_cells ord ho (flat 0 cells) hs cells 0 [] {} rfl (by simp) (fun j => .inl
    ⟨rfl, rfl, rfl, rfl, by simp, by simp, by simp, List.Pairwise.nil, by simp⟩)
  obtain ⟨j, h⟩ := h
  have h' : (run ord cells).hits.Pairwise (· > ·) ∧
      ∀ k, k ∈ (run ord cells).hits ↔ ∃ p e q, flat 0 cells = p ++ e :: q ∧ p.length = k ∧ Stops p e := by
    rcases h with h | h
    · exact ⟨h.sorted, h.hits⟩
    · exact ⟨h.sorted, h.hits⟩
  refine ⟨h'.1, fun k => ?_⟩
  rw [h'.2]
  constructor
  · rintro ⟨p, e, q, h1, h2, h3⟩
    exact ⟨⟨p, e, q, h1, h2, h3.1⟩, ⟨p, e, q, h1, h2, h3.2⟩⟩
  · rintro ⟨⟨p, e, q, h1, h2, h3⟩, ⟨p', e', q', h1', h2', h3'⟩⟩
    rw [h1] at h1'
    obtain ⟨rfl, h4⟩ := List.append_inj h1' (h2.trans h2'.symm)
    injection h4 with h4 _
    subst h4
    exact ⟨p, e, q, h1, h2, h3, h3'⟩

theorem flat_ge : ∀ (cells : List (List Ev)) (i : Nat) (d : Nat × Ev), d ∈ flat i cells → i ≤ d.1
  | [], _, _, h => by cases h
  | c :: r, i, d, h => by
    rcases List.mem_append.mp h with h | h
    · obtain ⟨e, _, rfl⟩ := List.mem_map.mp h; exact Nat.le_refl _
    · exact Nat.le_of_succ_le (flat_ge r (i + 1) d h)

theorem flat_traced : ∀ (cells : List (List Ev)) (i : Nat), Once cells → ∀ d ∈ flat i cells, d.2.traced = true
  | c :: r, i, h, d, hd => by
    rcases List.mem_append.mp hd with hd | hd
    · obtain ⟨e, he, rfl⟩ := List.mem_map.mp hd
      exact (h c (List.mem_cons_self ..)).2 e he
    · exact flat_traced r (i + 1) (fun c hc => h c (List.mem_cons_of_mem _ hc)) d hd

theorem flat_once : ∀ (cells : List (List Ev)) (i : Nat), Once cells →
    (flat i cells).Pairwise (fun d e => d.1 = e.1 → d.2.sid ≠ e.2.sid)
  | [], _, _ => List.Pairwise.nil
  | c :: r, i, h => by
    refine List.pairwise_append.mpr ⟨?_, flat_once r (i + 1) (fun c hc => h c (List.mem_cons_of_mem _ hc)), ?_⟩
    · rw [List.pairwise_map]
      have := (h c (List.mem_cons_self ..)).1
      unfold List.Nodup at this
      rw [List.pairwise_map] at this
      refine List.Pairwise.imp ?_ this
      intro a b h _
      exact h
    · intro d hd e he h1
      obtain ⟨d', _, rfl⟩ := List.mem_map.mp hd
      have := flat_ge r (i + 1) e he
      simp at h1
      omega

/-- The program stops after exactly those executions that give a variable a value for which one of its watchpoints passes - if no
predicate raises and no cell executes a statement twice. -/
theorem stops_partial (ord : List Nat → List Nat) (ho : ∀ l x, x ∈ ord l ↔ x ∈ l) (cells : List (List Ev)) (hs : Safe cells)
    (hc : Once cells) (k : Nat) : k ∈ (run ord cells).hits ↔ ShouldStop cells k := by
  rw [(stops_exact ord ho cells hs).2 k]
  constructor
  · exact And.left
  · intro h
    refine ⟨h, ?_⟩
    obtain ⟨p, e, q, h1, h2, _⟩ := h
    refine ⟨p, e, q, h1, h2, flat_traced cells 0 hc e (by simp [h1]), fun d hd h3 _ => ?_⟩
    revert h3
    have := flat_once cells 0 hc
    rw [h1] at this
    exact (List.pairwise_append.mp this).2.2 d hd e (List.mem_cons_self ..)

/-- The executions are counted. -/
theorem step_n (ord : List Nat → List Nat) (s : St) (e : Ev) : (step ord s e).n = s.n + 1 ∧
    ∀ k ∈ (step ord s e).hits, k ∈ s.hits ∨ k = s.n := by
  have ha : (addWatch s e.act).n = s.n ∧ (addWatch s e.act).hits = s.hits := by unfold addWatch; split <;> simp
  have hb : ∀ t a, (note t a).n = t.n ∧ (note t a).hits = t.hits := by intro t a; unfold note; split <;> simp
  unfold step
  dsimp only
  by_cases hs : e.traced = false ∨ e.sid ∈ s.fin
  · rw [if_pos hs]; exact ⟨rfl, fun k hk => .inl (ha.2 ▸ hk)⟩
  · rw [if_neg hs]
    split
    · unfold stop
      split
      · exact ⟨by simp [hb, ha], fun k hk => .inl (by simpa [hb, ha] using hk)⟩
      · refine ⟨by simp [hb, ha], fun k hk => ?_⟩
        simp [hb, ha] at hk
        exact hk.symm
    · exact ⟨by simp [hb, ha], fun k hk => .inl (by simpa [hb, ha] using hk)⟩

theorem steps_n (ord : List Nat → List Nat) : ∀ (c : List Ev) (s : St), (∀ k ∈ s.hits, k < s.n) →
    (c.foldl (step ord) s).n = s.n + c.length ∧ ∀ k ∈ (c.foldl (step ord) s).hits, k < s.n + c.length
  | [], s, h => ⟨rfl, h⟩
  | e :: c, s, h => by
    have := step_n ord s e
    have ih := steps_n ord c (step ord s e) (fun k hk => by
      rw [this.1]
      rcases this.2 k hk with g | rfl
      · exact Nat.lt_succ_of_lt (h k g)
      · exact Nat.lt_succ_self _)
    rw [this.1] at ih
    have e1 : s.n + 1 + c.length = s.n + (e :: c).length := by simp; omega
    rw [e1] at ih
    exact ih

theorem run_n (ord : List Nat → List Nat) : ∀ (cells : List (List Ev)) (i : Nat) (s : St), (∀ k ∈ s.hits, k < s.n) →
    (cells.foldl (runCell ord) s).n = s.n + (flat i cells).length ∧
    ∀ k ∈ (cells.foldl (runCell ord) s).hits, k < s.n + (flat i cells).length
  | [], _, s, h => ⟨rfl, h⟩
  | c :: r, i, s, h => by
    have h1 := steps_n ord c { s with fin := [], pend := [] } h
    have ih := run_n ord r (i + 1) (runCell ord s c) (fun k hk => by
      show k < (runCell ord s c).n
      unfold runCell at hk ⊢
      rw [h1.1]; exact h1.2 k hk)
    have e1 : (runCell ord s c).n = s.n + c.length := h1.1
    rw [e1] at ih
    have e2 : s.n + c.length + (flat (i + 1) r).length = s.n + (flat i (c :: r)).length := by simp [flat]; omega
    rw [e2] at ih
    exact ih

/-- The finished statements of the cell are among those executed in it. -/
theorem steps_fin (ord : List Nat → List Nat) : ∀ (c : List Ev) (s : St) (j : Nat), j ∈ (c.foldl (step ord) s).fin →
    j ∈ s.fin ∨ j ∈ c.map Ev.sid
  | [], _, _, h => .inl h
  | e :: c, s, j, h => by
    have ha : (addWatch s e.act).fin = s.fin := by unfold addWatch; split <;> simp
    have hb : ∀ t a, (note t a).fin = t.fin := by intro t a; unfold note; split <;> simp
    have h1 : j ∈ (step ord s e).fin → j ∈ s.fin ∨ j = e.sid := by
      unfold step
      dsimp only
      split
      · intro h; exact .inl (ha ▸ h)
      · split
        · unfold stop
          split <;> (intro h; simp [hb, ha] at h; exact h.symm)
        · intro h; exact .inl (by simpa [hb, ha] using h)
    rcases steps_fin ord c (step ord s e) j h with h | h
    · rcases h1 h with h | rfl
      · exact .inl h
      · exact .inr (by simp)
    · exact .inr (by simp at h ⊢; exact .inr h)

/-- The watchpoints of the session so far, whatever raises. -/
theorem step_wps (ord : List Nat → List Nat) (s : St) (e : Ev) : (step ord s e).wps = after s.wps e := by
  have hb : ∀ t a, (note t a).wps = t.wps := by intro t a; unfold note; split <;> simp
  unfold step
  dsimp only
  split
  · exact addWatch_wps s e
  · split
    · unfold stop; split <;> simp [hb, addWatch_wps]
    · simp [hb, addWatch_wps]

theorem steps_wps (ord : List Nat → List Nat) (i : Nat) : ∀ (c : List Ev) (s : St), (c.foldl (step ord) s).wps =
    watched s.wps (c.map (fun e => (i, e)))
  | [], _ => rfl
  | e :: c, s => by
    rw [List.foldl_cons, steps_wps ord i c, step_wps]; rfl

theorem run_wps (ord : List Nat → List Nat) : ∀ (cells : List (List Ev)) (i : Nat) (s : St), (cells.foldl (runCell ord) s).wps =
    watched s.wps (flat i cells)
  | [], _, _ => rfl
  | c :: r, i, s => by
    rw [List.foldl_cons, run_wps ord r (i + 1)]
    unfold runCell
    rw [steps_wps ord i]
    simp [flat, watched]

/-- A raising predicate is pending. -/
def Stuck (x : Nat) (f : Int → Option Bool) (s : St) : Prop := x ∈ s.pend ∧ some f ∈ s.wps x ∧ f (s.obj x) = none

theorem stuck_step (ord : List Nat → List Nat) (ho : ∀ l x, x ∈ ord l ↔ x ∈ l) (x : Nat) (f : Int → Option Bool) (s : St) (e : Ev)
    (h : Stuck x f (note (addWatch s e.act) e.act)) (hs : ¬ (e.traced = false ∨ e.sid ∈ s.fin)) :
    Stuck x f (step ord s e) ∧ (step ord s e).hits = s.hits := by
  have ha : (addWatch s e.act).hits = s.hits := by unfold addWatch; split <;> simp
  have hb : ∀ t a, (note t a).hits = t.hits := by intro t a; unfold note; split <;> simp
  have hc := check_raises _ x f h.2.2 h.2.1 (ord (note (addWatch s e.act) e.act).pend) ((ho _ _).mpr h.1)
  unfold step
  dsimp only
  rw [if_neg hs, hc]
  exact ⟨h, by simp [hb, ha]⟩

theorem stuck_other (x : Nat) (f : Int → Option Bool) (s : St) (e : Ev) (h : Stuck x f s)
    (hx : ∀ l, e.act = .assign l → x ∉ l.map Prod.fst) : Stuck x f (note (addWatch s e.act) e.act) := by
  obtain ⟨h1, h2, h3⟩ := h
  cases ha : e.act with
  | assign l =>
    refine ⟨List.mem_append_left _ h1, h2, ?_⟩
    show f (setAll s.obj l x) = none
    have : final l x = none := by
      cases hf : final l x with
      | none => rfl
      | some v => exact absurd ((final_mem l x).mpr ⟨v, hf⟩) (hx l ha)
    rw [setAll_final, this]
    exact h3
  | watch y p =>
    refine ⟨h1, ?_, h3⟩
    show some f ∈ upd s.wps y (s.wps y ++ [p]) x
    unfold upd
    by_cases hy : x = y
    · rw [if_pos hy, ← hy]; exact List.mem_append_left _ h2
    · rw [if_neg hy]; exact h2
  | other => exact ⟨h1, h2, h3⟩

theorem stuck_steps (ord : List Nat → List Nat) (ho : ∀ l x, x ∈ ord l ↔ x ∈ l) (x : Nat) (f : Int → Option Bool) :
    ∀ (c : List Ev) (s : St), Stuck x f s → (∀ e ∈ c, ∀ l, e.act = .assign l → x ∉ l.map Prod.fst) →
    (c.foldl (step ord) s).hits = s.hits
  | [], _, _, _ => rfl
  | e :: c, s, h, hx => by
    have h1 := stuck_other x f s e h (hx e (List.mem_cons_self ..))
    have : Stuck x f (step ord s e) ∧ (step ord s e).hits = s.hits := by
      by_cases hs : e.traced = false ∨ e.sid ∈ s.fin
      · have ha : (addWatch s e.act).hits = s.hits ∧ (addWatch s e.act).pend = s.pend ∧ (addWatch s e.act).obj = s.obj := by
          unfold addWatch; split <;> simp
        have e1 : step ord s e = { addWatch s e.act with n := s.n + 1 } := by unfold step; rw [if_pos hs]
        rw [e1]
        refine ⟨⟨ha.2.1 ▸ h.1, ?_, ?_⟩, ha.1⟩
        · have := h1.2.1
          have hb : ∀ t a, (note t a).wps = t.wps := by intro t a; unfold note; split <;> simp
          rw [hb] at this
          exact this
        · show f ((addWatch s e.act).obj x) = none
          rw [ha.2.2]; exact h.2.2
      · exact stuck_step ord ho x f s e h1 hs
    rw [List.foldl_cons, stuck_steps ord ho x f c _ this.1 (fun d hd => hx d (List.mem_cons_of_mem _ hd))]
    exact this.2

/-- After a variable got a value for which one of its predicates raises, in a statement executed for the first time in the cell, the
program does not stop for any watchpoint of any variable until the end of the cell or until that variable is set again. -/
theorem raise_disables (ord : List Nat → List Nat) (ho : ∀ l x, x ∈ ord l ↔ x ∈ l) (done : List (List Ev)) (pre post : List Ev) (e : Ev)
    (l : List (Nat × Int)) (x : Nat) (v : Int) (f : Int → Option Bool) (he : e.act = .assign l) (hv : final l x = some v)
    (hf : f v = none) (hw : some f ∈ watched (fun _ => []) (flat 0 (done ++ [pre])) x) (hn : e.sid ∉ pre.map Ev.sid) (ht : e.traced = true)
    (hp : ∀ d ∈ post, ∀ m, d.act = .assign m → x ∉ m.map Prod.fst) :
    ∀ k ∈ (run ord (done ++ [pre ++ e :: post])).hits, k < (flat 0 (done ++ [pre])).length := by
  have e0 : (run ord (done ++ [pre])).wps = watched (fun _ => []) (flat 0 (done ++ [pre])) := run_wps ord _ 0 {}
  have n0 := run_n ord (done ++ [pre]) 0 {} (by intro k hk; cases hk)
  have f0 : e.sid ∉ (run ord (done ++ [pre])).fin := by
    unfold run
    rw [List.foldl_append]
    intro h
    rcases steps_fin ord pre _ _ h with h | h
    · cases h
    · exact hn h
  have r0 : run ord (done ++ [pre ++ e :: post]) = post.foldl (step ord) (step ord (run ord (done ++ [pre])) e) := by
    unfold run
    rw [List.foldl_append, List.foldl_append]
    simp [runCell]
  have hst : Stuck x f (note (addWatch (run ord (done ++ [pre])) e.act) e.act) := by
    rw [he]
    refine ⟨?_, ?_, ?_⟩
    · show x ∈ _ ++ _
      by_cases hx : x ∈ (run ord (done ++ [pre])).pend
      · exact List.mem_append_left _ hx
      · exact List.mem_append_right _ (List.mem_filter.mpr ⟨(final_mem l x).mpr ⟨v, hv⟩, decide_eq_true hx⟩)
    · show some f ∈ (run ord (done ++ [pre])).wps x
      rw [e0]; exact hw
    · show f (setAll _ l x) = none
      rw [setAll_final, hv]; exact hf
  have h1 := stuck_step ord ho x f _ e hst (fun h => h.elim (fun g => by rw [ht] at g; cases g) f0)
  rw [r0, stuck_steps ord ho x f post _ h1.1 hp, h1.2]
  intro k hk
  have := n0.2 k hk
  simpa using this

end Verif.Watch
