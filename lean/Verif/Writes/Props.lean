import Verif.Writes.Spec
import Mathlib.Tactic.Tauto

/-!
# Writes of a cell are recorded
-/

namespace Verif.Writes

variable {S N : Type} [DecidableEq S] [DecidableEq N]

theorem mem_discard (s x : S) (l : List S) : x ∈ discard s l ↔ x ∈ l ∧ x ≠ s := by
  simp [discard]

/-- Recorded, or about to be. -/
def Some' (st : St S) (s : S) : Prop :=
  s ∈ st.statics ∨ s ∈ st.dynamics ∨ s ∈ st.pending

/-- An induction principle for the loop. -/
theorem record_induct {P : St S → Prop} (w : Write S N)
    (h : ∀ sub, w.Stores sub → ∀ st, P st → P (sortOne w sub st)) (st : St S) (h0 : P st) :
    P (record w st) := by
  unfold record
  have hall : ∀ sub ∈ w.sym :: w.members, w.Stores sub := by
    intro sub hs
    exact (List.mem_cons.1 hs).imp id id
  revert hall st
  induction (w.sym :: w.members) with
  | nil => intro st h0 _; exact h0
  | cons a l ih =>
    intro st h0 hall
    rw [List.foldl_cons]
    exact ih _ (h a (hall a List.mem_cons_self) st h0)
      (fun sub hs => hall sub (List.mem_cons_of_mem _ hs))

/-- An induction principle for cells. -/
theorem run_induct {P : St S → Prop} (evs : List (Ev S N)) (h0 : P ⟨[], [], []⟩)
    (hw : ∀ w, Ev.write w ∈ evs → ∀ st, P st → P (record w st))
    (hf : ∀ st, P st → P (flush st)) : P (run evs) := by
  unfold run
  revert hw h0
  generalize (⟨[], [], []⟩ : St S) = st
  induction evs generalizing st with
  | nil => intro h0 _; exact h0
  | cons e evs ih =>
    intro h0 hw
    rw [List.foldl_cons]
    refine ih _ ?_ (fun w hm => hw w (List.mem_cons_of_mem _ hm))
    cases e with
    | write w => exact hw w List.mem_cons_self st h0
    | stmtEnd => exact hf st h0

theorem foldl_step_induct {P : St S → Prop} (evs : List (Ev S N)) (st : St S) (h0 : P st)
    (hs : ∀ (st : St S) (e : Ev S N), P st → P (step st e)) : P (evs.foldl step st) := by
  induction evs generalizing st with
  | nil => exact h0
  | cons e evs ih => exact ih _ (hs st e h0)

/-! ## One kind at a time -/

/-- No symbol is recorded both as a static and as a dynamic write of a cell. -/
theorem static_or_dynamic (evs : List (Ev S N)) (s : S) :
    ¬ (s ∈ (run evs).statics ∧ s ∈ (run evs).dynamics) := by
  have : ∀ s ∈ (run evs).statics, s ∉ (run evs).dynamics ∧ s ∉ (run evs).pending := by
    apply run_induct (P := fun st => ∀ s ∈ st.statics, s ∉ st.dynamics ∧ s ∉ st.pending) evs
    · intro s h; cases h
    · intro w _ st h
      apply record_induct (P := fun st => ∀ s ∈ st.statics, s ∉ st.dynamics ∧ s ∉ st.pending)
        w _ st h
      intro sub _ st h
      unfold sortOne
      by_cases h1 : w.containing sub ≠ w.ns
      · rw [if_pos h1]; exact h
      · rw [if_neg h1]
        by_cases h2 : w.isStatic = true ∧ sub ∉ st.dynamics
        · rw [if_pos h2]
          intro x hx
          simp only [List.mem_cons] at hx
          rcases hx with rfl | hx
          · exact ⟨h2.2, by simp [mem_discard]⟩
          · exact ⟨(h x hx).1, fun g => (h x hx).2 ((mem_discard _ _ _).1 g).1⟩
        · rw [if_neg h2]
          intro x hx
          rw [mem_discard] at hx
          refine ⟨(h x hx.1).1, fun g => ?_⟩
          rcases List.mem_cons.1 g with rfl | g
          · exact hx.2 rfl
          · exact (h x hx.1).2 g
    · intro st h x hx
      refine ⟨fun g => ?_, by simp [flush]⟩
      rcases List.mem_append.1 g with g | g
      · exact (h x hx).1 g
      · exact (h x hx).2 g
  exact fun h => (this s h.1).1 h.2

/-! ## Nothing else -/

/-- Only what was stored in the cell is recorded as written. -/
theorem only_written (evs : List (Ev S N)) (s : S) (h : recorded (run evs) s) :
    Wrote evs s := by
  have : ∀ s, Some' (run evs) s → Wrote evs s := by
    apply run_induct (P := fun st => ∀ s, Some' st s → Wrote evs s) evs
    · rintro s (h | h | h) <;> cases h
    · intro w hw st h
      apply record_induct (P := fun st => ∀ s, Some' st s → Wrote evs s) w _ st h
      intro sub hsub st h
      unfold sortOne
      by_cases h1 : w.containing sub ≠ w.ns
      · rw [if_pos h1]; exact h
      · rw [if_neg h1]
        by_cases h2 : w.isStatic = true ∧ sub ∉ st.dynamics
        · rw [if_pos h2]
          rintro x (hx | hx | hx)
          · rcases List.mem_cons.1 hx with rfl | hx
            · exact ⟨w, hw, hsub⟩
            · exact h x (Or.inl hx)
          · exact h x (Or.inr (Or.inl hx))
          · exact h x (Or.inr (Or.inr ((mem_discard _ _ _).1 hx).1))
        · rw [if_neg h2]
          rintro x (hx | hx | hx)
          · exact h x (Or.inl ((mem_discard _ _ _).1 hx).1)
          · exact h x (Or.inr (Or.inl hx))
          · rcases List.mem_cons.1 hx with rfl | hx
            · exact ⟨w, hw, Or.inl rfl⟩
            · exact h x (Or.inr (Or.inr hx))
    · intro st h
      rintro x (hx | hx | hx)
      · exact h x (Or.inl hx)
      · rcases List.mem_append.1 hx with hx | hx
        · exact h x (Or.inr (Or.inl hx))
        · exact h x (Or.inr (Or.inr hx))
      · cases hx
  exact this s (h.imp id Or.inl)

/-- What is recorded as a static write was stored by a static write. -/
theorem static_origin (evs : List (Ev S N)) (s : S) (h : s ∈ (run evs).statics) :
    ∃ w, Ev.write w ∈ evs ∧ w.Stores s ∧ w.isStatic = true := by
  revert s
  apply run_induct (P := fun st => ∀ s ∈ st.statics,
    ∃ w, Ev.write w ∈ evs ∧ w.Stores s ∧ w.isStatic = true) evs
  · intro s h; cases h
  · intro w hw st h
    apply record_induct (P := fun st => ∀ s ∈ st.statics,
      ∃ w, Ev.write w ∈ evs ∧ w.Stores s ∧ w.isStatic = true) w _ st h
    intro sub hsub st h
    unfold sortOne
    by_cases h1 : w.containing sub ≠ w.ns
    · rw [if_pos h1]; exact h
    · rw [if_neg h1]
      by_cases h2 : w.isStatic = true ∧ sub ∉ st.dynamics
      · rw [if_pos h2]
        intro x hx
        rcases List.mem_cons.1 hx with rfl | hx
        · exact ⟨w, hw, hsub, h2.1⟩
        · exact h x hx
      · rw [if_neg h2]
        intro x hx
        exact h x ((mem_discard _ _ _).1 hx).1
  · intro st h; exact h

/-! ## All of it -/

theorem sortOne_keeps (w : Write S N) (sub : S) (st : St S) (s : S) (h : Some' st s) :
    Some' (sortOne w sub st) s := by
  unfold sortOne
  by_cases h1 : w.containing sub ≠ w.ns
  · rw [if_pos h1]; exact h
  · rw [if_neg h1]
    by_cases h2 : w.isStatic = true ∧ sub ∉ st.dynamics
    · rw [if_pos h2]
      by_cases hs : s = sub
      · exact Or.inl (by rw [hs]; exact List.mem_cons_self)
      · rcases h with h | h | h
        · exact Or.inl (List.mem_cons_of_mem _ h)
        · exact Or.inr (Or.inl h)
        · exact Or.inr (Or.inr ((mem_discard _ _ _).2 ⟨h, hs⟩))
    · rw [if_neg h2]
      by_cases hs : s = w.sym
      · exact Or.inr (Or.inr (by rw [hs]; exact List.mem_cons_self))
      · rcases h with h | h | h
        · exact Or.inl ((mem_discard _ _ _).2 ⟨h, hs⟩)
        · exact Or.inr (Or.inl h)
        · exact Or.inr (Or.inr (List.mem_cons_of_mem _ h))

theorem step_keeps (st : St S) (e : Ev S N) (s : S) (h : Some' st s) : Some' (step st e) s := by
  cases e with
  | write w => exact record_induct w (fun sub _ st h => sortOne_keeps w sub st s h) st h
  | stmtEnd =>
    rcases h with h | h | h
    · exact Or.inl h
    · exact Or.inr (Or.inl (List.mem_append_left _ h))
    · exact Or.inr (Or.inl (List.mem_append_right _ h))

/-- After the part of the loop for a symbol. -/
theorem record_at (w : Write S N) (sub s : S) (hsub : w.Stores sub)
    (h : ∀ st, Some' (sortOne w sub st) s) (st : St S) : Some' (record w st) s := by
  unfold record
  have hm : sub ∈ w.sym :: w.members := by
    rcases hsub with rfl | h
    · exact List.mem_cons_self
    · exact List.mem_cons_of_mem _ h
  obtain ⟨l1, l2, he⟩ := List.append_of_mem hm
  rw [he, List.foldl_append, List.foldl_cons]
  generalize l1.foldl (fun st sub => sortOne w sub st) st = st1
  have := h st1
  revert this
  generalize sortOne w sub st1 = st2
  intro h2
  clear he hm
  induction l2 generalizing st2 with
  | nil => exact h2
  | cons a l ih => exact ih _ (sortOne_keeps w a st2 s h2)

theorem end_of (evs : List (Ev S N)) (st : St S) (s : S) (h : Some' st s) :
    recorded ((evs ++ [Ev.stmtEnd]).foldl step st) s := by
  rw [List.foldl_append]
  have := foldl_step_induct (P := fun st => Some' st s) evs st h
    (fun st e h => step_keeps st e s h)
  revert this
  generalize evs.foldl step st = st1
  rintro (h | h | h)
  · exact Or.inl h
  · exact Or.inr (List.mem_append_left _ h)
  · exact Or.inr (List.mem_append_right _ h)

/-- A stored variable is recorded as written once the statement has ended, whatever happens
before and after.  `_partial`: its value has no attributes or elements that are known, or it
has some and the write is not a static one. -/
theorem written_recorded_partial (before after : List (Ev S N)) (w : Write S N)
    (h : w.Scalar ∨ (w.isStatic = false ∧ ∃ m, w.Part m)) :
    recorded (run (before ++ .write w :: after ++ [.stmtEnd])) w.sym := by
  unfold run
  rw [List.append_assoc, List.foldl_append, List.cons_append, List.foldl_cons]
  apply end_of
  rcases h with h | ⟨hs, m, hm⟩
  · apply record_at w w.sym w.sym (Or.inl rfl)
    intro st
    unfold sortOne
    rw [if_neg (by rw [h.1, h.2]; simp)]
    split
    · exact Or.inl List.mem_cons_self
    · exact Or.inr (Or.inr List.mem_cons_self)
  · apply record_at w m w.sym (Or.inr hm.1)
    intro st
    unfold sortOne
    rw [if_neg (by rw [hm.2.2]; simp), if_neg (by simp [hs])]
    exact Or.inr (Or.inr List.mem_cons_self)

/-- The attributes and elements of a stored value are recorded as written if the write is a
static one, or else the variable is. -/
theorem parts_recorded (before after : List (Ev S N)) (w : Write S N) (m : S) (h : w.Part m) :
    recorded (run (before ++ .write w :: after ++ [.stmtEnd])) m ∨
      recorded (run (before ++ .write w :: after ++ [.stmtEnd])) w.sym := by
  have h1 : ∀ st : St S, Some' (record w st) m ∨ Some' (record w st) w.sym := by
    intro st
    unfold record
    have hm : m ∈ w.sym :: w.members := List.mem_cons_of_mem _ h.1
    obtain ⟨l1, l2, he⟩ := List.append_of_mem hm
    rw [he, List.foldl_append, List.foldl_cons]
    generalize l1.foldl (fun st sub => sortOne w sub st) st = st1
    have : Some' (sortOne w m st1) m ∨ Some' (sortOne w m st1) w.sym := by
      unfold sortOne
      rw [if_neg (by rw [h.2.2]; simp)]
      split
      · exact Or.inl (Or.inl List.mem_cons_self)
      · exact Or.inr (Or.inr (Or.inr List.mem_cons_self))
    revert this
    generalize sortOne w m st1 = st2
    intro h2
    clear he
    induction l2 generalizing st2 with
    | nil => exact h2
    | cons a l ih =>
      exact ih _ (h2.imp (sortOne_keeps w a st2 m) (sortOne_keeps w a st2 w.sym))
  unfold run
  rw [List.append_assoc, List.foldl_append, List.cons_append, List.foldl_cons]
  exact (h1 _).imp (end_of after _ m) (end_of after _ w.sym)

/-- What was once a dynamic write of the cell stays one, and is never a static one. -/
theorem stays_dynamic (before after : List (Ev S N)) (s : S)
    (h : s ∈ (run before).dynamics) :
    s ∈ (run (before ++ after)).dynamics ∧ s ∉ (run (before ++ after)).statics := by
  have h1 : s ∈ (run (before ++ after)).dynamics := by
    unfold run at h ⊢
    rw [List.foldl_append]
    apply foldl_step_induct (P := fun st => s ∈ st.dynamics) after _ h
    intro st e hs
    cases e with
    | write w =>
      apply record_induct (P := fun st => s ∈ st.dynamics) w _ st hs
      intro sub _ st hs
      unfold sortOne
      split
      · exact hs
      · split <;> exact hs
    | stmtEnd => exact List.mem_append_left _ hs
  exact ⟨h1, fun g => static_or_dynamic _ s ⟨g, h1⟩⟩

/-! ## Violations -/

/-- Violation: an attribute or element is stored (`x.a = 5`, `x[0] = 5`), and nothing at all is
recorded, whatever was before. -/
theorem element_unrecorded (st : St S) (w : Write S N) (h1 : w.containing w.sym ≠ none)
    (h2 : w.ns = none) (h3 : w.members = []) : step st (.write w) = st := by
  show record w st = st
  unfold record
  rw [h3, List.foldl_cons, List.foldl_nil]
  unfold sortOne
  rw [if_pos (by rw [h2]; exact h1)]

/-- Violation: a variable is given a value with attributes or elements that are known
(`x = [1, 2]`) by a static write, and unless one of them was a dynamic write of the cell before,
the variable is not recorded. -/
theorem container_unrecorded (st : St S) (w : Write S N) (h0 : w.isStatic = true)
    (h1 : w.containing w.sym = none) (h2 : w.ns ≠ none) (h3 : w.sym ∉ w.members)
    (h4 : ∀ m ∈ w.members, m ∉ st.dynamics) (h5 : ¬ recorded st w.sym) :
    ¬ recorded (step st (.write w)) w.sym := by
  show ¬ recorded (record w st) w.sym
  have : (¬ recorded (record w st) w.sym) ∧ (record w st).dynamics = st.dynamics := by
    apply record_induct (P := fun st' => (¬ recorded st' w.sym) ∧ st'.dynamics = st.dynamics)
      w _ st ⟨h5, rfl⟩
    intro sub hsub st' ⟨hn, hd⟩
    unfold sortOne
    by_cases hc : w.containing sub ≠ w.ns
    · rw [if_pos hc]; exact ⟨hn, hd⟩
    · rw [if_neg hc]
      have hsub' : sub ∈ w.members := by
        rcases hsub with rfl | h
        · exact absurd (by rw [h1]; exact fun g => h2 g.symm) hc
        · exact h
      rw [if_pos ⟨h0, by rw [hd]; exact h4 sub hsub'⟩]
      refine ⟨?_, hd⟩
      rintro (g | g)
      · rcases List.mem_cons.1 g with g | g
        · exact h3 (g ▸ hsub')
        · exact hn (Or.inl g)
      · exact hn (Or.inr g)
  exact this.1

end Verif.Writes
