import Verif.Hold.Props

/-! # Concrete cases for the theorems about cells that are held back

Cell 1 is above cell 2. Cell 1 was executed, it printed 7 and gave 8; then cell 2 set variable 5; then cell 1 has been edited and reads variable 5. Variable 6 is set by cell 3,
which is above cell 1. -/

namespace Verif.Hold

/-- Cell 1 before it was edited. -/
private def first : Run := ⟨1, 1, [], [], [7], some 8⟩

/-- Cell 2. -/
private def below2 : Run := ⟨2, 2, [], [(5, 10)], [], none⟩

/-- Cell 1, edited. -/
private def edited : Run := ⟨1, 3, [6, 5], [(9, 11)], [12], some 13⟩

/-- Cell 3. -/
private def above : Run := ⟨3, 4, [], [(6, 1)], [], none⟩

/-- The history until cell 1 is edited. -/
private def until1 : List Event := [.run above, .run below2, .run first, .warn true, .place [(3, 0), (1, 1), (2, 2)]]

example : Spec.held until1 edited = true := by decide

/-- Held back: variable 9 is not set. Run again: it is. -/
example : Spec.value (.run edited :: until1) 9 = none ∧ Assoc.get (after (.run edited :: until1)).env 9 = none ∧
    Assoc.get (after (.run edited :: .run edited :: until1)).env 9 = some 11 :=
  ⟨by decide, (values_eq _ _).trans (by decide), (run_again until1 edited edited rfl rfl 9).trans (by rw [values_eq]; decide)⟩

/-- Cell 4 is run below cell 2, moved to the top and run again: it uses a value from further down and is not held back. -/
private def reader : Run := ⟨4, 5, [5], [(9, 11)], [], none⟩

/-- Its history before it is moved. -/
private def until2 : List Event := [.run below2, .warn true, .place [(2, 0), (4, 1)]]

example : Spec.below (.place [(4, 0), (2, 1)] :: .run reader :: until2) reader = true ∧
    Assoc.get (after (.run reader :: .place [(4, 0), (2, 1)] :: .run reader :: until2)).env 9 = some 11 :=
  ⟨by decide, (not_held_after_moving until2 reader _ 9).trans (by rw [values_eq]; decide)⟩

example : (after (.run first :: [.warn true])).shown = [.text 7, .result 8] := shows_own _ first (by decide)

/-- Cell 4 was never executed and is held back. -/
example : Spec.held [.run below2, .warn true, .place [(4, 0), (2, 1)]] reader = true ∧ ∀ t, .text t ∉ (after (.run reader :: [.run below2, .warn true, .place [(4, 0), (2, 1)]])).shown :=
  ⟨by decide, shows_nothing_printed _ _ (by decide) (by decide)⟩

/-- What was printed is shown again, also if the cell is held back once more after another cell ran. -/
example : .result 8 ∈ (after (.run edited :: .run above :: .run edited :: until1)).shown :=
  (shows_previous_partial (.run above :: .run edited :: until1) edited first (by decide) (by decide) (by decide)).2 8 rfl

example : (after (.run edited :: until1)).shown = [.result 8, .text 7, .result 8] := result_twice until1 edited first 8 (by decide) (by decide) (by decide) rfl

example : (after (.run edited :: .run edited :: until1)).shown = [.text 12, .result 13, .text 7, .result 8] :=
  old_below_new until1 edited edited first 8 (by decide) rfl rfl rfl (by decide) (by decide) rfl

/-- Cell 3, edited so that it prints and reads. -/
private def above' : Run := ⟨3, 6, [5], [], [], none⟩

/-- **C132, violated.** A cell whose executions never had a result shows, when it is held back, a result that another cell had. -/
theorem result_of_another : ∃ (h : List Event) (r q : Run), Spec.held h r = true ∧ Spec.executed h r.cell = some q ∧ Spec.clean h r.cell = true ∧
    (∀ r', .run r' ∈ h → r'.cell = r.cell → r'.result = none) ∧ (after (.run r :: h)).shown = [.result 8, .result 8] :=
  ⟨.run above :: .run edited :: until1, above', above, by decide, by decide, by decide, by
    intro r' hr hc
    simp only [until1, List.mem_cons, Event.run.injEq, List.not_mem_nil, or_false, reduceCtorEq] at hr
    rcases hr with rfl | rfl | rfl | rfl | rfl <;> first | rfl | (exact absurd hc (by decide)), by decide⟩

/-- Cell 1 was executed reading variable 6, which cell 3 has set since. -/
example : Spec.Outdated [.run above, .run ⟨1, 3, [6], [], [], none⟩] 1 ∧ ready (after [.run above, .run ⟨1, 3, [6], [], [], none⟩]) 1 = true := by
  have h : Spec.Outdated [.run above, .run ⟨1, 3, [6], [], [], none⟩] 1 := ⟨1, [6], 6, 2, 3, rfl, by simp, by decide, by decide, by decide, by decide⟩
  refine ⟨h, (reported_partial _ 1 fun more past r hm hr hno => ?_).mpr h⟩
  have : ∀ s, Spec.held past s = false := by
    intro s
    have hw : Spec.warned past = false := by
      rcases more with _ | ⟨a, _ | ⟨b, _ | ⟨c, more⟩⟩⟩
      · simp at hm; rw [← hm.2]; rfl
      · simp at hm; rw [hm.2.2]; rfl
      · simp at hm
      · simp at hm
    simp [Spec.held, Spec.heldBack, hw]
  exact this r

/-- Cell 1 was executed before cell 3 set variable 6 again, so it is out of date; it is run and held back; it is no longer reported. -/
example : Spec.Outdated (.run edited :: .run above :: .run below2 :: .run ⟨1, 3, [6], [], [], none⟩ :: [.warn true, .place [(3, 0), (1, 1), (2, 2)]]) 1 ∧
    ready (after (.run edited :: .run above :: .run below2 :: .run ⟨1, 3, [6], [], [], none⟩ :: [.warn true, .place [(3, 0), (1, 1), (2, 2)]])) 1 = false :=
  ⟨⟨1, [6], 6, 3, 3, by decide, by simp, by decide, by decide, by decide, by decide⟩, forgotten _ edited (by decide)⟩

end Verif.Hold
