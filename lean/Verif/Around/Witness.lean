import Verif.Around.Props

/-!
# Concrete notebooks for the theorems about the cells around the one that runs -/

namespace Verif.Around

/-- Code cells 1, 2, 3, a text cell 4, a code cell 5. -/
def five : List Cell := [⟨1, true⟩, ⟨2, true⟩, ⟨3, true⟩, ⟨4, false⟩, ⟨5, true⟩]

/-- The notebook is told, cell 2 is run. -/
def five_h : List Event := [.run 2, .told five]

theorem five_distinct : Distinct five_h := by
  intro nb hn
  rcases List.mem_cons.1 hn with h | h
  · cases h
  · rw [List.mem_singleton] at h
    cases h
    decide

/-- `below_partial`, `above_partial`, `at_zero`. -/
example : atOffset five_h 1 2 = .ok (some 3) :=
  below_partial five_distinct (l1 := []) (l2 := [⟨2, true⟩, ⟨3, true⟩, ⟨4, false⟩, ⟨5, true⟩]) (a := ⟨1, true⟩) rfl rfl (k := 1) (by decide)

example : atOffset five_h 3 (-2) = .ok (some 1) :=
  above_partial five_distinct (l1 := [⟨1, true⟩, ⟨2, true⟩]) (l2 := [⟨4, false⟩, ⟨5, true⟩]) (a := ⟨3, true⟩) rfl rfl (k := 1) (by decide)

example : atOffset five_h 3 0 = .ok (some 3) := at_zero five_distinct (a := ⟨3, true⟩) (by decide) rfl

example : ∃ r, atOffset five_h 99 7 = .ok r := always_answers five_h 99 7

/-- `below_sound`, `above_sound`. -/
example : ∃ c ∈ [(⟨3, true⟩ : Cell), ⟨4, false⟩, ⟨5, true⟩], c.code = true ∧ c.id = 5 :=
  below_sound five_distinct (l1 := [⟨1, true⟩]) (a := ⟨2, true⟩) rfl rfl (k := 2) (by decide)

example : ∃ c ∈ [(⟨1, true⟩ : Cell)], c.code = true ∧ c.id = 1 :=
  above_sound five_distinct (l1 := [⟨1, true⟩]) (l2 := [⟨3, true⟩, ⟨4, false⟩, ⟨5, true⟩]) (a := ⟨2, true⟩) rfl rfl (k := 0) (by decide)

/-- `hidden_below`, `hidden_above`: 3 and 5 have each other as neighbours. -/
example : atOffset five_h 3 1 = .ok none ∧ nth [⟨4, false⟩, ⟨5, true⟩] 0 = some 5 :=
  ⟨hidden_below five_distinct (l1 := [⟨1, true⟩, ⟨2, true⟩]) (l2 := [⟨5, true⟩]) (a := ⟨3, true⟩) (m := ⟨4, false⟩) rfl rfl rfl, rfl⟩

example : atOffset five_h 5 (-1) = .ok none :=
  hidden_above five_distinct (l1 := [⟨1, true⟩, ⟨2, true⟩, ⟨3, true⟩]) (l2 := []) (a := ⟨5, true⟩) (m := ⟨4, false⟩) rfl rfl rfl

/-- `wrong_below`: the second code cell below 3 would be none, cell 5 is given. -/
example : nth [⟨4, false⟩, ⟨5, true⟩] 1 ≠ some 5 :=
  wrong_below five_distinct (l1 := [⟨1, true⟩, ⟨2, true⟩]) (a := ⟨3, true⟩) (m := ⟨4, false⟩) rfl rfl (k := 1) (by decide) rfl (by decide)

/-- `untold_below`: cell 6 was put at the end and run right away. -/
example : atOffset five_h 6 1 = .ok (some 1) := by
  refine untold_below (h := five_h) (i := 6) ?_ (c := ⟨1, true⟩) (l := five.tail) rfl rfl
  intro nb hn
  rcases List.mem_cons.1 hn with h | h
  · cases h
  · rw [List.mem_singleton] at h
    cases h
    decide

/-- `gone_around`: cell 2 was removed. -/
example : ∃ i, (∀ c ∈ five.filter (·.id ≠ 2), c.code = true → c.id ≠ i) ∧
    ∀ k, atOffset [.told (five.filter (·.id ≠ 2)), .told five, .flow true] 2 k = .ok (some i) := by
  refine gone_around (h := []) (nb := five) (nb' := five.filter (·.id ≠ 2)) ?_ (a := ⟨2, true⟩) (by decide) rfl (by decide)
  intro nb hn
  rcases List.mem_cons.1 hn with h | h
  · cases h
    decide
  rcases List.mem_cons.1 h with h | h
  · cases h
    decide
  · rw [List.mem_singleton] at h
    cases h

end Verif.Around
