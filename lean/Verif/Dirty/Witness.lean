import Verif.Dirty.Props

namespace Verif.Dirty.Witness
open Verif.Dirty Spec

/-- Two cells are run; one of them is edited. -/
def usual : List Ev := [.edit 0 7, .run 1, .run 0, .settle, .edit 1 5, .edit 0 4, .connect]

example : Calm usual ∧ Edited usual 0 ∧ ¬ Edited usual 1 ∧ staleCells 2 (after 2 (.settle :: usual)) = [0] := by
  refine ⟨?_, ⟨4, rfl, by decide⟩, ?_, rfl⟩
  · simp [Calm, atRest, usual]
  · rintro ⟨t, h1, h2⟩
    simp [usual, ranWith, text] at h1 h2
    exact h2 h1.symm

/-- A cell is run right after an edit. -/
example : restedText [.edit 0 7, .run 0, .edit 0 4, .settle] 0 ≠ some (text [.edit 0 7, .run 0, .edit 0 4, .settle] 0) ∧
    staleCells 2 (after 2 (.settle :: [.edit 0 7, .run 0, .edit 0 4, .settle])) = [0] := by
  constructor
  · simp [restedText, text]
  · rfl

/-- The edited cell is not seen after a new connection, nor right after the edit. -/
example : Edited (.connect :: usual) 0 ∧ staleCells 2 (after 2 ([.run 1, .edit 1 3] ++ .connect :: usual)) = [] ∧ staleCells 2 (after 2 usual) = [] :=
  ⟨⟨4, rfl, by decide⟩, rfl, rfl⟩

/-- An edited cell is run and the edit is undone. -/
example : staleCells 2 (after 2 (.settle :: [.edit 0 4, .run 0, .edit 0 7, .settle, .run 0, .edit 0 4])) = [] := rfl

/-- **C189** (violated): that the command runs all cells which were edited since they were run is false, also for a notebook at rest. -/
theorem stale_claim_false : ¬ ∀ (n : Nat) (h : List Ev) (c : Nat), c ∈ staleCells n (after n (.settle :: h)) ↔ c < n ∧ Edited h c := by
  intro q
  have := (q 1 [.edit 0 0, .run 0, .edit 0 7, .settle] 0).2 ⟨by decide, ⟨7, rfl, by decide⟩⟩
  exact (taken_back 1 [] 0 7 (by decide) 1).2 this

end Verif.Dirty.Witness
