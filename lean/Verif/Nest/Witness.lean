import Verif.Nest.Props

/-!
# Runs of code inside runs of cells: concrete cases -/

namespace Verif.Nest
open Verif

/-- Cell 7 sets `x` (variable 0). -/
def first : List Ev := [.finish, .stmt [] [0], .start 7 10]

/-- Cell 8 reads `x` and sets `z` (variable 2); then a magic runs code that reads `x` and sets `y` (variable 1); then it sets `u` (variable 3). -/
def capturing : List Ev := [.stmt [] [3], .leave, .stmt [0] [1], .enter true 21, .stmt [0] [2]]

/-- Cell 9 reads `y` and sets `t` (variable 4). -/
def third : List Ev := [.finish, .stmt [1] [4]]

def afterSecond : List Ev := .finish :: (capturing ++ .start 8 20 :: first)

/-- What is known, to be compared. -/
def view (h : List Ev) (v : Var) (i : Id) : Except Err (Option Id × List (Id × Var) × Option Code) := (run h).map (fun w => (whoSet w v, deps w i, codeNow w i))

-- `attributed_partial`, `code_partial`: two plain cells; the second reads what the first has set, and is recorded (`recorded_partial`)
example : view (.stmt [0] [1] :: .start 8 20 :: first) 1 8 = .ok (some 8, [(7, 0)], some 20) := by rfl
example : setBy 1 (.stmt [0] [1] :: .start 8 20 :: first) = some 8 := by decide
example : SetByLatest 0 7 (.start 8 20 :: first) := by
  refine ⟨by decide, ?_⟩
  show if 0 ∈ [0] then cellOf first = some 7 else SetByLatest 0 7 [.start 7 10]
  rw [if_pos (by decide)]
  rfl
example : ¬Used 7 8 (.start 8 20 :: first) := by
  intro h
  rcases h with ⟨-, v, hv, -⟩ | h
  · cases hv
  · exact h

-- `attributed_partial`: after the cell with the code run inside
example : (∀ e ∈ afterSecond, NoCall e) ∧ Late afterSecond := by
  refine ⟨?_, ?_⟩
  · intro e he
    simp only [afterSecond, capturing, first, List.cons_append, List.nil_append, List.mem_cons, List.not_mem_nil, or_false] at he
    rcases he with rfl | rfl | rfl | rfl | rfl | rfl | rfl | rfl | rfl | rfl <;> trivial
  · intro e he
    simp only [first, List.mem_cons, List.not_mem_nil, or_false] at he
    rcases he with rfl | rfl | rfl <;> trivial
example : view afterSecond 1 8 = .ok (some 8, [(7, 0)], some 21) := by rfl
example : setBy 1 afterSecond = some 8 := by decide

-- `taken_over`: `y` was set in the first run inside; after cell 9 has run, cell 9 is said to have set it
example : setIn 1 capturing = some 1 := by decide
example : view (third ++ .start 9 30 :: afterSecond) 1 9 = .ok (some 9, [], some 30) := by rfl
example : setBy 1 (third ++ .start 9 30 :: afterSecond) = some 8 := by decide
example : cellsRun (third ++ [.start 9 30]) = [9] := by decide

-- what the cell itself did before the code inside is still its own
example : setIn 2 capturing = some 0 := by decide
example : view (third ++ .start 9 30 :: afterSecond) 2 9 = .ok (some 8, [], some 30) := by rfl

-- `use_lost`: cell 9 read `y` and has no dependency. Were there no run inside, it would have one.
example : view (third ++ .start 9 30 :: .finish :: .stmt [0] [1] :: .start 8 20 :: first) 1 9 = .ok (some 8, [(8, 1)], some 30) := by rfl

-- `rerun_stale`: the cell without the magic, run again right away
example : view (.finish :: .stmt [] [1] :: .start 8 22 :: afterSecond) 1 8 = .ok (some 8, [(7, 0)], some 21) := by rfl
example : inner capturing = 1 ∧ innerCode capturing = some 21 := by decide
-- run once more, the code is the new one
example : view (.finish :: .stmt [] [1] :: .start 8 22 :: .finish :: .stmt [] [1] :: .start 8 22 :: afterSecond) 1 8 = .ok (some 8, [], some 22) := by rfl

-- `earlier_uses_lost`: the cell reads `x`, then runs code inside that reads nothing
example : view (.leave :: .enter true 21 :: .stmt [0] [2] :: .start 8 20 :: first) 2 8 = .ok (some 8, [], some 21) := by rfl
example : view (.stmt [0] [2] :: .start 8 20 :: first) 2 8 = .ok (some 8, [(7, 0)], some 20) := by rfl

-- `after_call_unrecorded`: `z` (variable 2) is set after the call and not known
example : view (.stmt [0] [2] :: .leave :: .stmt [] [1] :: .enter false 21 :: .start 8 20 :: first) 2 8 = .ok (none, [], some 21) := by rfl
example : view (.stmt [0] [2] :: .leave :: .stmt [] [1] :: .enter true 21 :: .start 8 20 :: first) 2 8 = .ok (some 8, [(7, 0)], some 21) := by rfl

-- events that cannot happen
example : run [.leave, .start 7 10] = .error .fuel := by rfl

-- two runs inside: what the second has set goes to the cell after the next one
example : view (.finish :: .start 5 50 :: .finish :: .start 9 30 :: .finish :: .leave :: .stmt [] [1] :: .enter true 22 :: .leave :: .enter true 21 :: .start 8 20 :: first) 1 9 =
    .ok (some 5, [], some 30) := by rfl

-- `outvar_partial`, `outvar_no_name`, `outvar_spurious`
example : outvar "  cap ".toList = "cap".toList := by decide
example : outvar (line ["--no-stderr".toList, "cap".toList]) = "--no-stderr cap".toList := by decide
example : IsOption "--no-stderr".toList ∧ ¬IsOption "cap".toList := by unfold IsOption; decide
example : Word "--no-stderr".toList ∧ Word "cap".toList := by unfold Word; decide
example : outvar (line ["--no-stderr".toList]) = "--no-stderr".toList := by decide
example : outvar [] = [] := by decide

end Verif.Nest
