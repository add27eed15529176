import Verif.Addons.Props

/-!
# Transformers of users, examples
-/

namespace Verif.Addons.Witness

open Verif.Addons Spec

/-- A transformer that is configured at the start, one that a silent run adds, and a traced cell that changes nothing and runs other code. -/
def calm : List (Mode × Code) :=
  [(.bare, .add .ast 2 (.add .post 3 .done)), (.full [7, 8] 1, .run (.full [7] 2) .done .done), (.text [5], .remove .ast 2 (.remove .ast 9 (.add .ast 4 .done)))]

/-- `kept_partial` applies, and all kinds of runs occur. -/
example : ∀ x ∈ calm, Outside (Mode.wraps x.1) x.2 := by
  intro x hx
  simp only [calm, List.mem_cons, List.not_mem_nil, or_false] at hx
  rcases hx with rfl | rfl | rfl <;> simp [Outside, Mode.wraps]

example : session calm (start [1] []) = ⟨[.user 1, .user 3], [], [],
    [([.user 1], []), ([.user 1, .user 3, .own 7, .own 8], [.user 2, .own 1]), ([.user 1, .user 3, .own 7, .own 8, .own 7], [.user 2, .own 1, .own 2]),
      ([.user 1, .user 3, .own 5], [.user 2])]⟩ := by decide

/-- A cell that adds a transformer, as an extension does, and a cell after it. -/
def lost : List (Mode × Code) := [(.full [7] 1, .load 5 .ast [2] (.run (.full [7] 2) .done .done)), (.full [7] 3, .load 5 .ast [2] .done)]

/-- It is used for code that the same cell runs, and not for the next cell. -/
example : (session lost (start [] [])).log =
    [([.own 7], [.own 1]), ([.own 7, .own 7], [.own 1, .user 2, .own 2]), ([.own 7], [.own 3])] := by decide

/-- Both lists are wrapped by the cells of `lost`, so `traced_undone` applies to them. -/
example : ∀ w, ∀ x ∈ lost, Mode.wraps x.1 w = true := by
  intro w x hx
  simp only [lost, List.mem_cons, List.not_mem_nil, or_false] at hx
  rcases hx with rfl | rfl <;> rfl

/-- Code that only loads the extension again, in a run that is not traced. -/
example : ∀ x ∈ ([(Mode.bare, Code.load 5 .ast [2] .done), (Mode.full [7] 3, Code.run .bare (.load 5 .ast [2] .done) .done)] : List (Mode × Code)), Loads 5 x.2 := by
  intro x hx
  simp only [List.mem_cons, List.not_mem_nil, or_false] at hx
  rcases hx with rfl | rfl <;> simp [Loads]

/-- **C185, violated**: a traced cell adds a transformer; afterwards it is not there. -/
theorem kept_claim_false : ¬ Claim := by
  intro h
  have := (h [(.full [7] 1, .add .ast 2 .done)] [] []).2.1
  revert this
  decide

end Verif.Addons.Witness
