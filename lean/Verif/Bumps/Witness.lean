import Verif.Bumps.Props

namespace Verif.Bumps.Witness
open Verif.Bumps Spec

/-- Three code cells; cell 1 is forced to run after cell 0. -/
def forcing (lazy batch : Bool) : Answer := ⟨lazy, batch, false, false, 0, [1], [], [], fun _ => [], 3, fun _ => true, fun _ => none⟩

/-- Nothing is to run. -/
def nothing (lazy batch : Bool) : Answer := { forcing lazy batch with forced := [] }

/-- A slice of two code cells. -/
def two : List (Nat × Bool) := [(0, true), (2, true)]

/-- A slice was run, then a cell, with one reactive run after it. -/
def before : List Ev := [.slice true two, .answer (forcing true true), .run, .answer (forcing true true), .answer (nothing true true)]

example : (∀ e ∈ before, Keeps e) ∧ (∀ e ∈ before, Proper e) ∧ (run (init true true) before).asks = 0 ∧ (run (init true true) before).ran = [[1]] := by
  refine ⟨?_, ?_, rfl, rfl⟩
  · intro e he
    simp only [before, List.mem_cons, List.not_mem_nil, or_false] at he
    rcases he with rfl | rfl | rfl | rfl | rfl <;> simp [Keeps, forcing, nothing]
  · intro e he
    simp only [before, List.mem_cons, List.not_mem_nil, or_false] at he
    rcases he with rfl | rfl | rfl | rfl | rfl <;> simp [Proper, two]

example : (run (init true true) (before ++ [.run, .answer (forcing true true)])).ran = [[1], [1]] := rfl
example : (run (init true true) (before ++ [.run, .answer (forcing false false)])).ran = [[1], [1]] := rfl
example : OnlyForced (forcing true true) ∧ OnlyForced (forcing false false) ∧ Grounded (forcing true true) := ⟨.inl rfl, .inr rfl, rfl⟩

/-- A slice is run twice with cells that run reactively one at a time: nothing runs, and the third run is the first after which the forced cell runs. -/
example : (run (init false false) (presses 2 true two ++ rounds [forcing false false, forcing false false])).ran = [] ∧
    (run (init false false) (presses 2 true two ++ rounds [forcing false false, forcing false false, forcing false false])).ran = [[1]] := ⟨rfl, rfl⟩

/-- A cell runs, and a slice is run before it has finished. -/
example : (run (init true true) [.run, .slice true two, .answer (forcing true true)]).ran = [] ∧
    (run (init true true) [.run, .slice true two, .answer (forcing true true), .answer (forcing true true)]).ran = [[1]] := ⟨rfl, rfl⟩

/-- Cell 1 is forced to run twice and runs once. -/
example : (run (init true true) (before ++ .run :: [forcing true true, forcing true true].map .answer)).ran = [[1], [1]] ∧ (run (init true true) before).ran = [[1]] := ⟨rfl, rfl⟩

/-- **C188** (violated): that forced cells run after whatever the user runs when nothing else is under way is false. -/
theorem forced_claim_false :
    ¬ ∀ (l b : Bool) (h : List Ev), (run (init l b) h).asks = 0 → ∀ a : Answer, a.error = false → a.inOrder = false →
      ∀ c ∈ a.forced, c < a.cells → a.code c = true → c ≠ a.last → (run (init l b) (h ++ [.run, .answer a])).ran ≠ (run (init l b) h).ran := by
  intro q
  exact q false false [.slice true two] rfl (forcing false false) rfl rfl 1 (by simp [forcing]) (by simp [forcing]) rfl (by simp [forcing]) rfl

end Verif.Bumps.Witness
