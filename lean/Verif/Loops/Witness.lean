import Verif.Loops.Props

/-! Notebooks that meet the hypotheses of the theorems, and notebooks for which the code is wrong. -/

namespace Verif.Loops.Witness
open Verif Verif.Loops Spec

/-- The variables a program leaves behind, from nothing. -/
def alone (F : Nat) (p : List S) (x : Nat) : Option Int := (runAll F p (fun _ => none)).bind (· x)

/-- `n = 4`, `s = 0`, and a cell with `k = 2` and `for i in range(n): if i: s = 1 + s + i`. Newest first; `n` is 0, `s` 1, `i` 2, `k` 3.
The tracer never sees `s` being set in the loop. -/
def demo : List (List S) :=
  [[.set 3 2 [], .for_ 2 0 (.ite 2 (.set 1 1 [1, 2]) .pass)], [.set 1 0 []], [.set 0 4 []]]

theorem demo_plain : PlainAll 9 demo := by
  refine ⟨fun e he => ?_, fun e he => ?_, fun e he => ?_, trivial⟩ <;> (cases he; decide)

/-- The code for `s` has the loop. -/
example : (run 9 demo).map (fun σ => (σ.val 1, code σ 1)) = some (some 9, .ok [0, 1, 3]) := by rfl

example : ∃ σ C ρ, run 9 demo = some σ ∧ code σ 1 = .ok C ∧ runAll 9 (text σ C) (fun _ => none) = some ρ ∧ ρ 1 = some 9 :=
  code_runs_alone_partial 9 demo demo_plain _ rfl 1 9 rfl

/-- The same with `s = 0` in the cell of the loop. -/
def oneCell : List (List S) := [[.set 1 0 [], .for_ 2 0 (.ite 2 (.set 1 1 [1, 2]) .pass)], [.set 0 4 []]]

/-- The code for `s` lacks `s = 0` and raises. -/
theorem accumulator_lost : (run 9 oneCell).map (fun σ => (σ.val 1, code σ 1)) = some (some 9, .ok [0, 2]) ∧
    (run 9 oneCell).map (fun σ => (runAll 9 (text σ [0, 2]) (fun _ => none)).isSome) = some false := ⟨by rfl, by rfl⟩

/-- The same with a `while` in a cell of its own: `while k: k = -1 + k; t = 0 + s + k`. -/
def demo2 : List (List S) := [.while_ 3 (.seq (.set 3 (-1) [3]) (.set 4 0 [1, 3]))] :: demo

theorem demo2_plain : PlainAll 9 demo2 := by
  refine ⟨fun e he => ?_, demo_plain⟩
  cases he
  decide

example : (run 9 demo2).map (fun σ => (σ.val 4, code σ 4)) = some (some 9, .ok [0, 1, 2, 3, 4]) := by rfl

example : ∃ σ C ρ, run 9 demo2 = some σ ∧ code σ 4 = .ok C ∧ runAll 9 (text σ C) (fun _ => none) = some ρ ∧ ρ 4 = some 9 :=
  code_runs_alone_partial 9 demo2 demo2_plain _ rfl 4 9 rfl

/-- Branches: `a = 1`, `b = 5`, and `if a: x = 0 + b; if x: y = 1 + x; else: ...`. -/
def branches : List (List S) :=
  [[.set 0 1 [], .ite 0 (.seq (.set 2 0 [1]) (.ite 2 (.set 3 1 [2]) .pass)) (.set 3 7 [])], [.set 1 5 []]]

example : ∃ σ C ρ, run 0 branches = some σ ∧ code σ 3 = .ok C ∧ runAll 0 (text σ C) (fun _ => none) = some ρ ∧ ρ 3 = some 6 :=
  branches_run_alone 0 branches (by simp [branches, NoLoop]) _ rfl 3 6 rfl

/-- The hypotheses of `later_iteration_lost` and `later_iteration_unknown` are met after `n = 3`, `found = 7`. -/
def before : List (List S) := [[.set 1 7 []], [.set 0 3 []]]

theorem before_plain : PlainAll 0 before := by
  refine ⟨fun e he => ?_, fun e he => ?_, trivial⟩ <;> (cases he; decide)

example : ∃ ρ₁ σ C ρ, notebook 0 ([.for_ 2 0 (.ite 2 (.set 1 8 []) .pass)] :: before) = some ρ₁ ∧ ρ₁ 1 = some 8 ∧
    run 0 ([.for_ 2 0 (.ite 2 (.set 1 8 []) .pass)] :: before) = some σ ∧ code σ 1 = .ok C ∧
    runAll 0 (text σ C) (fun _ => none) = some ρ ∧ ρ 1 = some 7 :=
  later_iteration_lost 0 before before_plain _ rfl 2 0 1 8 3 7 (by decide) (by decide) rfl (by decide) rfl

example : ∃ ρ₁ σ, notebook 0 ([.for_ 2 0 (.ite 2 (.set 5 8 []) .pass)] :: before) = some ρ₁ ∧ ρ₁ 5 = some 8 ∧
    run 0 ([.for_ 2 0 (.ite 2 (.set 5 8 []) .pass)] :: before) = some σ ∧ code σ 5 = .error .crash :=
  later_iteration_unknown 0 before before_plain _ rfl 2 0 5 8 3 (by decide) (by decide) rfl (by decide) rfl

/-- One cell: `d = 1`, `while d: d = 0; x = 7`. -/
def whileCell : List (List S) := [[.set 0 1 [], .while_ 0 (.seq (.set 0 0 []) (.set 1 7 []))]]

/-- A `while` is handled when it is over, and by then the variable of its condition has been set by the loop. The code for `x` lacks `d = 1` and
raises. -/
theorem condition_lost : (run 9 whileCell).map (fun σ => (σ.val 1, code σ 1)) = some (some 7, .ok [1]) ∧
    (run 9 whileCell).map (fun σ => (runAll 9 (text σ [1]) (fun _ => none)).isSome) = some false := ⟨by rfl, by rfl⟩

/-- `n = 2`, and one cell: `y = 5`, `for i in range(n): x = 0; if i: x = 0 + y`. -/
def readLater : List (List S) := [[.set 1 5 [], .for_ 2 0 (.seq (.set 3 0 []) (.ite 2 (.set 3 0 [1]) .pass))], [.set 0 2 []]]

/-- A variable that the cell sets and that only later iterations read is not linked to. The code for `x` lacks `y = 5` and raises. -/
theorem later_read_lost : (run 0 readLater).map (fun σ => (σ.val 3, code σ 3)) = some (some 5, .ok [0, 2]) ∧
    (run 0 readLater).map (fun σ => (runAll 0 (text σ [0, 2]) (fun _ => none)).isSome) = some false := ⟨by rfl, by rfl⟩

/-- `n = 0`, `i = 5`, and `for i in range(n): pass`. -/
def empty : List (List S) := [[.for_ 1 0 .pass], [.set 1 5 []], [.set 0 0 []]]

/-- A loop without iterations takes over its variable. The code for `i` has the loop and not `i = 5`, and leaves `i` without a value. -/
theorem empty_loop_takes : (run 0 empty).map (fun σ => (σ.val 1, code σ 1)) = some (some 5, .ok [0, 2]) ∧
    (run 0 empty).map (fun σ => alone 0 (text σ [0, 2]) 1) = some none := ⟨by rfl, by rfl⟩

/-- `n = 3`, `z = 0`, and one cell: `for i in range(n): t = 0 + i` and `for j in range(n): if z: u = 0 + t`. -/
def mention : List (List S) :=
  [[.for_ 2 0 (.set 3 0 [2]), .for_ 4 0 (.ite 1 (.set 5 0 [3]) .pass)], [.set 1 0 []], [.set 0 3 []]]

/-- A loop that mentions a variable which a loop before it has set takes it over, although it does not set it. The code for `t` lacks the loop
that sets it. -/
theorem mention_takes : (run 0 mention).map (fun σ => (σ.val 3, code σ 3)) = some (some 2, .ok [0, 1, 3]) ∧
    (run 0 mention).map (fun σ => alone 0 (text σ [0, 1, 3]) 3) = some none := ⟨by rfl, by rfl⟩

/-- Without the second loop the code is right: values are brought up to date when the cell ends. -/
example : (run 0 [[.for_ 2 0 (.set 3 0 [2])], [.set 1 0 []], [.set 0 3 []]]).map (fun σ => (σ.val 3, σ.sym 3, code σ 3)) =
    some (some 2, some (2, 2), .ok [0, 2]) := by rfl

end Verif.Loops.Witness
