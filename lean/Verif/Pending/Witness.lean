import Verif.Pending.Props

/-! Where the code departs from C119: concrete cases. -/

namespace Verif.Pending

open Spec

/-- `try: q.remove(3)` / `except ValueError: k()`: the removal fails, and is recorded all the same, with the next statement that comes to its end. -/
theorem failed_recorded : ∃ b : List (Stmt Nat Nat), okAll b = true ∧ blockQuiet b = true ∧
    ∃ m ∈ blockMade b, m.res = none ∧ ∃ r ∈ (ran b).log, r.call = m.call :=
  ⟨[.try [.simple (.call 1 .lib false [.leaf 3] none)] [.simple (.leaf 0)]], rfl, rfl, ⟨1, [3], none⟩, by simp [blockMade, stmtMade, made, madeAll, values, Expr.value, here, okAll, Stmt.ok],
    rfl, ⟨1, [3], none⟩, .head _, rfl⟩

/-- The same, and `k()` returns `None` (here `0`): that is taken for the result of the removal. -/
theorem other_result : ∃ b : List (Stmt Nat Nat), okAll b = true ∧ blockQuiet b = true ∧
    (blockMade b).map (fun m => (m.call, m.res)) = [(1, none)] ∧ (ran b).log = [⟨1, [3], some 0⟩] :=
  ⟨[.try [.simple (.call 1 .lib false [.leaf 3] none)] [.simple (.call 2 .own false [] (some 0))]], rfl, rfl, rfl, rfl⟩

/-- `q.extend(sorted(xs, key=k))` with a function `k` of the notebook, which is called more than once: `sorted` is recorded, the change of `q` is not. -/
theorem lost_callback : ∃ b : List (Stmt Nat Nat), okAll b = true ∧
    (blockMade b).map (fun m => m.call) = [2, 1] ∧ (ran b).log.map (fun r => r.call) = [2] :=
  ⟨[.simple (.call 1 .lib false [.call 2 .lib true [.leaf 3, .leaf 4] (some 5)] (some 0))], rfl, rfl, rfl⟩

/-- `q.append(get_ipython().getoutput(cmd))`: the change of `q` is not recorded. -/
theorem lost_shell : ∃ b : List (Stmt Nat Nat), okAll b = true ∧ (blockMade b).map (fun m => m.call) = [1] ∧ (ran b).log = [] :=
  ⟨[.simple (.call 1 .lib false [.call 2 .odd false [.leaf 3] (some 5)] (some 0))], rfl, rfl, rfl⟩

/-- `x = q.pop() / k()` where `k` raises and nothing catches it: the change of `q` is not recorded. -/
theorem lost_failing : ∃ b : List (Stmt Nat Nat), blockQuiet b = true ∧ (blockMade b).map (fun m => (m.call, m.res)) = [(1, some 7)] ∧ (ran b).log = [] :=
  ⟨[.simple (.op 0 [.call 1 .lib false [] (some 7), .call 2 .own false [] none])], rfl, rfl, rfl⟩

/-- `try: x = q.pop() / k()` / `except …: y = 1`, where tracing is turned off when `k` raises: the change of `q` is not recorded, though the statements come to their end. -/
theorem lost_dropped : ∃ b : List (Stmt Nat Nat), okAll b = true ∧ (blockMade b).map (fun m => (m.call, m.res)) = [(1, some 7)] ∧ (ran b).log = [] :=
  ⟨[.try [.simple (.op 0 [.call 1 .lib false [] (some 7), .call 2 .own true [] none])] [.simple (.leaf 0)]], rfl, rfl, rfl⟩

/-- `z = zip(a, b)` / `for x, y in z`: `external_calls[-1]` raises. -/
theorem loop_crash : ∃ b : List (Stmt Nat Nat), okAll b = true ∧ blockQuiet b = true ∧ (ran b).iters = [none] :=
  ⟨[.simple (.call 1 .lib false [.leaf 1, .leaf 2] (some 3)), .for (.leaf 3) true], rfl, rfl, rfl⟩

/-- `z = zip(a, b)` / `for x, y in pick(z, len(c))`: the loop is taken to iterate over `c`. -/
theorem loop_other : ∃ b : List (Stmt Nat Nat), okAll b = true ∧ blockQuiet b = true ∧ (ran b).iters = [some [4]] :=
  ⟨[.simple (.call 1 .lib false [.leaf 1, .leaf 2] (some 3)), .for (.call 2 .own false [.leaf 3, .call 5 .lib false [.leaf 4] (some 1)] (some 3)) true], rfl, rfl, rfl⟩

end Verif.Pending
