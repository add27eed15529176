import Verif.Lambda.Props

/-! # C124: what goes wrong -/

namespace Verif.Lambda

/-- `def f(n): return n` and `lambda n: f(n) + x`, given to a library; then `x` is changed. The names `f`, `x`: 0, 1. -/
def calls : World where
  globals := [(0, .fn 0), (1, .num 5)]
  heap := [{ param := 7, body := .var 7 }, { param := 7, body := .add (.call (.var 0) (.var 7)) (.var 1), isLambda := true }]

/-- The lambda gives 102 afterwards, but the library has one that gives 7. -/
theorem stale_global : apply 9 { (pass 9 true calls 1).1 with globals := [(0, .fn 0), (1, .num 100)] } 1 (some (.num 2)) = some (.num 102) ∧
    apply 9 { (pass 9 true calls 1).1 with globals := [(0, .fn 0), (1, .num 100)] } (pass 9 true calls 1).2 (some (.num 2)) = some (.num 7) := by decide

/-- `lambda n: n + k`, where `k` is a variable of the function it is made in; then `k` is changed. -/
def nested : World where
  globals := []
  cells := [.num 5]
  heap := [{ param := 7, body := .add (.var 7) (.var 2), frees := [(2, .cell 0)], isLambda := true }]

theorem stale_cell : apply 9 { (pass 9 true nested 0).1 with cells := [.num 100] } 0 (some (.num 2)) = some (.num 102) ∧
    apply 9 { (pass 9 true nested 0).1 with cells := [.num 100] } (pass 9 true nested 0).2 (some (.num 2)) = some (.num 7) := by decide

/-- `g = lambda n=x: n` was made when `x` was 5; now `x` is 6. Or: the lambda was made in a function with a local variable `x` that is 5, and there is a global `x`, too, which is 6. -/
def defaults : World where
  globals := [(1, .num 6)]
  heap := [{ param := 7, dflt := some (.var 1, .num 5), body := .var 7, isLambda := true }]

/-- Called without an argument, the lambda gives 5, but the one the library has gives 6. -/
theorem default_changed : apply 9 (pass 9 true defaults 0).1 0 none = some (.num 5) ∧ apply 9 (pass 9 true defaults 0).1 (pass 9 true defaults 0).2 none = some (.num 6) := by decide

/-- `f` calls `g` and `h`, which both call `k`: the copy of `h` calls the `k` that is traced, not its copy. Names 0 to 3: `k`, `g`, `h`, `f`. -/
def diamond : World where
  globals := [(0, .fn 0), (1, .fn 1), (2, .fn 2), (3, .fn 3)]
  heap := [{ param := 7, body := .var 7 }, { param := 7, body := .call (.var 0) (.var 7) }, { param := 7, body := .call (.var 0) (.var 7) },
    { param := 7, body := .add (.call (.var 1) (.var 7)) (.call (.var 2) (.var 7)), isLambda := true }]

theorem still_traced : (pass 9 true diamond 3).2 = 7 ∧ ((pass 9 true diamond 3).1.heap[7]?).map (fun f => Assoc.get (globalsOf (pass 9 true diamond 3).1 f) 2) = some (some (.fn 6)) ∧
    ((pass 9 true diamond 3).1.heap[6]?).map (fun f => Assoc.get (globalsOf (pass 9 true diamond 3).1 f) 0) = some (some (.fn 0)) := by decide

end Verif.Lambda
