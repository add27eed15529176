import Verif.Funct.Props

/-! # C125: what goes wrong -/

namespace Verif.Funct

open Spec

/-- The function of a slice called without arguments in a notebook with `x = 5` (name 0). -/
def now (ls : List Line) : Option Val := (toFunction (fun _ => false) id ls).bind fun f => call f [(0, .num 5)] [(0, .num 5)] []

/-- `x + 1` and then a comment: there is no function, although running the slice shows 6. -/
theorem comment_last : toFunction (fun _ => false) id [.simple [.expr (.add (.var 0) (.num 1))], .simple []] = none ∧
    RunsAll (over [(0, .num 5)] []) [.simple [.expr (.add (.var 0) (.num 1))], .simple []] (.num 6) :=
  ⟨rfl, .last (.add (x := 5) (y := 1) (.var rfl) (.num 1))⟩

/-- `x; 7` gives 5, not 7. -/
theorem two_last : now [.simple [.expr (.var 0), .expr (.num 7)]] = some (.num 5) ∧ RunsAll (over [(0, .num 5)] []) [.simple [.expr (.var 0), .expr (.num 7)]] (.num 7) :=
  ⟨by decide, .expr (.var rfl) (.last (.num 7))⟩

/-- `y = 1; y`: there is no function. -/
theorem assign_and_expr : toFunction (fun _ => false) id [.simple [.assign 1 (.num 1), .expr (.var 1)]] = none ∧
    RunsAll (over [] []) [.simple [.assign 1 (.num 1), .expr (.var 1)]] (.num 1) :=
  ⟨rfl, .assign (.num 1) (.last (.var rfl))⟩

/-- An expression over several lines, such as `max(` `x` `)`: the function gives `None`. -/
theorem wide_expr : now [.wide (.expr (.var 0)) false] = some .none ∧ RunsAll (over [(0, .num 5)] []) [.wide (.expr (.var 0)) false] (.num 5) :=
  ⟨by decide, .last (.var rfl)⟩

/-- `y = 1 + \` and `x`: there is no function. -/
theorem continued : toFunction (fun _ => false) id [.wide (.assign 1 (.add (.num 1) (.var 0))) true] = none := rfl

/-- `x = x + 1`, `x`, where `x` is the name of a module, such as `time` or `code`: the call raises. -/
theorem module_name : (toFunction (fun x => x == 0) id [.simple [.assign 0 (.add (.var 0) (.num 1))], .simple [.expr (.var 0)]]).map (fun f => call f [(0, .num 5)] [(0, .num 5)] []) = some none ∧
    RunsAll (over [(0, .num 5)] []) [.simple [.assign 0 (.add (.var 0) (.num 1))], .simple [.expr (.var 0)]] (.num 6) :=
  ⟨by decide, .assign (.add (x := 5) (y := 1) (.var rfl) (.num 1)) (.last (.var rfl))⟩

/-- `None` is given for `x`, but the function takes the global variable. -/
theorem none_passed : (toFunction (fun _ => false) id [.simple [.expr (.var 0)]]).map (fun f => call f [(0, .num 5)] [(0, .num 5)] [(0, .none)]) = some (some (.num 5)) ∧
    RunsAll (over [(0, .num 5)] [(0, .none)]) [.simple [.expr (.var 0)]] .none :=
  ⟨by decide, .last (.var rfl)⟩

/-- The function is called by a library, with global variables of its own: the call raises, or takes a variable of the library. -/
theorem called_elsewhere : (toFunction (fun _ => false) id [.simple [.expr (.var 0)]]).map (fun f => call f [] [(0, .num 5)] []) = some none ∧
    (toFunction (fun _ => false) id [.simple [.expr (.var 0)]]).map (fun f => call f [(0, .num 9)] [(0, .num 5)] []) = some (some (.num 9)) := by decide

/-- `x + (x + y)`, called with 1 and 2 without names: it depends on the order of a set. -/
theorem positional : (toFunction (fun _ => false) id [.simple [.expr (.add (.var 0) (.add (.var 0) (.var 1)))]]).bind (fun f => callPos f [] [] [.num 1, .num 2]) = some (.num 4) ∧
    (toFunction (fun _ => false) List.reverse [.simple [.expr (.add (.var 0) (.add (.var 0) (.var 1)))]]).bind (fun f => callPos f [] [] [.num 1, .num 2]) = some (.num 5) := by decide

end Verif.Funct
