import Verif.Fails.Props

/-!
# C120: what is left out wrongly

In each case the access does not fail and the variable it starts with has been assigned after the cell was run, but the cell is not ready. -/

namespace Verif.Fails

open Ref (Const Index Exp Val Atom)
open Spec (value)

/-- Only the variable `x` has a symbol, and it was assigned in the seventh execution. -/
def one (o : Obj) : World where
  sym q := if q = [.one (.str 0)] then some o else none
  mutates _ _ := false
  hot _ := false
  reactive := false
  shallow _ := 7
  deep _ := 7

/-- The environment in which it is run: `i` (variable 1) is 1, the method 5 of dicts is there. -/
def run (o : Obj) : Spec.Env where
  var x := if x = 0 then some o else none
  method a := if a = 5 then some num else none
  index _ := some (.one (.int 1))
  result _ := none

/-- The access does not fail, `x` is newer than the cell, but the cell is not ready. -/
def Lost (o : Obj) (e : Exp) : Prop := (value (run o) e).isSome = true ∧ (one o).shallow [.one (.str 0)] > 5 ∧ ready (one o) false 5 e = false

/-- `m[i][2]` where `m` has two rows of three elements: taken for `m[2]`. -/
theorem matrix_lost : Lost (.seq [.seq [num, num, num], .seq [num, num, num]]) (.sub (.sub (.name 0) (.name 1)) (.const (.int 2))) := by
  refine ⟨rfl, by decide, by decide⟩

/-- `d[i].name` where `d` is a dict of objects: taken for `d['name']`. -/
theorem record_lost : Lost (.dict false [(.one (.int 1), .inst [] [(8, num)] [])]) (.attr (.sub (.name 0) (.name 1)) 8) := by
  refine ⟨rfl, by decide, by decide⟩

/-- `m['k']` where `m` is a mapping that is not a dict. -/
theorem mapping_lost : Lost (.inst [] [] [(.one (.str 4), num)]) (.sub (.name 0) (.const (.str 4))) := by
  refine ⟨rfl, by decide, by decide⟩

/-- `d['k']` where `d` is a `defaultdict`. -/
theorem default_lost : Lost (.dict true []) (.sub (.name 0) (.const (.str 4))) := by
  refine ⟨rfl, by decide, by decide⟩

/-- `f = d.items` -/
theorem method_lost : Lost (.dict false []) (.attr (.name 0) 5) := by
  refine ⟨rfl, by decide, by decide⟩

/-- `l[-3]` of a list with two elements fails, but `l` counts as read and makes the cell ready. -/
theorem negative_kept : value (run pair) (.sub (.name 0) (.neg (.int 3))) = none ∧ ready (one pair) false 5 (.sub (.name 0) (.neg (.int 3))) = true := by
  refine ⟨rfl, by decide⟩

end Verif.Fails
