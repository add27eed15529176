import Verif.Rval.Props

/-! # What an assigned value depends on: cases, and where it fails -/

namespace Verif.Rval

/-- Symbols: variables, what was recorded for nodes. -/
inductive Sy where
  | var (x : Nat)
  | node (n : Nat)
deriving DecidableEq

/-- Every variable has a symbol; the nodes below 10 have been recorded with a symbol of their own. -/
def ex : Env Nat Nat Sy where
  look := fun x => some (.var x)
  loaded := fun n => if n < 10 then [.node n] else []
  member := fun _ _ => none
  const := fun _ => false

abbrev E' := Exp Nat Nat

/-- `x + f(y, a.b[0]).c + h()[1] + [v * w for v in vs]`. -/
def good : E' :=
  .op 20 (.pair (.name 0) (.pair
    (.attr 1 (.call 2 (.name 1) (.pair (.name 2) (.sub 3 (.attr 11 (.name 3)) .done))))
    (.pair (.sub 4 (.call 13 (.name 8) .done) .done) (.comp (.name 4) (.op 21 (.pair (.name 4) (.name 5))) (.name 6) .done))))

/-- The hypotheses of `deps_exact_partial` and `usages_partial` are met. -/
example : Good ex [] good ∧ NoStar good ∧ Reads ex [] false good (.var 5) := by
  simp [Good, good, NoStar, Reads, ex, isName, IsCall, IsAccess, Chain, Silent, Target, names]

example : deps ex true [] good = [.var 0, .var 1, .node 2, .var 2, .node 3, .node 1, .var 8, .node 4, .var 5, .var 6] := by decide

/-- The claim of C95 for one expression. -/
def Complete (E : Env Nat Nat Sy) (e : E') : Prop := ∀ static s, Reads E [] false e s → s ∈ deps E true static e

/-- C95 fails: `a[i]` does not depend on `i`. -/
theorem deps_violated_index : ¬ Complete ex (.sub 1 (.name 0) (.name 1)) := by
  intro h
  have := h [] (.var 1) (.inr (.inr ⟨rfl, by simp, rfl⟩))
  revert this; decide

/-- C95 fails: `a[1:3] + b` does not depend on `a`: nothing is recorded for slices. -/
theorem deps_violated_slice : ¬ Complete ex (.op 20 (.pair (.sub 11 (.name 0) (.op 21 .done)) (.name 1))) := by
  intro h
  have := h [] (.var 0) (.inl (.inr (.inl ⟨rfl, by simp, rfl⟩)))
  revert this; decide

/-- C95 fails: `(a + b).c` does not depend on `a` and `b`. -/
theorem deps_violated_object : ¬ Complete ex (.attr 1 (.op 20 (.pair (.name 0) (.name 1)))) := by
  intro h
  have := h [] (.var 0) (.inr (.inl ⟨rfl, by simp, rfl⟩))
  revert this; decide

/-- C95 fails: `f(x).a.b` does not depend on `f` and `x`, although `f(x).a` does. -/
theorem deps_violated_deep : ¬ Complete ex (.attr 1 (.attr 11 (.call 12 (.name 0) (.name 1)))) ∧
    Complete ex (.attr 1 (.call 12 (.name 0) (.name 1))) := by
  constructor
  · intro h
    have := h [] (.var 1) (.inr (.inr (.inr (.inr ⟨rfl, by simp, rfl⟩))))
    revert this; decide
  · intro static s hs
    refine (deps_exact_partial ex static (e := .attr 1 (.call 12 (.name 0) (.name 1))) ?_ hs s).2 hs
    simp [Good, ex, IsCall, isName]

/-- C95 fails: `f(x)(y)` does not depend on `f` and `x`. -/
theorem deps_violated_callee : ¬ Complete ex (.call 1 (.call 2 (.name 0) (.name 1)) (.name 2)) := by
  intro h
  have := h [] (.var 1) (.inr (.inl (.inr (.inr ⟨rfl, by simp, rfl⟩))))
  revert this; decide

/-- C95 fails: `[x + w for x in x]` does not depend on `x`. -/
theorem deps_violated_comprehension : ¬ Complete ex (.comp (.name 0) (.op 20 (.pair (.name 0) (.name 1))) (.name 0) .done) := by
  intro h
  have := h [] (.var 0) (.inr (.inl ⟨rfl, by simp, rfl⟩))
  revert this; decide

/-- C95 fails: `[f(y) for y in r]`, where `f` returns the variable `y` of the notebook, does not depend on that `y`. -/
theorem deps_violated_shadow : ¬ Complete { ex with loaded := fun n => if n = 1 then [.var 2] else [] } (.comp (.name 2) (.call 1 (.name 0) (.name 2)) (.name 1) .done) := by
  intro h
  have := h [] (.var 2) (.inl (.inl (by simp)))
  revert this; decide

/-- C95 fails: `g(*(a + b))` does not depend on `a` and `b`. -/
theorem deps_violated_star : ¬ Complete ex (.call 1 (.name 0) (.star (.op 20 (.pair (.name 1) (.name 2))))) := by
  intro h
  have := h [] (.var 1) (.inr (.inr (.inl ⟨rfl, by simp, rfl⟩)))
  revert this; decide

/-- C95 fails in the other direction: `[b for *a, b in xs]` depends on a variable `a` of the notebook. -/
theorem deps_violated_extra : Sy.var 0 ∈ deps ex true [] (.comp (.disp 11 (.pair (.star (.name 0)) (.name 1))) (.name 1) (.name 2) .done) ∧
    ¬ Reads ex [] false (.comp (.disp 11 (.pair (.star (.name 0)) (.name 1))) (.name 1) (.name 2) .done) (.var 0) := by
  refine ⟨by decide, ?_⟩
  simp [Reads, names, ex]

/-- C95 fails: `x.b`, when the access was not recorded, gives no dependency at all, even if `b` of the object of `x` has a symbol. The code that looks it up
resolves `x` in a mode in which nothing is resolved. -/
theorem deps_violated_unrecorded (static : List Sy) :
    Reads { ex with member := fun _ _ => some (.var 7) } [] false (.attr 11 (.name 0)) (.var 0) ∧
    deps { ex with member := fun _ _ => some (.var 7) } true static (.attr 11 (.name 0)) = static :=
  ⟨.inr ⟨rfl, by simp, rfl⟩, rfl⟩

/-- `a[0].b` where only `a[0]` was recorded. -/
example : ∀ t, t ∈ deps { ex with member := fun _ _ => some (.var 7) } true [] (.attr 11 (.sub 1 (.name 0) .done)) ↔ t = .var 7 :=
  deps_member_partial _ _ rfl rfl rfl

example : deps ex true [.var 3] (.attr 11 (.sub 1 (.name 0) .done)) = [.var 3] := deps_no_member _ _ rfl rfl rfl

/-- C96 fails: `f(*xs)` does not record the use of `xs`. -/
theorem usages_violated : Uses ex [] false (.call 1 (.name 0) (.star (.name 1))) (.var 1) ∧ Sy.var 1 ∉ usages ex true [] (.call 1 (.name 0) (.star (.name 1))) := by
  refine ⟨.inr ⟨rfl, by simp, rfl⟩, by decide⟩

/-- C96 fails: `f(x)(y)` does not record the use of `x`, and `(a + b).c` not that of `a`. -/
theorem usages_violated_inner : (Uses ex [] false (.call 1 (.call 2 (.name 0) (.name 1)) (.name 2)) (.var 1) ∧
    Sy.var 1 ∉ usages ex true [] (.call 1 (.call 2 (.name 0) (.name 1)) (.name 2))) ∧
    (Uses ex [] false (.attr 1 (.op 20 (.pair (.name 0) (.name 1)))) (.var 0) ∧ Sy.var 0 ∉ usages ex true [] (.attr 1 (.op 20 (.pair (.name 0) (.name 1))))) := by
  refine ⟨⟨.inl (.inr ⟨rfl, by simp, rfl⟩), by decide⟩, ⟨.inl ⟨rfl, by simp, rfl⟩, by decide⟩⟩

end Verif.Rval
