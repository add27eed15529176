import Verif.Lambda.Model

/-! What the user expects of a lambda that they give to a library. -/

namespace Verif.Lambda.Spec

/-- `w'` is `w` with more function objects. -/
def More (w w' : World) : Prop := w'.globals = w.globals ∧ w'.cells = w.cells ∧ ∃ l, w'.heap = w.heap ++ l

/-- What the expression of the default is now, for someone who reads it in the definition. -/
def Now (w : World) (f : Fn) (d : Dflt) (v : Val) : Prop := match d with
  | .num z => v = .num z
  | .var x => (∃ c, Assoc.get f.frees x = some (.cell c) ∧ w.cells[c]? = some v) ∨ Assoc.get f.frees x = some (.fixed v) ∨
      Assoc.get f.frees x = none ∧ Assoc.get (f.env.getD w.globals) x = some v

/-- Nothing that defaults were computed from has changed since the functions were defined. -/
def Settled (w : World) : Prop := ∀ (i : Nat) f d v, w.heap[i]? = some f → f.traced = true → f.dflt = some (d, v) → Now w f d v

/-- Both give the same number, or neither gives a number. -/
def SameNumber (a b : Option Val) : Prop := ∀ z, a = some (.num z) ↔ b = some (.num z)

/-- The name occurs in the expression. -/
def Mentions (x : Nat) : Exp → Prop
  | .num _ => False
  | .var y => y = x
  | .add a b => Mentions x a ∨ Mentions x b
  | .call f a => Mentions x f ∨ Mentions x a
  | .call0 f => Mentions x f

/-- The body of `f` mentions no function of the notebook by a global name. -/
def Plain (w : World) (f : Fn) : Prop := ∀ x, Mentions x f.body → x ≠ f.param → Assoc.get f.frees x = none → ∀ j, Assoc.get (f.env.getD w.globals) x = some (.fn j) →
  ∀ g, w.heap[j]? = some g → g.traced = false

end Verif.Lambda.Spec
