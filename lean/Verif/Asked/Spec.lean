import Verif.Asked.Model

/-!
# What commands answer about: what is expected -/

namespace Verif.Asked

/-- A variable, followed by attributes and constants in brackets. -/
inductive Path : Expr → Prop where
  | name (n : Name) : Path (.name n)
  | attr {e : Expr} (n : Name) : Path e → Path (.attr e n)
  | sub {e : Expr} (k : Key) : Path e → Path (.sub e (.const k))

/-- The symbol of an expression: what is known of exactly this variable, attribute or element. -/
def means (w : World) : Expr → Option Nat
  | .name n => w.root n
  | .attr e n => (means w e).bind fun s => (w.nsOf s).bind fun ns => ns.attrs n
  | .sub e (.const k) => (means w e).bind fun s => (w.nsOf s).bind fun ns => ns.subs k
  | _ => none

/-- No object has an attribute and an element of the same name. -/
def Apart (w : World) : Prop := ∀ s ns n, w.nsOf s = some ns → ns.attrs n = none ∨ ns.subs (.name n) = none

/-- No object has elements with names. -/
def Numbered (w : World) : Prop := ∀ s ns n, w.nsOf s = some ns → ns.subs (.name n) = none

/-- No name stands between brackets in the expression. -/
def NoStrings : Expr → Prop
  | .attr e _ => NoStrings e
  | .sub _ (.const (.name _)) => False
  | .sub e _ => NoStrings e
  | _ => True

/-- What is known of the longest part, from the left, of which anything is. -/
def nearest (w : World) : Expr → Option Nat
  | .name n => w.root n
  | .attr e n => (means w (.attr e n)).or (nearest w e)
  | .sub e s => (means w (.sub e s)).or (nearest w e)
  | _ => none

end Verif.Asked
