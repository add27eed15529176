import Verif.Implicit.Model

/-!
# What a value depends on when functions run unseen

A value depends on everything that was read to make it: also on what the functions read that the evaluation has run. The forms of expressions are described here without regard
to how the tracer goes through them.
-/

namespace Verif.Implicit

variable {S : Type}

/-- The functions that evaluating the expression runs. -/
def fns : Exp S → List (Fn S)
  | .lit _ => []
  | .name _ _ => []
  | .attr _ _ e h => fns e ++ h.toList
  | .sub _ _ e i h => fns e ++ fns i ++ h.toList
  | .bin _ a b h => fns a ++ fns b ++ h.toList
  | .call _ f args h => fns f ++ fns args ++ h.toList
  | .nil => []
  | .cons a r => fns a ++ fns r

/-- The symbols that the text of the expression is about: of names, attributes and elements. -/
inductive Named : Exp S → S → Prop where
  | name {n x} : Named (.name n x) x
  | attr {n own e h x} : x ∈ own → Named (.attr n own e h) x
  | attrOf {n own e h x} : Named e x → Named (.attr n own e h) x
  | sub {n own e i h x} : x ∈ own → Named (.sub n own e i h) x
  | subOf {n own e i h x} : Named e x → Named (.sub n own e i h) x
  | index {n own e i h x} : Named i x → Named (.sub n own e i h) x
  | left {n a b h x} : Named a x → Named (.bin n a b h) x
  | right {n a b h x} : Named b x → Named (.bin n a b h) x
  | func {n f args h x} : Named f x → Named (.call n f args h) x
  | args {n f args h x} : Named args x → Named (.call n f args h) x
  | head {a r x} : Named a x → Named (.cons a r) x
  | tail {a r x} : Named r x → Named (.cons a r) x

/-- No functions run, and there are no calls. -/
def Plain : Exp S → Prop
  | .lit _ => True
  | .name _ _ => True
  | .attr _ _ e h => Plain e ∧ h = none
  | .sub _ _ e i h => Plain e ∧ Plain i ∧ h = none
  | .bin _ a b h => Plain a ∧ Plain b ∧ h = none
  | _ => False

/-- A name or a literal, or an operation on such. -/
def Bare : Exp S → Prop
  | .lit _ => True
  | .name _ _ => True
  | .bin _ a b h => Bare a ∧ Bare b ∧ h = none
  | _ => False

/-- A chain of attributes and subscripts, each of which may run a function. -/
def Chain : Exp S → Prop
  | .lit _ => True
  | .name _ _ => True
  | .attr _ _ e h => (Plain e ∧ h = none) ∨ Chain e
  | .sub _ _ e i h => ((Plain e ∧ h = none) ∨ Chain e) ∧ Plain i
  | _ => False

/-- Where an expression stands: at the top of the statement, as an argument, within an operation that is part of an argument, or it is the list of arguments. -/
inductive Place where
  | top
  | arg
  | inner
  | args
  deriving DecidableEq

/-- Functions run only by calls, by the last attribute or subscript of a chain at the top of the statement, and by attributes and subscripts of chains that are arguments. -/
inductive Good : Place → Exp S → Prop where
  | plain {w e} : Plain e → w ≠ .args → Good w e
  | attr {n own e h} : Plain e → Good .top (.attr n own e h)
  | sub {n own e i h} : Plain e → Plain i → Good .top (.sub n own e i h)
  | chain {e} : Chain e → Good .arg e
  | binTop {n a b} : Good .top a → Good .top b → Good .top (.bin n a b none)
  | binIn {n a b w} : w = .arg ∨ w = .inner → Good .inner a → Good .inner b → Good w (.bin n a b none)
  | call {n f args h w} : Plain f → Good .args args → w ≠ .args → Good w (.call n f args h)
  | nil : Good .args .nil
  | cons {a r} : Good .arg a → Good .args r → Good .args (.cons a r)

/-- The functions of the expression are different ones and none has run before in the cell. -/
def Fresh (done : List Nat) (e : Exp S) : Prop := ((fns e).map (·.id)).Nodup ∧ ∀ f ∈ fns e, f.id ∉ done

/-- What is claimed: a value depends on what the functions read that made it. -/
def ReadsClaim : Prop :=
  ∀ (e : Exp Nat), Fresh [] e → ∀ f ∈ fns e, ∀ x ∈ f.reads, x ∈ (assign [] e).1

end Verif.Implicit
