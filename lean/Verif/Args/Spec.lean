import Verif.Args.Model

/-!
# What a call gives to the parameters of a function

Written from the rules of the Python language for calls ("Calls" in the language reference),
without the functions of the model.
-/

namespace Verif.Args

variable {S O : Type}

/-- The expressions from which the positional values of a call come, one for each value:
`*e` gives as many values as it has elements. -/
def values : List (Arg S) → List (Expr S)
  | [] => []
  | .plain e :: es => e :: values es
  | .star e n :: es => List.replicate n e ++ values es

/-- Where the value of a parameter comes from: from an expression of the call, or from a
default, which is evaluated when the function is defined. -/
inductive Source (S : Type) where
  | given (e : Expr S)
  | default (e : Expr S)

/-- The expression of a source. -/
def Source.expr : Source S → Expr S
  | .given e => e
  | .default e => e

/-- The parameters positional values are for. -/
def slots (f : Sig S) : List String := f.posonly ++ f.args

/-- The positional values of a call: a method called on an object gets the object first. -/
def passed (recv : Option (Expr S)) (c : Call S) : List (Expr S) :=
  recv.toList ++ values c.args

/-- The call has a keyword argument of the name. -/
def HasKey (c : Call S) (x : String) : Prop :=
  (∃ e, Kw.named x e ∈ c.keywords) ∨ ∃ e ns, Kw.spread e ns ∈ c.keywords ∧ x ∈ ns

/-- `Gets f recv c p s`: in the call `c` of the function with signature `f`, on the object
given by `recv` if it is a method, parameter `p` receives a value from `s`. -/
inductive Gets (f : Sig S) (recv : Option (Expr S)) (c : Call S) : String → Source S → Prop
  | position {i : Nat} {p e} : (slots f)[i]? = some p → (passed recv c)[i]? = some e →
      Gets f recv c p (.given e)
  | keyword {p e} : p ∈ f.args ++ f.kwonly → Kw.named p e ∈ c.keywords →
      Gets f recv c p (.given e)
  | unpacked {p e ns} : p ∈ f.args ++ f.kwonly → Kw.spread e ns ∈ c.keywords → p ∈ ns →
      Gets f recv c p (.given e)
  | rest {i : Nat} {p e} : f.vararg = some p → (slots f).length ≤ i → (passed recv c)[i]? = some e →
      Gets f recv c p (.given e)
  | more {p x e} : f.kwarg = some p → x ∉ f.args ++ f.kwonly → Kw.named x e ∈ c.keywords →
      Gets f recv c p (.given e)
  | moreUnpacked {p x e ns} : f.kwarg = some p → x ∉ f.args ++ f.kwonly →
      Kw.spread e ns ∈ c.keywords → x ∈ ns → Gets f recv c p (.given e)
  | default {i : Nat} {p e} : (slots f)[(slots f).length - f.defaults.length + i]? = some p →
      f.defaults[i]? = some e →
      (passed recv c).length ≤ (slots f).length - f.defaults.length + i → ¬ HasKey c p →
      Gets f recv c p (.default e)
  | kwDefault {p e} : p ∈ f.kwonly → (p, e) ∈ f.kwDefaults → ¬ HasKey c p →
      Gets f recv c p (.default e)

/-- The symbols an expression mentions. -/
def mentions (env : String → Option S) : Expr S → List S
  | .name x => (env x).toList
  | .loaded ss => ss
  | .const => []
  | .pair a b => mentions env a ++ mentions env b

/-- The symbols the value from a source was computed from: names in the call mean what they
mean where the call is; names in defaults mean what they meant where and when the function
was defined. -/
def computedFrom (callEnv defEnv : String → Option S) : Source S → List S
  | .given e => mentions callEnv e
  | .default e => mentions defEnv e

/-- An expression which is a name, or for which the tracer notes symbols, or a constant. -/
def Simple : Expr S → Prop
  | .pair _ _ => False
  | _ => True

/-- All parameters of a function. -/
def params (f : Sig S) : List String :=
  f.posonly ++ f.args ++ f.vararg.toList ++ f.kwonly ++ f.kwarg.toList

/-- The number of ordinary parameters without default. -/
def required (f : Sig S) : Nat := f.args.length - f.defaults.length

/-- A function Python accepts: distinct parameters, and not more defaults than parameters
which can have them. -/
structure Wf (f : Sig S) : Prop where
  nodup : (params f).Nodup
  enough : f.defaults.length ≤ (slots f).length

/-- A call Python accepts gives no parameter two values. -/
structure Accepted (f : Sig S) (recv : Option (Expr S)) (c : Call S) : Prop where
  once : ∀ (i : Nat) p, (slots f)[i]? = some p → i < (passed recv c).length → ¬ HasKey c p
  keys : ∀ x e e', Kw.named x e ∈ c.keywords → Kw.named x e' ∈ c.keywords → e = e'

/-- A method called on an object has a first parameter called `self`, which has no default,
and no other function called has. -/
def SelfIsReceiver (f : Sig S) (recv : Option (Expr S)) : Prop :=
  recv.isSome ↔ (f.args.take (required f)).head? = some "self"

end Verif.Args
