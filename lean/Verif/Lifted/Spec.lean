import Verif.Lifted.Model

/-!
# What the functions of the interface are expected to speak about

Independently of how the tracer looks for symbols: a path is a variable with attributes and constant subscripts; it stands for the symbol that is reached from that of the
variable. The objects of symbols are those that the running program has.
-/

namespace Verif.Lifted

variable {S O : Type}

/-- `Path W e s before`: the expression is a variable with attributes and constant subscripts that stands for `s`, and `before` are the symbols passed on the way. -/
inductive Path (W : World S O) : Exp S → S → List S → Prop where
  | name {x s} : W.look x = some s → Path W (.name x) s []
  | attr {e a s t b} : Path W e s b → W.member s a = some t → Path W (.attr e a) t (b ++ [s])
  | item {l e k s t b} : Path W e s b → W.member s k = some t → Path W (.item l e k) t (b ++ [s])

/-- `Denotes W key e s`: the expression denotes the variable or part `s`; `key` tells which key an object is as a subscript. -/
inductive Denotes (W : World S O) (key : O → Nat) : Exp S → S → Prop where
  | name {x s} : W.look x = some s → Denotes W key (.name x) s
  | attr {e a s t} : Denotes W key e s → W.member s a = some t → Denotes W key (.attr e a) t
  | item {l e k s t} : Denotes W key e s → W.member s k = some t → Denotes W key (.item l e k) t
  | sub {l e i s t u} : Denotes W key e s → Denotes W key i u → W.member s (key (W.obj u)) = some t → Denotes W key (.sub l e i) t

/-- The expression is a variable or an attribute. -/
def Named : Exp S → Prop
  | .name _ => True
  | .attr _ _ => True
  | _ => False

/-- The symbol has to do with the expression: it is that of a name in it, one reached from such a symbol, one read in a function that is called, or one that the tracer has
recorded for a subscript. -/
inductive Mentioned (W : World S O) : Exp S → S → Prop where
  | left {a b s} : Mentioned W a s → Mentioned W (.pair a b) s
  | right {a b s} : Mentioned W b s → Mentioned W (.pair a b) s
  | name {x s} : W.look x = some s → Mentioned W (.name x) s
  | key {e a s} : W.look a = some s → Mentioned W (.attr e a) s
  | index {l e k s} : W.look k = some s → Mentioned W (.item l e k) s
  | attr {e a s} : Mentioned W e s → Mentioned W (.attr e a) s
  | attrPart {e a s t} : Mentioned W e s → W.member s a = some t → Mentioned W (.attr e a) t
  | item {l e k s} : Mentioned W e s → Mentioned W (.item l e k) s
  | itemPart {l e k s t} : Mentioned W e s → W.member s k = some t → Mentioned W (.item l e k) t
  | itemRead {l e k s} : s ∈ l → Mentioned W (.item l e k) s
  | sub {l e i s} : Mentioned W e s → Mentioned W (.sub l e i) s
  | subIndex {l e i s} : Mentioned W i s → Mentioned W (.sub l e i) s
  | subRead {l e i s} : s ∈ l → Mentioned W (.sub l e i) s
  | func {f args s} : Mentioned W f s → Mentioned W (.call f args) s
  | arg {f args s} : Mentioned W args s → Mentioned W (.call f args) s
  | body {f args s t} : Mentioned W f s → t ∈ W.body s → Mentioned W (.call f args) t
  | binLeft {a b s} : Mentioned W a s → Mentioned W (.bin a b) s
  | binRight {a b s} : Mentioned W b s → Mentioned W (.bin a b) s
  | disp {l es s} : Mentioned W es s → Mentioned W (.disp l es) s
  | op {es s} : Mentioned W es s → Mentioned W (.op es) s

/-- What is claimed: whatever variable or part the argument denotes, provided that the tracer has the right objects and records the symbols of subscripts, that is what the
function speaks about. -/
def LiftClaim : Prop :=
  ∀ (W : World Nat Nat) (key : Nat → Nat) (traced : Bool) (a : Arg Nat Nat) (before after : List (Arg Nat Nat)) (s : Nat),
    a.main = true → Denotes W key a.exp s → W.obj s = a.val → speaks W traced (before ++ a :: after) = some s

end Verif.Lifted
