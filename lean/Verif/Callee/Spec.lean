import Verif.Callee.Model

/-!
# What Python does with the names of a running function

A function looks its names up among its own and then in the call that made it.  Written without
use of the model's functions; only the events are shared.
-/

namespace Verif.Callee

/-- The functions made so far, with their bodies and the calls which made them; the running
calls; and of each call, where the names of its function are to be looked up and whose
parameters it has. -/
structure Real where
  made : List (Nat × (Nat × Nat))
  stack : List Nat
  count : Nat
  frames : List (Nat × Option (Nat × Nat))

/-- The first pair with the given key. -/
def find (l : List (Nat × (Nat × Nat))) (o : Nat) : Option (Nat × Nat) :=
  match l with
  | [] => none
  | (o', v) :: l => if o' = o then some v else find l o

/-- What Python does; histories are newest first. -/
def real : List Ev → Real
  | [] => ⟨[], [], 0, []⟩
  | .define _ _ raw _ body _ _ :: h =>
    { real h with made := (raw, ((real h).stack.headD 0, body)) :: (real h).made }
  | .enter o _ :: h =>
    { real h with
      frames := ((real h).count + 1, find (real h).made o) :: (real h).frames
      stack := ((real h).count + 1) :: (real h).stack
      count := (real h).count + 1 }
  | .leave _ :: h => { real h with stack := (real h).stack.tail }
  | .done true :: h => { real h with stack := [] }
  | _ :: h => real h

/-- Variables bound in a history. -/
def binders : List Ev → List Nat
  | [] => []
  | .define x _ _ _ _ _ _ :: h => x :: binders h
  | .assign x _ _ :: h => x :: binders h
  | _ :: h => binders h

/-- Functions made in a history. -/
def makes : List Ev → List Nat
  | [] => []
  | .define _ _ raw _ _ _ _ :: h => raw :: makes h
  | _ :: h => makes h

/-- The last of the things the tracer is told of calls and statements was the end of a statement
or of a call. -/
def EndedLast : List Ev → Prop
  | [] => False
  | .enter _ _ :: _ => False
  | .raised :: _ => False
  | .leave _ :: _ => True
  | .done _ :: _ => True
  | _ :: h => EndedLast h

/-- `Named h x`: the last call was written with the variable `x`, and since then no statement was
finished. -/
def Named : List Ev → Nat → Prop
  | [], _ => False
  | .before y :: _, x => y = some x
  | .done _ :: _, _ => False
  | .leave r :: h, x => r = false ∧ ¬EndedLast h ∧ Named h x
  | _ :: h, x => Named h x

/-- `Reaches h x f`: the variable `x` was given the function `f` by its `def`, or by a statement
which had it from a variable that reaches `f`. -/
inductive Reaches : List Ev → Nat → Nat → Prop where
  | defined (x f key body : Nat) (deps : List Nat) (h : List Ev) :
      Reaches (.define x f f key body true deps :: h) x f
  | decorated (x f raw key body y : Nat) (loc : Bool) (deps : List Nat) (h : List Ev)
      (hy : y ∈ deps) (hr : Reaches h y f) : Reaches (.define x f raw key body loc deps :: h) x f
  | copied (x f y : Nat) (deps : List Nat) (h : List Ev) (hy : y ∈ deps) (hr : Reaches h y f) :
      Reaches (.assign x f deps :: h) x f
  | older (e : Ev) (h : List Ev) (x f : Nat) (hr : Reaches h x f) : Reaches (e :: h) x f

/-- `Sole h key f`: the statement `key` made one function only, and its variable was given that
very function. -/
def Sole (h : List Ev) (key f : Nat) : Prop :=
  (∃ x body deps, Ev.define x f f key body true deps ∈ h) ∧
    ∀ x o raw body loc deps, Ev.define x o raw key body loc deps ∈ h → o = f

/-- Tidy histories: no variable is bound twice, none depends on itself, no function is made twice, no function is declared global in a function, the
value of a decorator is had from a variable that reaches it, and a function starts to run either
by a call written with a variable that reaches it, or, without such a call under way, as the only
function of its statement. -/
def Tidy : List Ev → Prop
  | [] => True
  | e :: h => Tidy h ∧ match e with
    | .define x o raw _ _ loc deps =>
      loc = true ∧ x ∉ binders h ∧ x ∉ deps ∧ raw ∉ makes h ∧
        (o = raw ∨ ∃ y ∈ deps, Reaches h y o)
    | .assign x _ _ => x ∉ binders h
    | .enter o key =>
      (∃ x, Named h x ∧ Reaches h x o) ∨
        ((∀ x f, Named h x → ¬Reaches h x f) ∧ Sole h key o)
    | _ => True

/-- The claim: the tracer has each call look its names up where Python does, and gives it the
parameters it has. -/
def Right (h : List Ev) : Prop := (run h).calls = (real h).frames

end Verif.Callee
