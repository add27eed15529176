import Verif.Resume.Model

/-!
# What Python does with the variables of generators

Each call has its own variables, and a generator that goes on is the same call as before.
-/

namespace Verif.Resume

/-- The variables of the calls and their values; what the reads read; the running calls, with
whether the call has gone on after a `yield`; the number of calls so far. -/
structure Real where
  vars : List ((Nat × Nat) × Nat)
  reads : List (Nat × Option (Nat × Nat))
  stack : List (Nat × Bool)
  count : Nat

/-- The value of a variable of a call. -/
def value : List ((Nat × Nat) × Nat) → Nat → Nat → Option Nat
  | [], _, _ => none
  | ((f', x'), o) :: l, f, x => if f' = f ∧ x' = x then some o else value l f x

/-- The call whose code is running; 0 stands for the cell. -/
def running (r : Real) : Nat := (r.stack.headD (0, false)).1

/-- What Python does; histories are newest first. -/
def real : List Ev → Real
  | [] => ⟨[], [], [], 0⟩
  | .call _ _ :: h =>
    { real h with
      stack := ((real h).count + 1, false) :: (real h).stack
      count := (real h).count + 1 }
  | .resume g _ _ :: h => { real h with stack := (g, true) :: (real h).stack }
  | .leave :: h => { real h with stack := (real h).stack.tail }
  | .store x o :: h => { real h with vars := ((running (real h), x), o) :: (real h).vars }
  | .load n x :: h =>
    { real h with
      reads := (n,
        if value (real h).vars (running (real h)) x ≠ none then some (running (real h), x)
        else if value (real h).vars 0 x ≠ none then some (0, x)
        else none) :: (real h).reads }
  | .cell :: h => real h

/-- The running code is a generator that has gone on after a `yield`. -/
def GoneOn (h : List Ev) : Prop := ((real h).stack.headD (0, false)).2 = true

/-- No generator that has gone on after a `yield` touches a variable. -/
def Quiet : List Ev → Prop
  | [] => True
  | .store _ _ :: h => ¬GoneOn h ∧ Quiet h
  | .load _ _ :: h => ¬GoneOn h ∧ Quiet h
  | _ :: h => Quiet h

/-- Nothing has been called by the statement so far. -/
def Unused (h : List Ev) (y : Nat) : Prop :=
  (∀ s, Ev.call y s ∉ h) ∧ ∀ g s, Ev.resume g y s ∉ h

/-- The claim: what is recorded of a variable is its value, of the notebook's own variables all
is recorded, and reads are recorded as what they read. -/
structure Right (h : List Ev) : Prop where
  globals : ∀ x, Assoc.get (run h).recs (0, x) = value (real h).vars 0 x
  values : ∀ f x o, Assoc.get (run h).recs (f, x) = some o → value (real h).vars f x = some o
  reads : ∀ u ∈ (run h).uses, u ∈ (real h).reads

end Verif.Resume
