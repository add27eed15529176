import Verif.Told.Model

/-!
# What is expected of variables that the client tells about

All of this is said in terms of the history, the latest event first, except for `parents`, the variables
that `deps(x)` shows.
-/

namespace Verif.Told

open Verif Verif.Assoc

/-- The number of runs. -/
def clock : List Ev → Nat
  | [] => 0
  | .run _ _ _ :: h => clock h + 1
  | _ :: h => clock h

/-- The object that a list of assignments leaves in a variable. -/
def setBy : List (Nat × Nat × List Nat) → Nat → Option Nat
  | [], _ => none
  | (y, o, _) :: l, x =>
    match setBy l x with
    | some o' => some o'
    | none => if x = y then some o else none

/-- The object that the variable is known to hold: the one assigned or told of last. -/
def holds : List Ev → Nat → Option Nat
  | [], _ => none
  | .run _ _ sets :: h, x =>
    match setBy sets x with
    | some o => some o
    | none => holds h x
  | .tell y (some o) _ :: h, x => if x = y then some o else holds h x
  | _ :: h, x => holds h x

/-- The client tells of an object that is new for the variable. -/
def News (h : List Ev) (x : Nat) (obj : Option Nat) : Prop := ∃ o, obj = some o ∧ holds h x ≠ some o

/-- The number of runs when the variable was last assigned by a run, told of with a new object, or
refreshed. -/
def touched : List Ev → Nat → Option Nat
  | [], _ => none
  | .run _ _ sets :: h, x => if (setBy sets x).isSome then some (clock h + 1) else touched h x
  | .tell _ none _ :: h, x => touched h x
  | .tell y (some o) _ :: h, x =>
    if x = y ∧ holds h x ≠ some o then some (clock h) else touched h x
  | .refresh xs :: h, x => if x ∈ xs ∧ (holds h x).isSome then some (clock h) else touched h x
  | .rename _ _ :: h, x => touched h x

/-- The number of the latest run of a cell, and the variables its text reads. -/
def latest : List Ev → Nat → Option (Nat × List Nat)
  | [], _ => none
  | .run id reads _ :: h, c => if c = id then some (clock h + 1, reads) else latest h c
  | .rename old new :: h, c =>
    if (latest h new).isSome then latest h c
    else if c = new then latest h old
    else if c = old then none
    else latest h c
  | _ :: h, c => latest h c

/-- The id, by now, of the cell that made the run with this number. -/
def idAt : List Ev → Nat → Option Nat
  | [], _ => none
  | .run id _ _ :: h, n => if n = clock h + 1 then some id else idAt h n
  | .rename old new :: h, n =>
    if (latest h new).isSome then idAt h n
    else match idAt h n with
      | none => none
      | some c => if c = old then some new else some c
  | _ :: h, n => idAt h n

/-- `z` is computed from `x`, directly or through variables none of which is `x` or in `out`. -/
inductive From (p : Nat → List Nat) (x : Nat) (out : List Nat) : Nat → Prop where
  | direct (z : Nat) : x ∈ p z → z ≠ x → z ∉ out → From p x out z
  | through (y z : Nat) : From p x out y → y ∈ p z → z ≠ x → z ∉ out → From p x out z

/-- The cell reads `x`. -/
def Reads (h : List Ev) (c x : Nat) : Prop := ∃ n reads, latest h c = some (n, reads) ∧ x ∈ reads

/-- No cell was run after this one. -/
def RanLast (h : List Ev) (c : Nat) : Prop := ∃ reads, latest h c = some (clock h, reads)

/-- The first full claim: after the client has told of a new object, the cells that read the variable
are offered to be run again, or wait for another variable. -/
def ReadersClaim : Prop :=
  ∀ (h : List Ev) (x : Nat) (obj : Option Nat) (deps : List Nat) (s : St) (c : Nat),
    state (.tell x obj deps :: h) = .ok s → News h x obj → Reads h c x →
      offered s c = true ∨ waits s c = true

/-- The second full claim: the variables computed from it are out of date. -/
def UsersClaim : Prop :=
  ∀ (h : List Ev) (x : Nat) (obj : Option Nat) (deps : List Nat) (s : St) (z : Nat),
    state (.tell x obj deps :: h) = .ok s → News h x obj → From (parents s.syms) x deps z →
      outdated s z = true

/-- The same for `refresh_symbols`. -/
def RefreshClaim : Prop :=
  ∀ (h : List Ev) (xs : List Nat) (x : Nat) (s : St) (z : Nat),
    state (.refresh xs :: h) = .ok s → x ∈ xs → (holds h x).isSome → From (parents s.syms) x xs z →
      outdated s z = true

end Verif.Told
