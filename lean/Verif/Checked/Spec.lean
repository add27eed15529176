import Verif.Checked.Model

/-!
# What the marks should say

What happened is described by the program alone: which variables have which types, which cells were
run, and which texts the client sent.
-/

namespace Verif.Checked

/-- The cells of a request. -/
def ids (cs : List (Nat × Nat)) : List Nat := cs.map Prod.fst

/-- The types of the variables after assignments. -/
def after (env : Nat → Option Ty) : List (Nat × Ty) → Nat → Option Ty
  | [] => env
  | (v, ty) :: ws => after (fun u => if u = v then some ty else env u) ws

/-- The types of the variables after a history, newest event first. -/
def types : List Ev → Nat → Option Ty
  | [] => fun _ => none
  | .run _ _ ws :: h => after (types h) ws
  | .change v ann :: h => fun u =>
      (types h u).map fun ty => if u = v then { ty with ann := ann } else ty
  | .del v :: h => fun u => if u = v then none else types h u
  | .ask _ :: h => types h

/-- The text does not pass the type checker, when the variables it reads are declared with their
types. -/
def fails (K : Cfg) (env : Nat → Option Ty) (text : Nat) : Prop :=
  K.mypy (fun v => if v ∈ K.reads text then (env v).map Ty.ann else none) text = false

/-- The cell was run. -/
def hasRun : List Ev → Nat → Bool
  | [] => fun _ => false
  | .run j _ _ :: h => fun id => j == id || hasRun h id
  | .change _ _ :: h => hasRun h
  | .del _ :: h => hasRun h
  | .ask _ :: h => hasRun h

/-- The cell was in a request that was answered. -/
def seen : List Ev → Nat → Bool
  | [] => fun _ => false
  | .ask cs :: h => fun id =>
      seen h id || ((ids cs).contains id && (ids cs).all fun j => hasRun h j || !seen h j)
  | .run _ _ _ :: h => seen h
  | .change _ _ :: h => seen h
  | .del _ :: h => seen h

/-- Every cell of the request was run or is new. -/
def Clean (h : List Ev) (cs : List (Nat × Nat)) : Prop :=
  ∀ id ∈ ids cs, hasRun h id = true ∨ seen h id = false

/-- The variables that were assigned since the cell was last looked at, in its run or in a request
that was answered. -/
def since (c : Nat) : List Ev → List Nat
  | [] => []
  | .run d _ ws :: h => if d = c then [] else (ws.map Prod.fst).reverse ++ since c h
  | .change _ _ :: h => since c h
  | .del _ :: h => since c h
  | .ask cs :: h =>
      if c ∈ ids cs ∧ ((ids cs).all fun j => hasRun h j || !seen h j) = true then []
      else since c h

/-- Every assignment of one of the variables `vs` leaves its declaration as it is, or gives it a
value of another class and is the first assignment of the variable since the cell was looked at. -/
def Told (vs : List Nat) (env : Nat → Option Ty) (w : List Nat) : List (Nat × Ty) → Prop
  | [] => True
  | (v, ty) :: ws =>
      (v ∈ vs →
        (∃ old, env v = some old ∧ old.ann = ty.ann) ∨
        (∃ old, env v = some old ∧ old.cls ≠ ty.cls ∧ v ∉ w)) ∧
      Told vs (fun u => if u = v then some ty else env u) (v :: w) ws

/-- Since the cell was run with the text, this run included, its text was not edited, and no variable
that it reads was created, deleted or changed in place; assignments are as in `Told`. -/
def Calm (K : Cfg) (c text : Nat) : List Ev → Prop
  | [] => False
  | .run d b ws :: h =>
      if d = c then b = text ∧ Told (K.reads text) (types h) [] ws
      else Calm K c text h ∧ Told (K.reads text) (types h) (since c h) ws
  | .change v _ :: h => Calm K c text h ∧ v ∉ K.reads text
  | .del v :: h => Calm K c text h ∧ v ∉ K.reads text
  | .ask cs :: h => Calm K c text h ∧ ∀ b, (c, b) ∈ cs → b = text

/-- Every assignment is of a variable that was assigned since the cell was looked at or does not
exist, or gives it a value of the same class. -/
def Untold (env : Nat → Option Ty) (w : List Nat) : List (Nat × Ty) → Prop
  | [] => True
  | (v, ty) :: ws =>
      (v ∈ w ∨ env v = none ∨ ∃ old, env v = some old ∧ old.cls = ty.cls) ∧
      Untold (fun u => if u = v then some ty else env u) (v :: w) ws

/-- What happened since the history `h`, newest first, other than runs of the cell and requests:
variables may be deleted and created, values may be changed in place, and assignments are as in
`Untold`. -/
def Quiet (c : Nat) (h : List Ev) : List Ev → Prop
  | [] => True
  | .run d _ ws :: es => d ≠ c ∧ Quiet c h es ∧ Untold (types (es ++ h)) (since c (es ++ h)) ws
  | .change _ _ :: es => Quiet c h es
  | .del _ :: es => Quiet c h es
  | .ask _ :: _ => False

end Verif.Checked
