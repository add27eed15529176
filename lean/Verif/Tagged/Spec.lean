import Verif.Tagged.Model

/-!
# What the commands in a session ask for
-/

namespace Verif.Tagged

/-- How many runs there were. -/
def count : List Ev → Nat
  | [] => 0
  | .run _ _ :: h => count h + 1
  | _ :: h => count h

/-- The cells known to the kernel (`true`: by a run), under their present ids. -/
def seen : List Ev → Nat → Option Bool
  | [], _ => none
  | .run c _ :: h, d => if d = c then some true else seen h d
  | .mention c :: h, d => if d = c ∧ seen h d = none then some false else seen h d
  | .rename a b :: h, d =>
    if seen h a = some true ∧ seen h b = none then
      if d = b then some true else if d = a then none else seen h d
    else seen h d
  | _ :: h, d => seen h d

/-- A run without an id is given one that is new. -/
def Renames (h : List Ev) (a b : Nat) : Prop := seen h a = some true ∧ seen h b = none

instance (h : List Ev) (a b : Nat) : Decidable (Renames h a b) := by unfold Renames; infer_instance

/-- The number of the latest run of a cell. -/
def latest : List Ev → Nat → Option Nat
  | [], _ => none
  | .run c _ :: h, d => if d = c then some (count h + 1) else latest h d
  | .rename a b :: h, d =>
    if Renames h a b then if d = b then latest h a else if d = a then none else latest h d
    else latest h d
  | _ :: h, d => latest h d

/-- The cell a command is about: the one whose latest run has the number, or the one run last. -/
def About (h : List Ev) (num : Option Nat) (d : Nat) : Prop := latest h d = some (num.getD (count h))

/-- The latest run of the cell has asked for the slice of the tag with `$`. -/
def Shows : List Ev → Nat → Nat → Prop
  | [], _, _ => False
  | .run c _ :: h, d, t => d ≠ c ∧ Shows h d t
  | .slice num u dollar :: h, d, t =>
    (num = none ∧ dollar = true ∧ u = t ∧ About h none d) ∨ Shows h d t
  | .rename a b :: h, d, t =>
    if Renames h a b then (d = b ∧ Shows h a t) ∨ (d ≠ b ∧ d ≠ a ∧ Shows h d t) else Shows h d t
  | _ :: h, d, t => Shows h d t

/-- The tag is one the notebook had for the cell at its latest run, and was not removed since. -/
def InBook : List Ev → Nat → Nat → Prop
  | [], _, _ => False
  | .run c ts :: h, d, t => if d = c then t ∈ ts else InBook h d t
  | .untag num u :: h, d, t => InBook h d t ∧ ¬ (u = t ∧ About h num d)
  | .rename a b :: h, d, t =>
    if Renames h a b then (d = b ∧ InBook h a t) ∨ (d ≠ b ∧ d ≠ a ∧ InBook h d t) else InBook h d t
  | _ :: h, d, t => InBook h d t

/-- The tag was put on the cell with `%flow tag`, and was not removed since. -/
def PutOn : List Ev → Nat → Nat → Prop
  | [], _, _ => False
  | .tag num u :: h, d, t => (u = t ∧ About h num d) ∨ PutOn h d t
  | .untag num u :: h, d, t => PutOn h d t ∧ ¬ (u = t ∧ About h num d)
  | .rename a b :: h, d, t =>
    if Renames h a b then (d = b ∧ PutOn h a t) ∨ (d ≠ b ∧ d ≠ a ∧ PutOn h d t) else PutOn h d t
  | _ :: h, d, t => PutOn h d t

/-- The cell carries the tag. -/
def Carries (h : List Ev) (d t : Nat) : Prop := InBook h d t ∨ PutOn h d t

/-- The notebook had the tag for the cell at some run, and it was not removed with a command
since. -/
def Had : List Ev → Nat → Nat → Prop
  | [], _, _ => False
  | .run c ts :: h, d, t => (d = c ∧ t ∈ ts) ∨ Had h d t
  | .untag num u :: h, d, t => Had h d t ∧ ¬ (u = t ∧ About h num d)
  | .rename a b :: h, d, t =>
    if Renames h a b then (d = b ∧ Had h a t) ∨ (d ≠ b ∧ d ≠ a ∧ Had h d t) else Had h d t
  | _ :: h, d, t => Had h d t

/-- The id of the run made last, as it was then. -/
def lastRun : List Ev → Option Nat
  | [] => none
  | .run c _ :: _ => some c
  | _ :: h => lastRun h

/-- The full claim: a request that names a cell that was run (or, without one, about the cell that
was run last) lists exactly the cells that show the slice of a tag it carries. -/
def Claim : Prop :=
  ∀ (h : List Ev) (c d : Nat), seen h c = some true → ∀ l, ask (state h) (some c) = .said l →
    (d ∈ l ↔ ∃ t, Carries h c t ∧ Shows h d t)

/-- The tags that were taken away from the cell in the notebook were also removed with commands. -/
def Faithful (h : List Ev) (c : Nat) : Prop := ∀ t, Had h c t → Carries h c t

end Verif.Tagged
