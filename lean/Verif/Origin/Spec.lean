import Verif.Origin.Model

/-!
# Where a function comes from -/

namespace Verif.Origin.Spec
open Verif.Origin

/-- The run with this number, if there was one; the first has number one. -/
def ran : List Run → Nat → Option Run
  | [], _ => none
  | r :: h, n => if n = h.length + 1 then some r else ran h n

/-- The run with number `n` defines the function `f` in this line: it was not skipped, and the line of its text is the definition. -/
def Defines (code : Nat → List (Option Stmt)) (h : List Run) (n : Nat) (line f : Nat) : Prop :=
  ∃ r, ran h n = some r ∧ r.stub = none ∧ (code r.text)[line]? = some (some (.fn f))

/-- The last run of a cell with this text has number `n`. -/
def Last (h : List Run) (t n : Nat) : Prop :=
  (∃ r, ran h n = some r ∧ r.text = t) ∧ ∀ m r, ran h m = some r → r.text = t → m ≤ n

end Verif.Origin.Spec
