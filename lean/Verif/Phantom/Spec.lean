import Verif.Phantom.Model

/-!
# Which runs a cell uses -/

namespace Verif.Phantom.Spec
open Verif.Phantom

/-- There was a run with this number. -/
def Real (runs : List Nat) (n : Int) : Prop := 0 < n ∧ n ≤ runs.length

/-- The number is the one of a run of the cell `id`. -/
def RunOf (runs : List Nat) (id : Nat) (n : Int) : Prop := ∃ k : Nat, n = k + 1 ∧ runs[k]? = some id

/-- The cell uses what two different runs of the cell `id` have set. -/
def UsesTwo (runs : List Nat) (c : Asked) (id : Nat) : Prop :=
  ∃ m n, m ≠ n ∧ m ∈ c.used ∧ n ∈ c.used ∧ RunOf runs id m ∧ RunOf runs id n

end Verif.Phantom.Spec
