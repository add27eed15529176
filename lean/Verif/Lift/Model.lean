import Verif.Base.Dfs
import Verif.Sym.Model

/-!
# Dependencies and users of values

Models `deps`, `users`, `_traverse`, `rdeps`, `rusers` of `core/ipyflow/api/lift.py` (50-72, 82-115) on the symbol graph of
`Verif.Sym`. Which symbol an argument denotes is decided elsewhere (`_validate` only rejects failures). The set
`seen` is a list; the depth of the recursion is given as fuel (`Verif.Base.Dfs`); Python's limit on the depth is not
modelled. -/

namespace Verif.Lift
open Verif
variable {τ : Type}

/-- `deps`, `lift.py` 50-60; `anon` is `is_anonymous`. -/
def deps (s : Sym.St τ) (anon : Nat → Bool) (a : Nat) : List Nat := (Assoc.keys (s.par a)).filter fun b => !anon b

/-- `users`, `lift.py` 63-72. -/
def users (s : Sym.St τ) (anon : Nat → Bool) (a : Nat) : List Nat := (Assoc.keys (s.chi a)).filter fun b => !anon b

/-- `_traverse`, `lift.py` 82-87, for either attribute. -/
def traverse (next : Nat → List Nat) (n : Nat) (seen : List Nat) (a : Nat) : Except Err (List Nat) :=
  dfs (fun x => .ok (next x)) n seen a

/-- `rdeps`, `lift.py` 90-101. -/
def rdeps (s : Sym.St τ) (anon : Nat → Bool) (n a : Nat) : Except Err (List Nat) :=
  (traverse (fun x => Assoc.keys (s.par x)) n [] a).map fun seen => seen.filter fun v => v ≠ a && !anon v

/-- `rusers`, `lift.py` 104-115. -/
def rusers (s : Sym.St τ) (anon : Nat → Bool) (n a : Nat) : Except Err (List Nat) :=
  (traverse (fun x => Assoc.keys (s.chi x)) n [] a).map fun seen => seen.filter fun v => v ≠ a && !anon v

end Verif.Lift
