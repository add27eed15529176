import Verif.Around.Model

/-!
# Which cell stands where -/

namespace Verif.Around

/-- The notebook as the client last told of it. -/
def notebook : List Event → List Cell
  | [] => []
  | .told nb :: _ => nb
  | .run _ :: h => notebook h
  | .flow _ :: h => notebook h

/-- No two cells of a notebook have the same id. -/
def Distinct (h : List Event) : Prop := ∀ nb, Event.told nb ∈ h → (nb.map (·.id)).Nodup

/-- The code cell that stands `k` places further on in a part of a notebook, counting code cells only, from 0. -/
def nth (l : List Cell) (k : Nat) : Option Id := ((l.filter (·.code)).map (·.id))[k]?

end Verif.Around
