import Verif.Failing.Model

/-!
# What is said about runs that fail

Histories are newest first. -/

namespace Verif.Failing.Spec

/-- The cell raised, or could not be compiled. -/
def Failed (r : Run) : Prop := r.result ≠ .done

/-- Nothing of ipyflow itself raised. -/
def Smooth (r : Run) : Prop := r.first = false ∧ r.rewriter = false ∧ r.setup = false ∧ r.rest = false

/-- The last cell that was run raised or could not be compiled: what a user means by an error. -/
def LastFailed : List Event → Prop
  | [] => False
  | .run r :: _ => Failed r
  | _ :: h => LastFailed h

/-- In the last run that came as far, ipyflow itself raised once the cell was to be run; no debounced schedule was
made since. -/
def LastBroke : List Event → Prop
  | [] => False
  | .run r :: h => (r.first = true ∧ LastBroke h) ∨ (r.first = false ∧ (r.setup = true ∨ r.rest = true))
  | .late :: _ => False
  | _ :: h => LastBroke h

/-- How often ipyflow itself raised in a run. -/
def times (r : Run) : Nat :=
  match r with
  | ⟨true, _, _, _, _⟩ => 0
  | ⟨false, _, true, _, _⟩ => 1
  | ⟨false, w, false, _, e⟩ => w.toNat + e.toNat

/-- How often since the counter was read. -/
def broken : List Event → Nat
  | [] => 0
  | .reset :: _ => 0
  | .run r :: h => times r + broken h
  | _ :: h => broken h

/-- A cell is left to be run reactively: the kernel says that it has become ready, in the reactive mode, and it was
not run before in the same reactive run. -/
def Left (p : Client.Payload) (s : Client.St) (x : Nat) : Prop :=
  p.reactive = true ∧ x ∈ p.widgets ∧ p.cells.code x = true ∧ x ∈ p.newReady ∧ p.last ≠ some x ∧ x ∉ s.executed

/-- The client does nothing more. -/
def Stopped : Except Err (Client.St × Client.Act) → Prop
  | .ok (_, .done) => True
  | _ => False

/-- The client runs a cell. -/
def GoesOn : Except Err (Client.St × Client.Act) → Prop
  | .ok (_, .run (_ :: _)) => True
  | _ => False

end Verif.Failing.Spec
