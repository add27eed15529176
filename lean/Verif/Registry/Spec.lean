import Verif.Registry.Model

/-! # Specification vocabulary for the registry -/

namespace Verif.Registry
variable {ι τ : Type} [DecidableEq ι] [DecidableEq τ]

/-- A run that takes its counter from the host finds a host counter larger than all counters handed out before. -/
def HostOk (s : Reg ι τ) (o : Op ι τ) : Prop :=
  match o with
  | .exec _ _ true host _ => host > s.counter
  | _ => True

/-- The host condition along a whole history: the host counts executions and is not reset. -/
def HostAhead (s : Reg ι τ) : List (Op ι τ) → Prop
  | [] => True
  | o :: ops => HostOk s o ∧ HostAhead (next s o) ops

/-- `r` is an execution of `id` with counter `n`. -/
def IsExec (s : Reg ι τ) (r : Nat) (id : ι) (n : Int) : Prop :=
  ∃ o, s.heap[r]? = some o ∧ o.id = id ∧ o.ctr = n ∧ 0 ≤ n

/-- One step back in the chain of versions. -/
def PrevVersion (s : Reg ι τ) (r q : Nat) : Prop := ∃ o, s.heap[r]? = some o ∧ o.prev = some q

/-- `r` is the current version of its id and carries tag `t`. -/
def CurrentWithTag (s : Reg ι τ) (r : Nat) (t : τ) : Prop :=
  ∃ o, s.heap[r]? = some o ∧ s.current o.id = some r ∧ t ∈ o.tags

/-- Neither untagging nor renaming, and no tag put on an older version. -/
def TagOk (s : Reg ι τ) (o : Op ι τ) : Prop :=
  match o with
  | .untag _ _ => False
  | .rename _ _ => False
  | .tag (some n) _ => ∀ (r : Nat) (ob : CellObj ι τ), s.byCtr n = some r → s.heap[r]? = some ob → s.current ob.id = some r
  | _ => True

/-- Histories without untagging and renaming, in which tags are put on current versions only. -/
def TagsPlain (s : Reg ι τ) : List (Op ι τ) → Prop
  | [] => True
  | o :: ops => TagOk s o ∧ TagsPlain (next s o) ops

end Verif.Registry
