import Verif.React.Model

/-!
# Marked assignments and marked reads, as the user sees them

`$x` asks for cells to be run again when `x` changes, `$$x` for the cells that depend on those as well, `$:x` for no cell to be run again. The mark may
be on what is read or on what is assigned to, and on any part of `x.y.z`. -/

namespace Verif.React.Spec

open Verif.Ref

variable {K : Type}

/-- The path of a chain. -/
def names (l : List (K × Marks)) : Path K := l.map Prod.fst

/-- Changing one changes the other: one is the other, or a part of it. -/
def Touch (p q : Path K) : Prop := p <+: q ∨ q <+: p

/-- No `$:`. -/
def Open (l : List (K × Marks)) : Prop := ∀ e ∈ l, e.2.blocking = false

/-- No `$$`. -/
def Narrow (l : List (K × Marks)) : Prop := ∀ e ∈ l, e.2.cascading = false

/-- No `$`. -/
def Plain (l : List (K × Marks)) : Prop := ∀ e ∈ l, e.2.reactive = false

/-- There is a `$` or `$$` before the last part of the path `m`, and no `$:` before this or a later part. -/
def Marked (l : List (K × Marks)) (m : Path K) : Prop :=
  ∃ pre k mk post, l = pre ++ (k, mk) :: post ∧ m = names pre ++ [k] ∧ (mk.reactive = true ∨ mk.cascading = true) ∧ Open ((k, mk) :: post)

/-- There is a `$$` before the last part of the path `m`, and no `$:` before this or a later part. -/
def MarkedWide (l : List (K × Marks)) (m : Path K) : Prop :=
  ∃ pre k mk post, l = pre ++ (k, mk) :: post ∧ m = names pre ++ [k] ∧ mk.cascading = true ∧ Open ((k, mk) :: post)

/-- How many cells have been run. -/
def count : List (Op K) → Nat
  | [] => 0
  | .run _ :: ops => count ops + 1
  | .cleanup :: ops => count ops

/-- The assignments, with the number of the execution, after `n` executions before. -/
def log (n : Nat) : List (Op K) → List (Nat × Store K)
  | [] => []
  | .run c :: ops => c.body.flatten.map (fun a => (n + 1, a)) ++ log (n + 1) ops
  | .cleanup :: ops => log n ops

/-- What a cell that reads the chain listens to: what it reads, and each part of the chain with `$` before it. -/
def Heard (r : List (K × Marks)) (n : Path K) : Prop := n = names r ∨ Marked r n

/-- Nothing that the cell listens to was assigned to after execution `ctr`. -/
def Current (ops : List (Op K)) (ctr : Nat) (r : List (K × Marks)) : Prop :=
  ∀ e ∈ log 0 ops, e.1 > ctr → ∀ n, Heard r n → ¬ Touch (names e.2.target) n

/-- Cells of one assignment each, where the next is computed from the one before; none of them ran after execution `n`. -/
def Linked (n : Nat) : Path K → List (Nat × Store K) → Prop
  | _, [] => True
  | p, (prev, a) :: l => prev ≤ n ∧ p ∈ a.deps ∧ names a.target ≠ p ∧ Open a.target ∧ Linked n (names a.target) l

/-- The last one assigned to. -/
def final : Path K → List (Nat × Store K) → Path K
  | p, [] => p
  | _, (_, a) :: l => final (names a.target) l

/-- These cells, run one after the other. -/
def runs (l : List (Nat × Store K)) : List (Op K) := l.map (fun e => .run { prev := e.1, body := [[e.2]] })

end Verif.React.Spec
