/-
What slices of cells by statements should show.
-/
import Verif.Parts.Model

namespace Verif.Parts
open Verif Verif.Slice

variable {ι σ κι κ : Type}

/-- Executions are numbered, and statements are found under their timestamps (cell.py 490-516,
statement.py 170-179). -/
structure Tidy (b : Book ι σ κι κ) : Prop where
  cell : ∀ t k, b.cw.at' t = some k ↔ (b.cw.ts k).cellNum = t.cellNum
  stmt : ∀ t s, b.sw.at' t = some s ↔ b.sw.ts s = t
  home : ∀ s, ∃ k, (b.cw.ts k).cellNum = (b.sw.ts s).cellNum

/-- The execution `k` got as far as its first `n` statements (tracing/ipyflow_tracer.py 1665-1672
records a statement when it is reached). -/
def Reached (b : Book ι σ κι κ) (k : κ) (n : Nat) : Prop :=
  ∀ i : Int, (∃ s, b.sw.ts s = ⟨(b.cw.ts k).cellNum, i⟩) ↔ 0 ≤ i ∧ i < n

/-- A statement that the execution `k` has run and that is still in its content, by number
(cell.py 926-927). -/
def Own (b : Book ι σ κι κ) (k : κ) (s : σ) : Prop :=
  (b.sw.ts s).cellNum = (b.cw.ts k).cellNum ∧ 0 ≤ (b.sw.ts s).stmtNum ∧
    (b.sw.ts s).stmtNum < b.now k

/-- The statement at `t` can be seen in what is shown: it is one of the statements, or part of one
of the cells (mixin.py 454-466). -/
def Displays (b : Book ι σ κι κ) : Out σ κ → Timestamp → Prop
  | .stmts l, t => ∃ s ∈ l, b.sw.ts s = t
  | .cells l, t => ∃ k ∈ l, (b.cw.ts k).cellNum = t.cellNum ∧ 0 ≤ t.stmtNum ∧ t.stmtNum < b.now k

/-- The statement at `t` is one of the execution `k` or one that such a statement depends on
(what cell.py 929-939 is for). -/
def Wanted (b : Book ι σ κι κ) (ctxs : List Ctx) (k : κ) (t : Timestamp) : Prop :=
  ∃ s s', (b.sw.ts s).cellNum = (b.cw.ts k).cellNum ∧ DependsOnStar b.sw ctxs s s' ∧ b.sw.ts s' = t

/-- What links statements links their cells too (mixin.py 300-319 is called for both). -/
def Linked (b : Book ι σ κι κ) (ctxs : List Ctx) : Prop :=
  ∀ s s' k k', DependsOn b.sw ctxs s s' → (b.cw.ts k).cellNum = (b.sw.ts s).cellNum →
    (b.cw.ts k').cellNum = (b.sw.ts s').cellNum → k = k' ∨ DependsOn b.cw ctxs k k'

end Verif.Parts
