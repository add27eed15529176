/-!
# When the client asks what to run next

Models `executeCells`, `frontend/labextension/src/store.ts` 90-113: several cells are run, and when all of them have finished the client asks for the next schedule. The cells that are
run when the mode is lazy and reactivity is in batches, `frontend/labextension/src/index.ts` 905-920.

Cells are numbers; `code` tells which are code cells. What `CodeCell.execute` of JupyterLab does is taken from there: it keeps one run for each cell, so that the promise of a run is
rejected if the same cell is run again before the kernel has replied; it is also rejected if the cell is no code cell or if the kernel goes away. Simplified: what is done when a promise is
resolved is done at once; the request, which `setTimeout` puts off (107), is made at once. Left out: `isReactivelyExecuting` (106) and the prompts (100). -/

namespace Verif.Rounds

/-- What has become of the promise of a run, `store.ts` 97. -/
inductive Fate where
  | waiting
  | resolved
  | rejected
  deriving DecidableEq

/-- A run of a cell by a call of `executeCells`, which are numbered, `store.ts` 95-97. -/
structure Entry where
  batch : Nat
  cell : Nat
  fate : Fate
  deriving DecidableEq

/-- All runs, oldest first; for each call the number of its cells and `numFinished` (`store.ts` 94); `executedCells` (103); for which calls a schedule was asked for (108). -/
structure Sys where
  runs : List Entry
  batches : List (Nat × Nat)
  executed : List Nat
  asked : List Nat

/-- What happens. -/
inductive Event where
  /-- `executeCells`, `store.ts` 90 -/
  | batch (cells : List Nat)
  /-- JupyterLab itself runs a cell, `index.ts` 295 -/
  | rerun (c : Nat)
  /-- the kernel replies for a run; `star`: the prompt is still `[*]`, `store.ts` 98 -/
  | reply (k : Nat) (star : Bool)
  /-- a run is given up, as when the kernel goes away -/
  | cancel (k : Nat)
  deriving DecidableEq

/-- The promise of an earlier run of a cell is rejected if it is run again; called from `store.ts` 97, `index.ts` 295. -/
def replace (c : Nat) (rs : List Entry) : List Entry :=
  rs.map fun e => if e.cell = c ∧ e.fate = .waiting then { e with fate := .rejected } else e

/-- `CodeCell.execute(cell, session)`, `store.ts` 97. -/
def beginOne (code : Nat → Bool) (b : Nat) (rs : List Entry) (c : Nat) : List Entry :=
  if code c then replace c rs ++ [⟨b, c, .waiting⟩] else rs ++ [⟨b, c, .rejected⟩]

/-- `executeCells`, `store.ts` 90-113. -/
def executeCells (code : Nat → Bool) (σ : Sys) (cs : List Nat) : Sys :=
  if cs = [] then σ
  else { σ with runs := cs.foldl (beginOne code σ.batches.length) σ.runs, batches := σ.batches ++ [(cs.length, 0)] }

/-- What is done when the promise is resolved, `store.ts` 97-111. -/
def onDone (σ : Sys) (k : Nat) (star : Bool) : Sys := match σ.runs[k]? with
  | none => σ
  | some e =>
    if e.fate ≠ .waiting then σ
    else
      let (n, f) := (σ.batches[e.batch]?).getD (0, 0)
      { runs := σ.runs.set k { e with fate := .resolved }
        batches := σ.batches.set e.batch (n, f + 1)
        executed := if star then σ.executed else e.cell :: σ.executed
        asked := if f + 1 = n then σ.asked ++ [e.batch] else σ.asked }

/-- The promise is rejected: the function given to `then` is not called, `store.ts` 97. -/
def onCancel (σ : Sys) (k : Nat) : Sys := match σ.runs[k]? with
  | none => σ
  | some e => if e.fate ≠ .waiting then σ else { σ with runs := σ.runs.set k { e with fate := .rejected } }

/-- One event, `store.ts` 90-113. -/
def step (code : Nat → Bool) (σ : Sys) : Event → Sys
  | .batch cs => executeCells code σ cs
  | .rerun c => { σ with runs := replace c σ.runs }
  | .reply k s => onDone σ k s
  | .cancel k => onCancel σ k

/-- What has become of all runs, newest event first, `store.ts` 90-113. -/
def run (code : Nat → Bool) : List Event → Sys
  | [] => ⟨[], [], [], []⟩
  | e :: h => step code (run code h) e

/-- The cells that are run when the mode is lazy and reactivity is in batches, `index.ts` 905-920: those that are forced and those that are drawn along, without those that were run and those
that are not in the notebook. The order (918) is left out. -/
def lazyBatch (forced cascading done present : List Nat) : List Nat := (forced ++ cascading).filter fun c => !done.contains c && present.contains c

end Verif.Rounds
