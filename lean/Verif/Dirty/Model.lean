/-!
# Which cells the client takes to be edited since they were run

Models `dirtyCells` of the client (`frontend/labextension/src/store.ts` 29): `syncDirtiness` and `onContentChanged`, `frontend/labextension/src/index.ts` 456-485, `onExecution`, 487-500, a
new connection, 411-416 with `initSessionState`, `store.ts` 355-359, and the command that runs what is stale, `index.ts` 65-74.

Cells are numbered by their places, texts are numbers. That a cell `isDirty` is taken from JupyterLab: it has been run, and its text is another one than when it was run. Simplified: a run takes
no time (for edits during a run see area Content); no cells are added, removed or moved; all cells are code cells. -/

namespace Verif.Dirty

/-- The notebook and what the client keeps: the texts, what was run, `dirtyCells` (`store.ts` 29), `lastCellMetadataMap` (58). -/
structure Sys where
  text : Nat → Nat
  ran : Nat → Option Nat
  dirty : Nat → Bool
  last : Option (Nat → Nat)

/-- What happens. -/
inductive Ev where
  /-- the text of a cell is changed -/
  | edit (c t : Nat)
  /-- a cell is run -/
  | run (c : Nat)
  /-- nothing was changed for half a second, `index.ts` 485 -/
  | settle
  /-- a new connection to the kernel, `index.ts` 411 -/
  | connect

/-- An empty notebook, `store.ts` 29, 58. -/
def start : Sys := ⟨fun _ => 0, fun _ => none, fun _ => false, none⟩

/-- `isDirty` of a cell, `index.ts` 458. -/
def isDirty (s : Sys) (c : Nat) : Bool :=
  match s.ran c with
  | none => false
  | some t => t != s.text c

/-- `isEqual` of what is in the cells, `index.ts` 472-473. -/
def same (n : Nat) (f : Option (Nat → Nat)) (g : Nat → Nat) : Bool :=
  match f with
  | none => false
  | some f => (List.range n).all fun c => f c == g c

/-- `onContentChanged`, `index.ts` 472-478, with `syncDirtiness`, 456-465. -/
def settle (n : Nat) (s : Sys) : Sys :=
  if same n s.last s.text then s
  else { s with
    last := some s.text
    dirty := fun c => if c < n then isDirty s c else s.dirty c }

/-- One event in a notebook of `n` cells; `onExecution`, `index.ts` 494, `initSessionState`, `store.ts` 355-359. -/
def step (n : Nat) (s : Sys) : Ev → Sys
  | .edit c t => { s with text := fun d => if d = c then t else s.text d }
  | .run c => { s with
      ran := fun d => if d = c then some (s.text c) else s.ran d
      dirty := fun d => if d = c then false else s.dirty d }
  | .settle => settle n s
  | .connect => { s with dirty := fun _ => false, last := none }

/-- The state after a history, newest event first. -/
def after (n : Nat) : List Ev → Sys
  | [] => start
  | e :: h => step n (after n h) e

/-- The command that runs what is stale, `index.ts` 65-74, for a notebook in which no cell is ready, one cell at a time (72). -/
def staleCells (n : Nat) (s : Sys) : List Nat := (List.range n).filter s.dirty

end Verif.Dirty
