import Verif.Store.Push

/-!
# Marks on the cells of notebooks

Models how the JupyterLab client marks cells as waiting, ready, or part of the slice of the selection: `onExecution`, `refreshNodeMapping`,
`onActiveCellChange`, `updateOneCellUI`, `updateUI`, `onSelectionChanged` and the handler of schedules in
`frontend/labextension/src/index.ts` 485-501, 545-578, 595-769, 787-793, 805-1002, with `clearCellState` of `dom.ts` 94-102 and the end of
`executeCells` of `store.ts` 102-117.

Several notebooks may be open. Notebooks and ids of cells are numbers; ids are unique within a notebook. Closures are those of `Verif.Store`. A
handler that raises is an error of the step. Simplified: the nodes of the minimap and the listeners on collapsers are left out; a notebook's
connection is established at once and its old handlers are gone when it is connected again; which cells a schedule makes the client run is
given with the event; the reactivity that is toggled back after a run in the other mode (`index.ts` 990-992) is not modelled. -/

namespace Verif.Paint
open Verif Store

/-- The CSS classes of cells that the client sets, `classes.ts`. -/
inductive Mark where
  | classic | waiting | readyMaking | ready | readyInput | slice | sliceExecute
  deriving DecidableEq, Repr

/-- `Highlights`, `store.ts` 8. -/
inductive Highlights where
  | all | none | executed | reactive
  deriving DecidableEq, Repr

/-- The part of `IpyflowSessionState` (`store.ts` 21-59) that marks depend on. `reactive` and `classic` are the settings `exec_mode` and
`color_scheme`, `makers` the keys of `readyMakerLinks`, `byId` the entries of `cellsById` and `orderIdxById`, `ran` is
`executedReactiveReadyCells`. A cell is its id and whether it is a code cell. -/
structure State where
  data : Data
  opts : Opts
  reactive : Bool
  classic : Bool
  highlights : Highlights
  makers : Nat → Bool
  selected : List Nat
  active : Option (Nat × Bool)
  byId : List (Nat × Bool)
  reacting : Bool
  ran : Nat → Bool

/-- A fresh `IpyflowSessionState`, `store.ts` 21-59. -/
def State.init : State :=
  ⟨⟨fun _ => none, fun _ => none, fun _ => false, fun _ => false, fun _ => false, fun _ => false, fun _ => [], fun _ => [], fun _ => []⟩,
    ⟨false, false⟩, false, false, .all, fun _ => false, [], none, [], false, fun _ => false⟩

/-- The open notebooks: their states, their cells (`notebook.widgets`), the classes of the nodes of their cells, the notebooks whose handlers are
connected to `notebooks.selectionChanged` in the order of connection, and the notebook that is shown (`notebooks.currentWidget`). -/
structure World where
  st : Nat → State
  cells : Nat → List (Nat × Bool)
  marks : Nat → Nat → Mark → Bool
  order : List Nat
  current : Nat

/-- Assignment to an entry of a table. -/
def upd {α : Type} (f : Nat → α) (k : Nat) (v : α) : Nat → α := fun x => if x = k then v else f x

/-- `classList.add`. -/
def addMark (m : Mark) (f : Mark → Bool) : Mark → Bool := fun x => decide (x = m) || f x

/-- `classList.remove`. -/
def removeMark (m : Mark) (f : Mark → Bool) : Mark → Bool := fun x => !decide (x = m) && f x

/-- `clearCellState` for one cell, `dom.ts` 95-102. -/
def clear (f : Mark → Bool) : Mark → Bool :=
  [Mark.classic, .waiting, .readyMaking, .ready, .readyInput, .slice, .sliceExecute].foldl (fun f m => removeMark m f) f

/-- The colours of `updateOneCellUI`, `index.ts` 607-613. -/
def colours (σ : State) (f : Mark → Bool) : Mark → Bool := if σ.classic then addMark .classic f else removeMark .classic f

/-- The slices of `updateOneCellUI`, `index.ts` 614-627. -/
def slices (inSlice inExecute : Bool) (f : Mark → Bool) : Mark → Bool :=
  let f := if inExecute then addMark .sliceExecute f else removeMark .sliceExecute f
  if inSlice && !inExecute then addMark .slice f else removeMark .slice f

/-- The marks of waiting and ready cells in `updateOneCellUI`, `index.ts` 635-644. -/
def states (σ : State) (id : Nat) (f : Mark → Bool) : Mark → Bool :=
  if σ.data.waiting id then removeMark .readyInput (addMark .ready (addMark .waiting f))
  else if σ.data.ready id then addMark .ready (addMark .readyInput f)
  else f

/-- The marks of cells that make others ready in `updateOneCellUI`, `index.ts` 646-648 and 674-678. -/
def makers (σ : State) (id : Nat) (f : Mark → Bool) : Mark → Bool :=
  if σ.reactive then f
  else if σ.makers id && !σ.data.waiting id then addMark .ready (addMark .readyMaking f)
  else f

/-- `updateOneCellUI` for a code cell, `index.ts` 595-701 (others are left as they are, 604-606). -/
def updateOne (σ : State) (inSlice inExecute : Bool) (id : Nat) (f : Mark → Bool) : Mark → Bool :=
  let f := slices inSlice inExecute (colours σ f)
  if σ.highlights = .none then f else makers σ id (states σ id f)

/-- The slice in `updateUI`, `index.ts` 719-723: each cell of the closure is deleted from the set and visited again along parents. -/
def backs (parents : Nat → Option (List Nat)) (n : Nat) (closure : List Nat) : Except Err (List Nat) :=
  closure.foldlM (fun c x => push parents n (c.filter (· ≠ x)) x false) closure

/-- The depths of recursions that are allowed, see `Verif.Store`. -/
structure Fuel where
  n : Nat
  m : Nat
  k : Nat

/-- The cells whose slice is shown, `index.ts` 709-712. -/
def starts (σ : State) : Except Err (List Nat) :=
  if σ.selected = [] then
    match σ.active with
    | none => .error .crash
    | some a => .ok [a.1]
  else .ok σ.selected

/-- The nodes of the cells of a notebook after `updateUI`, `index.ts` 707 and 737-746. -/
def repaint (σ : State) (run back : List Nat) (cells : List (Nat × Bool)) (marks : Nat → Mark → Bool) : Nat → Mark → Bool :=
  fun c =>
    if (c, true) ∈ cells then updateOne σ (decide (c ∈ back)) (decide (c ∈ run)) c (clear (marks c))
    else if (c, false) ∈ cells then clear (marks c)
    else marks c

/-- `updateUI` of the connection of notebook `k`, called for the notebook `nb`, `index.ts` 703-747. The state is that of the connection, the cells
are those of the notebook that is passed (`refreshNodeMapping`, 545-553). The active cell is looked at for each code cell (628). -/
def updateUI (fl : Fuel) (k nb : Nat) (w : World) : Except Err World :=
  if w.current ≠ nb then .ok w
  else do
    let σ := { w.st k with byId := w.cells nb }
    let start ← starts σ
    let run ← raw σ.data σ.opts fl.n fl.m fl.k start true false
    let back ← backs σ.data.parents fl.n run
    if σ.active = none ∧ ∃ p ∈ w.cells nb, p.2 = true then .error .crash
    else .ok { w with st := upd w.st k σ, marks := upd w.marks nb (repaint σ run back (w.cells nb) (w.marks nb)) }

/-- What a schedule says, `index.ts` 805-873; `data.dirty` is not part of it. -/
structure Payload where
  data : Data
  opts : Opts
  reactive : Bool
  classic : Bool
  highlights : Highlights
  makers : Nat → Bool
  reacting : Bool
  last : Nat

/-- What the client does next, `index.ts` 874-980: run cells that had been deferred, run cells reactively, in `incremental` mode one of them, or
nothing more. -/
inductive Plan where
  | deferred
  | batch (ids : List Nat)
  | one (id : Nat)
  | done

/-- What happens: a schedule for a notebook; a cell was executed; all cells that were run together are done; another cell becomes active; the selection in the shown notebook changes; the
cells of a notebook change; another notebook is shown; a notebook is connected. -/
inductive Event where
  | schedule (k : Nat) (p : Payload) (plan : Plan)
  | executed (k c : Nat)
  | finished (k : Nat) (ids : List Nat)
  | activate (k : Nat) (a : Option (Nat × Bool))
  | select (ids : List Nat)
  | cells (k : Nat) (l : List (Nat × Bool))
  | switch (k : Nat)
  | connect (k : Nat) (a : Option (Nat × Bool))

/-- The assignments when a schedule arrives, `index.ts` 806-873. -/
def receive (p : Payload) (σ : State) : State :=
  { σ with
    data := { p.data with dirty := σ.data.dirty }, opts := p.opts, reactive := p.reactive, classic := p.classic, highlights := p.highlights,
    makers := p.makers, reacting := σ.reacting || p.reacting || p.reactive, ran := upd σ.ran p.last true }

/-- What is assigned when no more cells are run, `index.ts` 981-985 and 996-1000. -/
def finish (σ : State) : State :=
  let σ := if σ.reacting && decide (σ.highlights = .reactive) then { σ with data := { σ.data with ready := σ.ran } } else σ
  { σ with reacting := false, ran := fun _ => false }

/-- The handler of schedules, `index.ts` 805-1002. -/
def onSchedule (fl : Fuel) (k : Nat) (p : Payload) (plan : Plan) (w : World) : Except Err World :=
  let σ := receive p (w.st k)
  match plan with
  | .deferred => .ok { w with st := upd w.st k σ }
  | .batch ids => .ok { w with st := upd w.st k { σ with reacting := true, ran := fun c => σ.ran c || ids.contains c } }
  | .one id =>
    .ok { w with st := upd w.st k { σ with reacting := true, data := { σ.data with executed := upd σ.data.executed id true } } }
  | .done => updateUI fl k k { w with st := upd w.st k (finish σ) }

/-- `onExecution`, `index.ts` 485-501. -/
def onExecution (k c : Nat) (w : World) : World :=
  let σ := w.st k
  { w with
    st := upd w.st k { σ with data := { σ.data with executed := upd σ.data.executed c true, dirty := upd σ.data.dirty c false } }
    marks := upd w.marks k (upd (w.marks k) c (removeMark .readyInput (removeMark .ready (w.marks k c)))) }

/-- The end of `executeCells`, `store.ts` 102-117; `ids` are the cells that were not skipped after an error. -/
def onFinished (k : Nat) (ids : List Nat) (w : World) : World :=
  let σ := w.st k
  { w with st := upd w.st k { σ with reacting := false, data := { σ.data with executed := fun c => σ.data.executed c || ids.contains c } } }

/-- `onActiveCellChange`, `index.ts` 555-578: without a cell, `cell.model` raises (563); a text cell becomes active and nothing else happens. -/
def onActive (fl : Fuel) (k : Nat) (a : Option (Nat × Bool)) (w : World) : Except Err World :=
  match a with
  | none => .error .crash
  | some a =>
    let w := { w with st := upd w.st k { w.st k with active := some a } }
    if a.2 then updateUI fl k k w else .ok w

/-- `onSelectionChanged` of the connection of notebook `k`, `index.ts` 749-768: the selection is stored in the state of the shown notebook, and
`updateUI` of the connection of `k` is called for the shown notebook. -/
def onSelection (fl : Fuel) (ids : List Nat) (w : World) (k : Nat) : Except Err World :=
  updateUI fl k w.current { w with st := upd w.st w.current { w.st w.current with selected := ids } }

/-- Connecting a notebook, `index.ts` 409-419, 769 and 787-793. -/
def onConnect (fl : Fuel) (k : Nat) (a : Option (Nat × Bool)) (w : World) : Except Err World :=
  onActive fl k a { w with
    st := upd w.st k { State.init with active := a, byId := w.cells k }, order := w.order.filter (· ≠ k) ++ [k] }

/-- One event. All handlers connected to `notebooks.selectionChanged` are called, in the order of connection, if the shown notebook is connected
(758-762). Nodes of new cells have no marks. -/
def step (fl : Fuel) (w : World) : Event → Except Err World
  | .schedule k p plan => onSchedule fl k p plan w
  | .executed k c => .ok (onExecution k c w)
  | .finished k ids => .ok (onFinished k ids w)
  | .activate k a => onActive fl k a w
  | .select ids => if w.current ∈ w.order then w.order.foldlM (onSelection fl ids) w else .ok w
  | .cells k l =>
    .ok { w with
      cells := upd w.cells k l
      marks := upd w.marks k fun c => if ∃ p ∈ w.cells k, p.1 = c then w.marks k c else fun _ => false }
  | .switch k => .ok { w with current := k }
  | .connect k a => onConnect fl k a w

/-- A run. -/
def run (fl : Fuel) (w : World) (es : List Event) : Except Err World := es.foldlM (step fl) w

/-- No notebook is connected. -/
def World.init (cells : Nat → List (Nat × Bool)) : World := ⟨fun _ => State.init, cells, fun _ _ _ => false, [], 0⟩

/-- The tables that closures of a session are turned into cells with, `refreshNodeMapping`, `index.ts` 545-553. -/
def State.table (σ : State) : Cells :=
  ⟨σ.byId.map Prod.fst, fun c => decide ((c, true) ∈ σ.byId), fun c => (σ.byId.map Prod.fst).findIdx? (· == c)⟩

end Verif.Paint
