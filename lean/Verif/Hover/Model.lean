/-!
# Bars that light up under the pointer

Beside the input and the output of each cell JupyterLab shows a bar (a "collapser"). When the pointer rests on the bar of a cell, the client lights
the bars of the cells that the last schedule links with it. Models `frontend/labextension/src/dom.ts` 1-152, and in `index.ts` the part of
`updateOneCellUI` that attaches listeners (581-593, 632-700), `refreshNodeMapping` (545-553), `updateUI` (703-708, 737-746) and what a schedule
sets (825-826, 840-843, 871, 1000-1001).

One notebook. The node of a cell has an identity of its own, since a cell that is removed and added again gets a new node while listeners keep
what they captured. A cell that has not been scrolled to has a node without bars; its bars appear when it is rendered, those of input and output
together, and stay. Whether `updateUI` is reached after a schedule (it is not while cells are still to be run, nor while another notebook is
shown) is given with the event. Simplified: `updateUI` does not raise (see `Verif.Paint` for when it does), the bar is one element (the code sets
classes of its only child), and the pointer is on at most one bar. The browser fires no `mouseout` for an element that is removed. -/

namespace Verif.Hover

/-- The two bars of a cell, `getJpInputCollapser` and `getJpOutputCollapser`, `dom.ts` 8-28. -/
inductive Part where
  | input | output
  deriving DecidableEq, Repr

/-- The classes `linkedWaiting` and `linkedReadyMaker` of bars, `dom.ts` 68, 139-141. -/
inductive Colour where
  | waiting | readyMaker
  deriving DecidableEq, Repr

/-- The events that listeners are attached to, `index.ts` 581-593. -/
inductive Evt where
  | over | out
  deriving DecidableEq, Repr

/-- What a listener does to the classes, `add_or_remove` in `dom.ts` 47, 131. -/
inductive Update where
  | add | remove
  deriving DecidableEq, Repr

/-- What schedules set, `index.ts` 825-826, 840-843, 871: the waiting and the ready cells, `waiterLinks` and `readyMakerLinks`, whether the
`exec_mode` of the settings is reactive (646), and whether `lastExecutionHighlights` is other than `none` (743). -/
structure Data where
  waiting : Nat → Bool
  ready : Nat → Bool
  waiters : Nat → Option (List Nat)
  makers : Nat → Option (List Nat)
  reactive : Bool
  marked : Bool

/-- A fresh state, `store.ts` 30-33; nothing is waiting, ready or linked. -/
def Data.init : Data := ⟨fun _ => false, fun _ => false, fun _ => none, fun _ => none, false, true⟩

/-- A cell of `notebook.widgets`: the id of its model, its node, and whether it is a code cell. -/
structure Widget where
  id : Nat
  node : Nat
  code : Bool
  deriving DecidableEq, Repr

/-- What a listener captured: that of `addWaitingOutputInteraction` the element it lights (`dom.ts` 53-55), that of `addUnsafeCellInteraction` the
ids of the linked cells, `cellsById`, the function that finds a bar, and `waitingCells` (`dom.ts` 137-149). -/
inductive Action where
  | own (node : Nat) (part : Part) (update : Update) (colour : Colour)
  | linked (links : List Nat) (byId : Nat → Option Nat) (part : Part) (update : Update) (waiting : Nat → Bool)

/-- A listener of a bar, `attachCleanupListener`, `dom.ts` 30-41. -/
structure Listener where
  evt : Evt
  act : Action

/-- The classes of bars: node, bar, class. -/
abbrev Lit := Nat → Part → Colour → Bool

/-- The notebook as it is shown: what the last schedule said, its cells, which bars there are, which of them are lit, their listeners, where the
pointer is, and the next node. -/
structure World where
  data : Data
  widgets : List Widget
  made : Nat → Part → Bool
  lit : Lit
  listeners : Nat → Part → List Listener
  pointer : Option (Nat × Part)
  next : Nat

/-- The notebook before any cell is in it. -/
def World.init : World := ⟨.init, [], fun _ _ => false, fun _ _ _ => false, fun _ _ => [], none, 0⟩

/-- `classList.add` and `classList.remove`, `dom.ts` 54, 147. -/
def setLit (n : Nat) (p : Part) (u : Update) (c : Colour) (f : Lit) : Lit :=
  fun m q d => if m = n ∧ q = p ∧ d = c then decide (u = .add) else f m q d

/-- The class of a linked cell, `dom.ts` 139-142. -/
def colourOf (waiting : Nat → Bool) (l : Nat) : Colour := if waiting l then .waiting else .readyMaker

/-- The loop over linked cells, `dom.ts` 138-148. For a cell that was not there, `cellsById[linkedId].node` raises; for one whose bar is missing,
the listener returns. Either way the cells after it are not reached. -/
def lightLinks (made : Nat → Part → Bool) (byId : Nat → Option Nat) (p : Part) (u : Update) (waiting : Nat → Bool) : List Nat → Lit → Lit
  | [], f => f
  | l :: ls, f =>
    match byId l with
    | none => f
    | some n => if made n p then lightLinks made byId p u waiting ls (setLit n p u (colourOf waiting l) f) else f

/-- A listener that is called, `dom.ts` 53-55 and 137-149. -/
def act (made : Nat → Part → Bool) : Action → Lit → Lit
  | .own n p u c, f => setLit n p u c f
  | .linked ls byId p u waiting, f => lightLinks made byId p u waiting ls f

/-- An event at a bar: its listeners are called in turn, whether or not one of them raises. -/
def fire (made : Nat → Part → Bool) (e : Evt) (ls : List Listener) (f : Lit) : Lit :=
  ls.foldl (fun f l => if l.evt = e then act made l.act f else f) f

/-- `addWaitingOutputInteractions`, `dom.ts` 43-92: the listeners of the bar `p` of the node `n`; none if either bar is missing (50-52). -/
def ownListeners (made : Nat → Part → Bool) (n : Nat) (c : Colour) (p : Part) : List Listener :=
  if made n .input && made n .output then
    match p with
    | .input => [⟨.over, .own n .output .add .waiting⟩, ⟨.out, .own n .output .remove .waiting⟩]
    | .output => [⟨.over, .own n .input .add c⟩, ⟨.out, .own n .input .remove c⟩]
  else []

/-- The listeners for waiting and ready cells, `index.ts` 635-644. -/
def stateListeners (d : Data) (made : Nat → Part → Bool) (v : Widget) (p : Part) : List Listener :=
  if d.waiting v.id then ownListeners made v.node .waiting p
  else if d.ready v.id then ownListeners made v.node .readyMaker p
  else []

/-- The listeners of both bars for `waiterLinks`, `index.ts` 650-672 with `dom.ts` 134-136, 150-151 (the listener is added twice, which counts
once). -/
def waiterListeners (d : Data) (byId : Nat → Option Nat) (made : Nat → Part → Bool) (v : Widget) (p : Part) : List Listener :=
  match d.waiters v.id with
  | none => []
  | some ls =>
    if made v.node p then [⟨.over, .linked ls byId .input .add d.waiting⟩, ⟨.out, .linked ls byId .input .remove d.waiting⟩] else []

/-- The listeners of the bar of the input for `readyMakerLinks`, `index.ts` 674-699 with `dom.ts` 134-136, 150-151. -/
def makerListeners (d : Data) (byId : Nat → Option Nat) (made : Nat → Part → Bool) (v : Widget) (p : Part) : List Listener :=
  match d.makers v.id with
  | none => []
  | some ls =>
    if p = .input ∧ made v.node .input = true then
      [⟨.over, .linked ls byId .input .add d.waiting⟩, ⟨.over, .linked ls byId .output .add d.waiting⟩,
        ⟨.out, .linked ls byId .input .remove d.waiting⟩, ⟨.out, .linked ls byId .output .remove d.waiting⟩]
    else []

/-- The listeners that `updateOneCellUI` attaches to a bar of a cell, `index.ts` 604-606, 632-700. -/
def attach (d : Data) (byId : Nat → Option Nat) (made : Nat → Part → Bool) (v : Widget) (p : Part) : List Listener :=
  if v.code && d.marked then
    stateListeners d made v p ++ (if d.reactive then [] else waiterListeners d byId made v p ++ makerListeners d byId made v p)
  else []

/-- `refreshNodeMapping`, `index.ts` 545-553: the node of a cell, the last one if an id occurs twice. -/
def byId (ws : List Widget) : Nat → Option Nat := fun i => (ws.reverse.find? (fun v => v.id = i)).map (·.node)

/-- Whether `clearCellState` gets to a bar, `dom.ts` 95, 105-106, 114-115. -/
def reached (w : World) (n : Nat) (p : Part) : Bool := (w.widgets.any (fun v => v.node = n)) && w.made n p

/-- `clearCellState`, `dom.ts` 94-123: the classes are removed, and the `cleanup` event takes all listeners off. -/
def clear (w : World) : World :=
  { w with
    lit := fun n p c => if reached w n p then false else w.lit n p c
    listeners := fun n p => if reached w n p then [] else w.listeners n p }

/-- `updateUI`, `index.ts` 703-708 and 737-746. -/
def refresh (w : World) : World :=
  let w := clear w
  { w with
    listeners := fun n p =>
      w.listeners n p ++ w.widgets.flatMap (fun v => if v.node = n then attach w.data (byId w.widgets) w.made v p else []) }

/-- What can happen: a cell is added (with a new node), rendered, or removed; a schedule arrives, after which `updateUI` is reached or not; the
selection or the active cell changes (`index.ts` 578, 767); the pointer comes to a bar, or leaves the one it is on. -/
inductive Event where
  | insert (id : Nat) (code : Bool)
  | render (id : Nat)
  | delete (id : Nat)
  | schedule (d : Data) (reached : Bool)
  | select
  | over (id : Nat) (part : Part)
  | out

/-- Cells are added with ids that are not in use. -/
def insertCell (w : World) (id : Nat) (code : Bool) : World :=
  if w.widgets.any (fun v => v.id = id) then w
  else { w with widgets := w.widgets ++ [⟨id, w.next, code⟩], next := w.next + 1 }

/-- The bars of a cell appear: that of the input, and for code cells that of the output. -/
def renderCell (w : World) (id : Nat) : World :=
  { w with made := fun n p => w.made n p || w.widgets.any (fun v => v.id = id && v.node = n && (v.code || p = .input)) }

/-- A cell is removed. If the pointer was on one of its bars, it is on no bar any more, and no listener is called. -/
def deleteCell (w : World) (id : Nat) : World :=
  { w with
    widgets := w.widgets.filter (fun v => v.id ≠ id)
    pointer := match w.pointer with
      | some (n, p) => if w.widgets.any (fun v => v.id = id && v.node = n) then none else some (n, p)
      | none => none }

/-- The pointer comes to a bar of a cell (`mouseover`). Only possible if it is on no other bar and the bar is there. -/
def pointAt (w : World) (id : Nat) (p : Part) : World :=
  match w.pointer with
  | some _ => w
  | none =>
    match w.widgets.find? (fun v => v.id = id) with
    | none => w
    | some v =>
      if w.made v.node p then { w with pointer := some (v.node, p), lit := fire w.made .over (w.listeners v.node p) w.lit } else w

/-- The pointer leaves the bar that it is on (`mouseout`). -/
def leave (w : World) : World :=
  match w.pointer with
  | none => w
  | some (n, p) => { w with pointer := none, lit := fire w.made .out (w.listeners n p) w.lit }

/-- One event. What cannot happen changes nothing. -/
def step (w : World) : Event → World
  | .insert id code => insertCell w id code
  | .render id => renderCell w id
  | .delete id => deleteCell w id
  | .schedule d r => if r then refresh { w with data := d } else { w with data := d }
  | .select => refresh w
  | .over id p => pointAt w id p
  | .out => leave w

/-- A session, newest event first. -/
def run : List Event → World
  | [] => .init
  | e :: h => step (run h) e

end Verif.Hover
