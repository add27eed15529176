import Verif.Base.Assoc
import Mathlib.Data.List.Dedup

/-!
# Notebooks and their connections

Models how the client keeps a state for each notebook and what the run commands do with it: the commands, `frontend/labextension/src/index.ts` 238-303, connections that come and
go, `index.ts` 340-402, 405-432, 787-801, what happens to cells whose run was put off when a schedule arrives, `index.ts` 874-882, with `executeCells`, `executeClosure` and
`cellIdsToCells` of `frontend/labextension/src/store.ts` 90-122, 270-280, and the table of states, `store.ts` 350-364.

Notebooks and cells are numbers; cells are told apart by notebook and number. Each notebook has a kernel of its own, which has the number of the notebook. A run is that of one cell; what
else is run because it depends on it is left out (`Verif.Store`, `Verif.Client`), and so are the counters (`Verif.Session`). The nodes of the client are up to date
(`refreshNodeMapping`). -/

namespace Verif.Connect

/-- What kernel the session of a notebook has, `index.ts` 265, 239-242. -/
inductive Status where
  /-- none: `sessionContext.session` or its `kernel` is null -/
  | absent
  /-- there is one, but `isReady` does not hold yet -/
  | starting
  /-- `isReady` -/
  | ready
  deriving DecidableEq, Repr

/-- The state of a session, as far as it matters: `IpyflowSessionState`, `store.ts` 21-59. -/
structure Entry where
  /-- `isIpyflowCommConnected` -/
  connected : Bool := false
  /-- `exec_mode === 'reactive' && reactivity_mode === 'batch'` in `settings`, 84-87 -/
  batch : Bool := false
  deriving DecidableEq, Repr

/-- A notebook. -/
structure Nb where
  /-- `kernel.name === 'ipyflow'`, `index.ts` 266 -/
  native : Bool
  status : Status
  /-- `ipyflowState[session.session.id]`, `store.ts` 350-364 -/
  entry : Option Entry := none
  deriving DecidableEq, Repr

/-- A cell of a notebook. -/
structure Cell where
  nb : Nat
  id : Nat
  deriving DecidableEq, Repr

/-- A cell was run by the kernel of a notebook: `CodeCell.execute(cell, session)`, `store.ts` 97, or the command of JupyterLab, `index.ts` 295. -/
structure Ran where
  kernel : Nat
  cell : Cell
  deriving DecidableEq, Repr

/-- The client. -/
structure St where
  nbs : List (Nat × Nb) := []
  /-- `deferredCells`, `index.ts` 35: one list for all notebooks -/
  deferred : List Cell := []
  log : List Ran := []
  /-- the command ended with an error: the cell was not run -/
  broken : List Cell := []
  /-- the cell was taken out of the list and not run -/
  lost : List Cell := []

/-- What can happen. -/
inductive Ev where
  /-- a notebook is opened; `kernel`: whether it gets a kernel, `index.ts` 340-342 -/
  | opened (n : Nat) (native kernel : Bool)
  /-- `session.ready`, `index.ts` 374-383 -/
  | ready (n : Nat)
  /-- the kernel answers on the channel of the session, `index.ts` 787-801 -/
  | establish (n : Nat)
  /-- `%load_ext ipyflow`, `index.ts` 344-372, `core/ipyflow/__init__.py` 46-52 -/
  | load (n : Nat)
  /-- `%unload_ext ipyflow`, `index.ts` 353-354, `core/ipyflow/__init__.py` 55-69 -/
  | unload (n : Nat)
  /-- another kernel, `index.ts` 384-401 -/
  | change (n : Nat) (native : Bool)
  /-- no kernel any more, `index.ts` 385-387 -/
  | shutdown (n : Nat)
  /-- a schedule arrives, with the settings, `index.ts` 805-882 -/
  | schedule (n : Nat) (batch : Bool)
  /-- a run command, `index.ts` 260-302 -/
  | run (n id : Nat)
  deriving DecidableEq, Repr

/-- The entry of a notebook in the table changes, `store.ts` 356-364. -/
def setEntry (n : Nat) (e : Option Entry) (s : St) : St := match Assoc.get s.nbs n with
  | none => s
  | some nb => { s with nbs := Assoc.set s.nbs n { nb with entry := e } }

/-- What a run command does for one cell. -/
inductive Way where
  /-- an error -/
  | error
  /-- the cell is put off -/
  | later
  /-- it is run now -/
  | now
  deriving DecidableEq, Repr

/-- The command of `index.ts` 260-302 for a notebook: without a session or a kernel `session.kernel.name` is an error (265); without connection the cells of `ipyflow` kernels are put
off (266-272); `isBatchReactive()` (247-250, 274) is an error if there is no state; otherwise the cell is run (279, 295). -/
def way (nb : Nb) : Way :=
  if nb.status = .absent then .error
  else
    let state := if nb.status = .ready then nb.entry else none
    if nb.native ∧ (state.map (·.connected)).getD false = false then .later
    else match state with
      | none => .error
      | some _ => .now

/-- The run command, `index.ts` 260-302. -/
def onRun (n id : Nat) (s : St) : St := match Assoc.get s.nbs n with
  | none => s
  | some nb => match way nb with
    | .error => { s with broken := s.broken ++ [⟨n, id⟩] }
    | .later => { s with deferred := s.deferred ++ [⟨n, id⟩] }
    | .now => { s with log := s.log ++ [⟨n, ⟨n, id⟩⟩] }

/-- The cells that were put off are run when a schedule of notebook `n` arrives, `index.ts` 874-882: with `executeClosure` those that `cellIdsToCells` finds in this notebook, `store.ts`
115-122, 276-277, otherwise all, `store.ts` 95-97. -/
def release (n : Nat) (batch : Bool) (s : St) : St :=
  if batch then
    { s with deferred := [], log := s.log ++ (s.deferred.filter (·.nb = n)).dedup.map (⟨n, ·⟩), lost := s.lost ++ s.deferred.filter (·.nb ≠ n) }
  else { s with deferred := [], log := s.log ++ s.deferred.map (⟨n, ·⟩) }

/-- A schedule arrives, `index.ts` 805-882: nothing happens if the state is not there any more (782). -/
def onSchedule (n : Nat) (batch : Bool) (s : St) : St := match (Assoc.get s.nbs n).bind (·.entry) with
  | none => s
  | some e => release n (batch && e.connected) (setEntry n (some { e with batch := batch }) s)

/-- One event, `index.ts` 340-402, 787-801. -/
def step (s : St) : Ev → St
  | .opened n native kernel => match Assoc.get s.nbs n with
    | some _ => s
    | none => { s with nbs := Assoc.set s.nbs n { native := native, status := if kernel then .starting else .absent } }
  | .ready n => match Assoc.get s.nbs n with
    | some nb => if nb.status = .starting then { s with nbs := Assoc.set s.nbs n { nb with status := .ready, entry := some {} } } else s
    | none => s
  | .establish n => match (Assoc.get s.nbs n).bind (·.entry) with
    | none => s
    | some e => setEntry n (some { e with connected := true }) s
  | .load n => setEntry n (some {}) s
  | .unload n => setEntry n none s
  | .change n native => match Assoc.get s.nbs n with
    | none => s
    | some _ => { s with nbs := Assoc.set s.nbs n { native := native, status := .ready, entry := some {} } }
  | .shutdown n => match Assoc.get s.nbs n with
    | none => s
    | some nb => { s with nbs := Assoc.set s.nbs n { nb with status := .absent } }
  | .schedule n b => onSchedule n b s
  | .run n id => onRun n id s

/-- What is the case after some events, `index.ts` 43-403. -/
def after (es : List Ev) : St := es.foldl step {}

end Verif.Connect
