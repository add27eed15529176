/-!
# Runs that the user starts from the notebook

Models the commands `alt-mode-execute`, `execute-forward-slice`/`execute-backward-slice` and the replaced run commands of `frontend/labextension/src/index.ts` 77-134, 156-179,
240-325, what `state.comm.onMsg` does to their counters, 787-806, 874-882, 981-1002, `executeCells`, `toggleReactivity` and `isBatchReactive` of
`frontend/labextension/src/store.ts` 74-138, and what the kernel does for `%flow mode`, `%flow reactivity` and `%flow toggle-reactivity`
(`core/ipyflow/line_magics.py` 144-146, 399-419, 451-470, `core/ipyflow/flow.py` 530-537).

Simplifications: the kernel handles what it is sent in order, so it is taken to act at once; runs end some time later, by events of their own. Which cells are run is left
out but for the difference between the cells asked for and all that depends on them; so is whether a schedule has something to run, which is a parameter of the event (it is
the subject of `Verif.Client`). The kernel is called `ipyflow`; the client is taken to know the settings from the beginning, not only from the first schedule on. One session:
what happens when the kernel is changed is left out. -/

namespace Verif.Session

/-- `ExecutionMode`, `core/ipyflow/config.py` 16-18. -/
inductive Mode where
  | lazy
  | reactive
deriving DecidableEq

/-- The other mode, `flow.py` 531-536, `store.ts` 128-132. -/
def Mode.flip : Mode → Mode
  | .lazy => .reactive
  | .reactive => .lazy

/-- How a run that the user has started is carried out. -/
inductive Kind where
  /-- put off until the connection is there, `index.ts` 266-272 -/
  | deferred
  /-- with all that depends on it, by `executeBatchReactive`, 273-293 -/
  | batch
  /-- by the command of JupyterLab, 294-301 -/
  | single
  /-- by `CodeCell.execute`, 92-96, 107-116 -/
  | direct
  /-- alternate mode by `executeCells`, the cell only, 118, 127 -/
  | altOne
  /-- alternate mode by `executeCells`, with all that depends on it, 119-127 -/
  | altAll
  /-- `executeSlice`, 167-178 -/
  | slice
deriving DecidableEq

/-- A run that the user has started, with the mode that the kernel was in. -/
structure Run where
  kind : Kind
  mode : Mode
deriving DecidableEq

/-- The state of the client, `store.ts` 21-59, of the kernel, and what is under way. -/
structure St where
  /-- `isIpyflowCommConnected` -/
  connected : Bool := false
  /-- `settings.exec_mode`, `settings.reactivity_mode === 'batch'` as the client knows them -/
  mode : Mode
  batch : Bool
  /-- the same in the kernel -/
  kmode : Mode
  kbatch : Bool
  /-- `inProgressExecs` -/
  inProgress : Nat := 0
  /-- `numAltModeExecutes` -/
  alts : Nat := 0
  /-- `numPendingForcedReactiveCounterBumps` -/
  bumps : Nat := 0
  /-- `deferredCells`: the number of put-off runs -/
  deferred : Nat := 0
  /-- commands of JupyterLab that have not come to their end -/
  singles : Nat := 0
  /-- calls of `executeCells` whose cells have not all come to their end -/
  groups : Nat := 0
  /-- calls of `CodeCell.execute` by the command for alternate mode that have not come to their end -/
  directs : Nat := 0
  /-- the number of requests for a schedule -/
  asks : Nat := 0
  /-- a run has come to its end since the last request -/
  unseen : Bool := false
  /-- the runs the user has started -/
  log : List Run := []

/-- At the beginning, `store.ts` 21-59; `m`, `b`: the settings of the kernel. -/
def init (m : Mode) (b : Bool) : St := { mode := m, batch := b, kmode := m, kbatch := b }

/-- What can happen. -/
inductive Ev where
  /-- `establish` arrives, `index.ts` 787-801 -/
  | establish
  /-- the user comes back to the notebook from another one, `index.ts` 327-338 -/
  | tab
  /-- a run command; `code`: the active cell is a code cell; `empty`: there is nothing to run -/
  | run (code : Bool) (empty : Bool)
  /-- the command for alternate mode; `code`: as before -/
  | press (code : Bool)
  /-- the commands for slices -/
  | slice (code : Bool)
  /-- a command of JupyterLab comes to its end -/
  | singleDone
  /-- the last cell of an `executeCells` comes to its end -/
  | groupDone
  | directDone
  /-- a schedule arrives; `todo`: there is something to run -/
  | schedule (todo : Bool)
  /-- `%flow mode` -/
  | setMode (m : Mode)
  /-- `%flow reactivity` -/
  | setBatch (b : Bool)

/-- `requestComputeExecSchedule`, `store.ts` 74-80. -/
def ask (s : St) : St := { s with asks := s.asks + 1, unseen := false }

/-- `executeCells` with at least one cell, `store.ts` 90-113: it begins. -/
def group (s : St) : St := { s with groups := s.groups + 1 }

/-- The user starts a run: the log. It is what `CodeCell.execute` is called for, `index.ts` 94, 111, 115, 270, 295, `store.ts` 97. -/
def note (k : Kind) (s : St) : St := { s with log := s.log ++ [⟨k, s.kmode⟩] }

/-- `toggleReactivity`, `store.ts` 124-138, with `toggle_reactivity`, `core/ipyflow/flow.py` 530-537. -/
def toggle (s : St) : St := { s with mode := s.mode.flip, kmode := s.kmode.flip }

/-- The run commands, `index.ts` 260-301, with `executeBatchReactive`, 305-325. -/
def onRun (code empty : Bool) (s : St) : St :=
  let s := { s with inProgress := s.inProgress + 1 }
  if !s.connected then note .deferred { s with deferred := s.deferred + 1 }
  else if s.mode = .reactive ∧ s.batch = true ∧ code = true then
    let s := note .batch s
    if empty then ask s else group s
  else note .single { s with singles := s.singles + 1 }

/-- `alt-mode-execute`, `index.ts` 77-134; `cells`: `altModeExecuteCells` is set. -/
def onPress (code cells : Bool) (s : St) : St :=
  if !s.connected then note .direct { s with directs := s.directs + 1 }
  else if !s.batch ∧ cells then s
  else if !code then s
  else
    let s := { s with alts := s.alts + 1 }
    if !s.batch then
      let s := if s.alts = 1 then toggle s else s
      note .direct { s with directs := s.directs + 1 }
    else if cells then note .slice (group s)
    else if s.mode = .lazy then note .altAll (group s) else note .altOne (group s)

/-- `executeSlice`, `index.ts` 156-179. -/
def onSlice (code : Bool) (s : St) : St :=
  if !s.connected then s
  else
    let s := { s with bumps := s.bumps + 1 }
    if s.mode = .lazy then note .slice (group s) else onPress code true s

/-- A command of JupyterLab comes to its end, `index.ts` 295-300. -/
def onSingleDone (s : St) : St :=
  if s.singles = 0 then s
  else
    let s := { s with singles := s.singles - 1, unseen := true, inProgress := s.inProgress - 1 }
    if s.inProgress = 0 then ask s else s

/-- The last of some cells comes to its end, `store.ts` 104-110. -/
def onGroupDone (s : St) : St := if s.groups = 0 then s else ask { s with groups := s.groups - 1 }

/-- `CodeCell.execute` comes to its end, with nothing to be done then, `index.ts` 94, 111, 115. -/
def onDirectDone (s : St) : St := if s.directs = 0 then s else { s with directs := s.directs - 1, unseen := true }

/-- A run in alternate mode is over, `index.ts` 990-992. -/
def unalt (s : St) : St := if s.alts = 0 then s else if s.alts = 1 ∧ !s.batch then toggle { s with alts := 0 } else { s with alts := s.alts - 1 }

/-- `bumpForcedReactiveCounter`, `index.ts` 993-995, `store.ts` 140-150. -/
def unbump (s : St) : St := { s with bumps := s.bumps - 1 }

/-- There is nothing more to run, `index.ts` 981-1002. -/
def finish (s : St) : St := unbump (unalt s)

/-- A schedule arrives, `index.ts` 805-1003. -/
def onSchedule (todo : Bool) (s : St) : St :=
  if !s.connected then s
  else
    let s := { s with mode := s.kmode, batch := s.kbatch }
    if s.deferred > 0 then group { s with deferred := 0 }
    else if todo then group s
    else finish s

/-- One event: `establish`, `index.ts` 787-801; another notebook is shown, `index.ts` 327-338; `set_exec_mode`, `index.ts` 802-804 with `core/ipyflow/line_magics.py` 399-419; `%flow reactivity`,
`core/ipyflow/line_magics.py` 451-470. -/
def step (s : St) : Ev → St
  | .establish => ask { s with connected := true }
  | .tab => if s.connected then ask s else s
  | .run c e => onRun c e s
  | .press c => onPress c false s
  | .slice c => onSlice c s
  | .singleDone => onSingleDone s
  | .groupDone => onGroupDone s
  | .directDone => onDirectDone s
  | .schedule t => onSchedule t s
  | .setMode m => { s with mode := m, kmode := m, alts := 0 }
  | .setBatch b => { s with kbatch := b }

/-- What is the case after some events, `index.ts` 405-1015. -/
def after (s : St) (es : List Ev) : St := es.foldl step s

end Verif.Session
