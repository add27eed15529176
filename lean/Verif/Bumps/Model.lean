/-!
# Running a slice, and the cells that names with `$` force to run

Models the commands that run a slice (`executeSlice`, `frontend/labextension/src/index.ts` 156-179, with the part of `alt-mode-execute` they use, 90-105 and 117-127), `executeCells` and
`bumpForcedReactiveCounter` (`frontend/labextension/src/store.ts` 90-113, 140-151), and of what the client does with an answer of the kernel what matters for cells that are forced to run
(`index.ts` 805-806, 827-839, 852-865, 872-873, 883-1002).

Cells are numbered by their places in the notebook. Simplified: an answer brings the mode of running, which the client keeps until the next one (806 and 853 are taken to agree); a cell
that is both forced and cascading is run once (see area Rounds); cells that wait for the connection (874-882) are left out (area Session). Requests are made when the runs they belong to
are over; only their number is kept. -/

namespace Verif.Bumps

/-- An answer of the kernel, `index.ts` 805-873. -/
structure Answer where
  /-- `exec_mode` is not `reactive` -/
  lazy : Bool
  /-- `reactivity_mode` is `batch` -/
  batch : Bool
  /-- `flow_order` is `in_order` or `exec_schedule` is `strict`, 937 -/
  inOrder : Bool
  /-- `last_execution_was_error` -/
  error : Bool
  /-- `last_executed_cell_id` -/
  last : Nat
  /-- `forced_reactive_cells` -/
  forced : List Nat
  /-- `forced_cascading_reactive_cells` -/
  cascading : List Nat
  /-- `new_ready_cells` -/
  ready : List Nat
  /-- what depends on cells, by the edges known with this answer: `computeTransitiveClosure`, `store.ts` 337-347, without the cells themselves -/
  after : List Nat → List Nat
  /-- the number of cells in the notebook -/
  cells : Nat
  /-- `model.type` is `code` -/
  code : Nat → Bool
  /-- `executionCount` of the cells -/
  count : Nat → Option Nat

/-- What the client keeps, `store.ts` 27-56; `asks`: how many runs are under way or answers outstanding; `ran`: what was run because of answers; `bumps`: how many times
`%flow bump-min-forced-reactive-counter` was sent. -/
structure Sys where
  lazy : Bool
  batch : Bool
  /-- `numPendingForcedReactiveCounterBumps` -/
  pending : Nat
  forced : List Nat
  cascading : List Nat
  ready : List Nat
  /-- `executedReactiveReadyCells` -/
  done : List Nat
  asks : Nat
  ran : List (List Nat)
  bumps : Nat

/-- After the first answer, which told the modes, `index.ts` 806. -/
def init (lazy batch : Bool) : Sys := ⟨lazy, batch, 0, [], [], [], [], 0, [], 0⟩

/-- What happens. -/
inductive Ev where
  /-- the user runs cells, `index.ts` 259-301 -/
  | run
  /-- the user runs a slice: `active`, the active cell is a code cell; `closure`, the cells of the slice and if they are code cells -/
  | slice (active : Bool) (closure : List (Nat × Bool))
  /-- the kernel answers, `index.ts` 805 -/
  | answer (a : Answer)

/-- `executeCells`, `store.ts` 90-113: a request follows if there are cells and all of them are code cells (for another kind of cell the promise is rejected). -/
def start (s : Sys) (closure : List (Nat × Bool)) : Sys :=
  if closure.isEmpty || !closure.all (fun c => c.2) then s else { s with asks := s.asks + 1 }

/-- `executeSlice`, `index.ts` 156-179; if the mode is reactive, `alt-mode-execute`, 97-105 and 117-127. -/
def slice (s : Sys) (active : Bool) (closure : List (Nat × Bool)) : Sys :=
  let s := { s with pending := s.pending + 1 }
  if s.lazy then start s closure
  else if !s.batch then s
  else if !active then s
  else start s closure

/-- The sets of cells of an answer, `index.ts` 805-839, 859-866, 873. -/
def take (s : Sys) (a : Answer) : Sys :=
  { s with
    lazy := a.lazy
    batch := a.batch
    forced := if s.pending = 0 then s.forced ++ a.forced else []
    cascading := if s.pending = 0 then s.cascading ++ a.cascading else []
    ready := if a.lazy then [] else s.ready ++ a.ready
    done := a.last :: s.done }

/-- `computeTransitiveClosure`, `store.ts` 337-347. -/
def closure (a : Answer) (l : List Nat) : List Nat := l ++ a.after l

/-- The forced cells and what depends on the cascading ones, `index.ts` 889-895, 898-911. -/
def isForced (s : Sys) (a : Answer) (c : Nat) : Bool :=
  s.forced.contains c || (closure a (s.cascading.filter fun c => !s.done.contains c)).contains c

/-- Which cells are run, in batches, `index.ts` 888-920. -/
def chosen (s : Sys) (a : Answer) : List Nat :=
  if a.lazy then (List.range a.cells).filter fun c => isForced s a c && !s.done.contains c
  else
    let from' := (s.ready ++ s.forced ++ closure a (s.cascading.filter fun c => !s.done.contains c)).filter fun c => !s.done.contains c
    (List.range a.cells).filter fun c => (closure a from').contains c && !s.done.contains c

/-- May the cell be run next, one at a time? `index.ts` 942-955. -/
def eligible (s : Sys) (a : Answer) (c : Nat) : Bool :=
  a.code c && !s.done.contains c && (s.forced.contains c || (s.ready.contains c && !a.lazy))

/-- The loop over cells that may be run, `index.ts` 956-972, if the order does not matter. -/
def earliest (a : Answer) : Option Nat → List Nat → Option Nat
  | best, [] => best
  | none, c :: cs => earliest a (some c) cs
  | some b, c :: cs =>
    match a.count c, a.count b with
    | some m, some n => if m < n then earliest a (some c) cs else earliest a (some b) cs
    | _, _ => earliest a (some b) cs

/-- `cellPendingExecution`, `index.ts` 933-973. -/
def pick (s : Sys) (a : Answer) : List Nat :=
  if a.inOrder then (((List.range a.cells).drop (a.last + 1)).filter (eligible s a)).take 1
  else (earliest a none ((List.range a.cells).filter (eligible s a))).toList

/-- All is done, `index.ts` 981-1001, with `bumpForcedReactiveCounter`, `store.ts` 140-151. -/
def finish (s : Sys) : Sys :=
  { s with
    bumps := if s.pending > 0 then s.bumps + 1 else s.bumps
    pending := s.pending - 1
    forced := []
    cascading := []
    ready := []
    done := [] }

/-- `executeCells` for cells that are run because of an answer, `index.ts` 922-929, 974-980, `store.ts` 90-113. -/
def execute (s : Sys) (l : List Nat) : Sys :=
  { s with
    done := if s.batch then s.done ++ l else s.done
    asks := s.asks + 1
    ran := s.ran ++ [l] }

/-- What is done after an answer, `index.ts` 883-980. -/
def react (s : Sys) (a : Answer) : Sys :=
  if a.error then finish s
  else
    let l := if a.batch then chosen s a else pick s a
    if l = [] then finish s else execute s l

/-- One event. There is an answer only if there was a request. -/
def step (s : Sys) : Ev → Sys
  | .run => { s with asks := s.asks + 1 }
  | .slice active closure => slice s active closure
  | .answer a => if s.asks = 0 then s else react (take { s with asks := s.asks - 1 } a) a

/-- A history, oldest event first. -/
def run (s : Sys) (h : List Ev) : Sys := h.foldl step s

end Verif.Bumps
