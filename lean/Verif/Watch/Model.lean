import Mathlib.Data.List.Basic

/-! Watchpoints: `watchpoints(x).add(pred)` and when the program stops in the debugger.

Simplified: what an execution of a statement updates is a list of variables and values (aliases and parts of objects are in other areas;
an assignment of the object that the variable already has counts as no update, `data_model/symbol.py` 778-790, and is left out of the
list); predicates depend on the value only; adding a watchpoint works also where tracing is off. `ord` is the order in which `list(...)` gives the elements of a set. -/

namespace Verif.Watch

/-- A predicate, `none` if there is none; the result is `none` if the predicate raises. `tracing/watchpoint.py` 5-19. -/
abbrev Pred := Option (Int → Option Bool)

/-- `Watchpoint.__call__`, `tracing/watchpoint.py` 12-19. -/
def Pred.holds (p : Pred) (v : Int) : Option Bool :=
  match p with
  | none => some true
  | some f => f v

/-- `Watchpoints.passing`, `tracing/watchpoint.py` 54-61: the watchpoints that pass; `none` if a predicate raises. -/
def passing (v : Int) : List Pred → Option (List Pred)
  | [] => some []
  | p :: r =>
    match p.holds v with
    | none => none
    | some true => (passing v r).map (p :: ·)
    | some false => passing v r

/-- What a statement does: set variables, add a watchpoint to a variable (`api/lift.py` 119-124, `tracing/watchpoint.py` 49-52), or
something else. -/
inductive Act where
  | assign (l : List (Nat × Int))
  | watch (x : Nat) (p : Pred)
  | other

/-- An execution of statement `sid` of the cell; in loops and functions there are several of the same statement. `traced` is false in the
later iterations of a loop (`tracing/ipyflow_tracer.py` 850-865) and where else tracing is off (areas `Steps` and `Frames`). -/
structure Ev where
  sid : Nat
  act : Act
  traced : Bool := true

/-- `Symbol.obj` and `Symbol.watchpoints` (`data_model/symbol.py` 140-160), the finished statements of the cell
(`data_model/statement.py` 712-715), `this_stmt_updated_symbols` (`tracing/ipyflow_tracer.py` 310-311), `active_watchpoints`
(`flow.py` 198), the number of executions so far and those after which the program stopped, newest first. -/
structure St where
  obj : Nat → Int := fun _ => 0
  wps : Nat → List Pred := fun _ => []
  fin : List Nat := []
  pend : List Nat := []
  active : List Nat := []
  n : Nat := 0
  hits : List Nat := []

/-- A changed table. -/
def upd {α : Type} (f : Nat → α) (a : Nat) (v : α) : Nat → α := fun b => if b = a then v else f b

/-- The values of the variables that are set, `data_model/symbol.py` 720-758. -/
def setAll (obj : Nat → Int) : List (Nat × Int) → Nat → Int
  | [] => obj
  | (x, v) :: r => setAll (upd obj x v) r

/-- `handle_dependencies`, `data_model/statement.py` 700-710, as far as it matters: the variables get their values and are noted as
updated (`data_model/utils/update_protocol.py` 57). -/
def note (s : St) : Act → St
  | .assign l => { s with obj := setAll s.obj l, pend := s.pend ++ (l.map Prod.fst).filter (· ∉ s.pend) }
  | _ => s

/-- The loop over the updated symbols, `data_model/statement.py` 722-732: what becomes active, and whether it got to the end. -/
def check (s : St) : List Nat → List Nat × Bool
  | [] => ([], true)
  | x :: r =>
    match passing (s.obj x) (s.wps x) with
    | none => ([], false)
    | some l => ((if l = [] then [] else [x]) ++ (check s r).1, (check s r).2)

/-- `add`, `tracing/watchpoint.py` 49-52. -/
def addWatch (s : St) : Act → St
  | .watch x p => { s with wps := upd s.wps x (s.wps x ++ [p]) }
  | _ => s

/-- The end of `after_stmt`, `tracing/ipyflow_tracer.py` 1521-1527: stop if anything is active. -/
def stop (s : St) : St :=
  if s.active = [] then { s with n := s.n + 1 } else { s with hits := s.n :: s.hits, active := [], n := s.n + 1 }

/-- A statement is executed and `after_stmt` is called: `tracing/ipyflow_tracer.py` 1501-1531, `data_model/statement.py` 717-733. If a
predicate raises, the exception is logged (`tracing/ipyflow_tracer.py` 160-163) and neither `mark_finished`, nor
`after_stmt_reset_hook`, nor the end of `after_stmt` is reached. -/
def step (ord : List Nat → List Nat) (s : St) (e : Ev) : St :=
  if e.traced = false ∨ e.sid ∈ s.fin then { addWatch s e.act with n := s.n + 1 }
  else
    let s' := note (addWatch s e.act) e.act
    let r := check s' (ord s'.pend)
    if r.2 then stop { s' with fin := e.sid :: s'.fin, pend := [], active := s'.active ++ r.1 }
    else { s' with active := s'.active ++ r.1, n := s'.n + 1 }

/-- A cell is run: the tracer starts anew (`shell/interactiveshell.py` 273-275), `active_watchpoints` stays. -/
def runCell (ord : List Nat → List Nat) (s : St) (c : List Ev) : St :=
  c.foldl (step ord) { s with fin := [], pend := [] }

/-- Cells one after another. -/
def run (ord : List Nat → List Nat) (cells : List (List Ev)) : St := cells.foldl (runCell ord) {}

end Verif.Watch
