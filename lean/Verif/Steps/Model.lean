import Verif.Base.Dfs

/-!
# From events to statements that are dealt with

Models `before_stmt`, `core/ipyflow/tracing/ipyflow_tracer.py` 1582-1606, `after_stmt`, 1501-1532, `after_loop_iter`, 850-865, `after_module_stmt`, 1553-1580,
`_handle_skipped_sub_statements`, 1534-1551, the part of `_check_prev_stmt_done_executing_hook` for these events, 357-383, and `finished_execution_hook`,
`core/ipyflow/data_model/statement.py` 717-736.

Left out: calls of functions defined in the notebook, so everything happens in one frame, where `_try_reenable_tracing` (1636-1663) always succeeds
(`is_initial_frame_stmt`); what is recorded for a statement is only which variables it binds (`Verif.Bind` says more); watchpoints; symbols of attributes and
subscripts. -/

namespace Verif.Steps

variable {S X : Type} [DecidableEq S] [DecidableEq X]

/-- What the static analysis distinguishes in the text of a statement. `with`, `try` and lists of statements are sequences. -/
inductive Syn (X : Type) where
  | assign (xs : List X)
  | seq (a b : Syn X)
  /-- `for`, `while`, `if`, with the variables that `for` assigns -/
  | branch (target : List X) (body orelse : Syn X)

/-- The variables found assigned, `core/ipyflow/analysis/live_refs.py` 146-253, 313-340: for a loop or a branch, those in both parts only. -/
def dead : Syn X → List X
  | .assign xs => xs
  | .seq a b => dead a ++ dead b
  | .branch t b e => (t ++ dead b).filter (fun x => decide (x ∈ dead e))

/-- What is known about statements. -/
structure Env (S X : Type) where
  /-- `for`, `async for`, `if`, `with`, `async with`, `ipyflow_tracer.py` 1595-1598 -/
  header : S → Bool
  /-- the variables for which a symbol is made or refreshed when the statement is dealt with -/
  binds : S → List X
  /-- the text of a statement -/
  code : S → Syn X
  /-- the variables that `compute_live_dead_symbol_refs` finds read, 1535 -/
  reads : S → List X

/-- Events. The end of a statement of the module comes with the variables that have then a value other than the one recorded. -/
inductive Ev (S X : Type) where
  | before (s : S)
  | after (s : S)
  /-- end of the first iteration of a loop -/
  | iter
  | endModule (s : S) (stale : List X)

/-- State of the tracer. -/
structure St (S X : Type) where
  /-- the statements that are finished, in the order in which they were dealt with -/
  log : List S
  /-- `prev_trace_stmt_in_cur_frame` -/
  prev : Option S
  /-- `is_tracing_enabled` -/
  enabled : Bool
  /-- `tracing_disabled_since_last_module_stmt` -/
  since : Bool
  /-- the variables that have symbols -/
  syms : List X
  /-- the variables whose symbols were made or refreshed since the cell began -/
  noted : List X

/-- `after_stmt`, 1501-1532, with `finished_execution_hook`. -/
def after (E : Env S X) (s : S) (st : St S X) : St S X :=
  let st := { st with enabled := true }
  if s ∈ st.log then st
  else { st with
    log := st.log ++ [s]
    syms := st.syms ++ E.binds s
    noted := st.noted ++ E.binds s }

/-- `before_stmt`, 1590-1600: the previous statement is dealt with if its body is being entered. -/
def enterBody (E : Env S X) (st : St S X) : St S X :=
  match st.prev with
  | some p => if E.header p then after E p st else st
  | none => st

/-- `before_stmt`, 1582-1606. -/
def before (E : Env S X) (s : S) (st : St S X) : St S X :=
  if s ∈ st.log then st
  else { enterBody E st with
    prev := some s
    enabled := true }

/-- `after_loop_iter`, 850-865, with `_tracked_disable_tracing`, 389-398. -/
def iter (st : St S X) : St S X := { st with
  enabled := false
  since := true }

/-- `_handle_skipped_sub_statements`, 1535-1539: symbols of variables found read or assigned are refreshed if the value is another one. -/
def resync (E : Env S X) (s : S) (stale : List X) (st : St S X) : St S X :=
  { st with noted := st.noted ++ (E.reads s ++ dead (E.code s)).filter (fun x => decide (x ∈ stale) && decide (x ∈ st.syms)) }

/-- `_handle_skipped_sub_statements`, 1540-1551: variables found assigned get a symbol if they have a value and no symbol. -/
def introduce (E : Env S X) (s : S) (stale : List X) (st : St S X) : St S X :=
  let new := (dead (E.code s)).filter (fun x => decide (x ∈ stale) && decide (x ∉ st.syms))
  { st with
    syms := st.syms ++ new
    noted := st.noted ++ new }

/-- `_handle_skipped_sub_statements`, 1534-1551. -/
def skipped (E : Env S X) (s : S) (stale : List X) (st : St S X) : St S X := introduce E s stale (resync E s stale st)

/-- `after_module_stmt`, 1553-1580. -/
def endModule (E : Env S X) (s : S) (stale : List X) (st : St S X) : St S X :=
  { (if st.since then skipped E s stale st else st) with since := false }

/-- One event. -/
def step (E : Env S X) (st : St S X) : Ev S X → St S X
  | .before s => before E s st
  | .after s => after E s st
  | .iter => iter st
  | .endModule s stale => endModule E s stale st

/-- A sequence of events. -/
def exec (E : Env S X) (evs : List (Ev S X)) (st : St S X) : St S X := evs.foldl (step E) st

end Verif.Steps
