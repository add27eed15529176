import Verif.Base.Assoc
import Verif.Ref.Model

/-!
# Marked assignments and marked reads

Models `_handle_reactive_store` of `core/ipyflow/data_model/statement.py` 305-340, what `Symbol.update_deps`, `refresh` and `UpdateProtocol` do to
timestamps and to the sets of reactive symbols (`data_model/symbol.py` 1084-1110, 1343-1402, `data_model/utils/update_protocol.py` 91-133), the
properties of `ResolvedSymbol` (`analysis/resolved_symbols.py` 58-128), `LiveSymbolRef.gen_resolved_symbols` (`analysis/symbol_ref.py` 520-540), the
tests of `get_max_used_live_symbol_cell_counter` (`data_model/cell.py` 729-741) and of `_compute_reactive_cells_for_reactive_symbols`
(`frontend.py` 212-226), and when the sets are cleared (`flow.py` 560-562, `comm_manager.py` 361-366, `shell/interactiveshell.py` 478-480).

Simplified: no two names for one object, and an object put in the place of another takes over the symbols of its parts, so a symbol is a path: a
name and the attributes or subscripts after it. All assigned values differ from the values before. Chains without calls, all parts of
which have symbols. -/

namespace Verif.React

open Verif.Assoc Verif.Ref

/-- A symbol: `Symbol.full_path`, `data_model/symbol.py` 621-628. -/
abbrev Path (K : Type) := List K

variable {K : Type} [DecidableEq K]

/-- `Flow`, `flow.py` 193-224, and the fields of the symbols that matter, `data_model/symbol.py` 107-180. Executions are numbered from 1; 0 stands for -1. -/
structure St (K : Type) where
  /-- `cell_counter()` -/
  ctr : Nat := 0
  /-- `shallow_timestamp.cell_num` -/
  own : Path K → Nat := fun _ => 0
  /-- `namespace.max_descendent_timestamp.cell_num` -/
  below : Path K → Nat := fun _ => 0
  /-- `_cascading_reactive_cell_num` -/
  casc : List (Path K × Nat) := []
  /-- `blocked_reactive_timestamps_by_symbol` -/
  blocked : Path K → Nat := fun _ => 0
  /-- `updated_reactive_symbols` -/
  upd : Path K → Bool := fun _ => false
  /-- `updated_deep_reactive_symbols` -/
  updDeep : Path K → Bool := fun _ => false
  /-- `updated_reactive_symbols_last_cell` -/
  updLast : Path K → Bool := fun _ => false
  /-- `updated_deep_reactive_symbols_last_cell` -/
  updDeepLast : Path K → Bool := fun _ => false
  /-- `updated_symbols` -/
  done : Path K → Bool := fun _ => false
  /-- `this_stmt_updated_symbols` of the tracer, `tracing/ipyflow_tracer.py` 312-313 -/
  now : Path K → Bool := fun _ => false
  /-- `min_cascading_reactive_cell_num` -/
  minCasc : Nat := 0

/-- An assignment: the target, each part of it with its marks; the symbols that the value is computed from; `stmt_contains_cascading_reactive_rval`
(`data_model/statement.py` 400-410); `loops`: one of these symbols was computed from the target itself (`data_model/symbol.py` 1045-1047). -/
structure Store (K : Type) where
  target : List (K × Marks)
  deps : List (Path K) := []
  rval : Bool := false
  loops : Bool := false

/-- The symbol assigned to, `data_model/statement.py` 378-410. -/
def Store.path (a : Store K) : Path K := a.target.map Prod.fst

/-- `timestamp.cell_num`, `data_model/symbol.py` 315-321. -/
def stamp (s : St K) (p : Path K) : Nat := max (s.own p) (s.below p)

/-- `cascading_reactive_cell_num`, `data_model/symbol.py` 374-404, `data_model/namespace.py` 185-193: it goes to the parts of the symbol, to the
symbols that contain it, and from these to all of their parts. -/
def cascNum (s : St K) (p : Path K) : Nat :=
  (s.casc.filter (fun e => e.1.head? = p.head?)).foldl (fun m e => max m e.2) 0

/-- `is_cascading_reactive_at_counter`, `data_model/symbol.py` 502-505. -/
def cascAt (s : St K) (ctr : Nat) (p : Path K) : Bool := decide (cascNum s p > max ctr s.minCasc)

/-- `bump_cascading_reactive_cell_num`, `data_model/symbol.py` 398-402. -/
def bump (s : St K) (p : Path K) : St K := { s with casc := set s.casc p (max ((get s.casc p).getD 0) s.ctr) }

/-- `refresh`, `data_model/symbol.py` 1343-1402, with the parts, and what `UpdateProtocol` does to the symbols around,
`data_model/utils/update_protocol.py` 91-133. -/
def touch (s : St K) (t : Path K) : St K :=
  { s with
    own := fun p => if t <+: p then s.ctr else s.own p
    below := fun p => if p <+: t ∧ p ≠ t then s.ctr else s.below p
    now := fun p => if p <+: t then true else s.now p }

/-- What an assignment that does not depend on its target forgets about it, `data_model/symbol.py` 1088-1091. -/
def forget (s : St K) (t : Path K) : St K :=
  { s with
    casc := set s.casc t 0
    upd := fun p => if p = t then false else s.upd p
    updDeep := fun p => if p = t then false else s.updDeep p }

/-- `overwrite`, `data_model/symbol.py` 1042-1047. -/
def overwrites (a : Store K) : Bool := !(a.deps.contains a.path) && !a.loops

/-- `update_deps` up to 1091, `data_model/symbol.py` 1043-1091. -/
def clear (s : St K) (a : Store K) : St K := if overwrites a then forget s a.path else s

/-- `update_deps`, `data_model/symbol.py` 1043-1110. `prev`: the execution before of the cell that runs. The target itself is taken out of the
symbols that it depends on, 1049. -/
def update (s : St K) (prev : Nat) (a : Store K) : St K :=
  let s1 := clear s a
  let s2 := if a.rval || (a.deps.filter (· ≠ a.path)).any (cascAt s1 prev) then bump s1 a.path else s1
  touch s2 a.path

/-- The variables of the loop of `_handle_reactive_store`, `data_model/statement.py` 309-310. -/
structure Vars where
  reactive : Bool := false
  blocking : Bool := false

/-- One turn of the loop of `_handle_reactive_store`, `data_model/statement.py` 311-337. The symbols are not live here, so the marks alone count. -/
def mark (s : St K) (v : Vars) (p : Path K) (m : Marks) : St K × Vars :=
  let blocking := v.blocking || m.blocking
  let here := !m.blocking && (m.reactive || m.cascading) && !blocking
  let s1 : St K :=
    if here then
      let s' : St K :=
        if m.cascading then { s with updDeep := fun q => if q = p then true else s.updDeep q }
        else { s with updDeepLast := fun q => if q = p then true else s.updDeepLast q }
      if m.cascading then bump s' p else s'
    else s
  let reactive := v.reactive || here
  let s2 : St K :=
    if reactive && !blocking then
      if m.cascading then { s1 with upd := fun q => if q = p then true else s1.upd q }
      else { s1 with updLast := fun q => if q = p then true else s1.updLast q }
    else s1
  let s3 : St K :=
    if blocking && !s2.done p then { s2 with blocked := fun q => if q = p then s2.ctr else s2.blocked q } else s2
  (s3, { reactive := reactive, blocking := blocking })

/-- The symbols of a chain, with their marks: `gen_symbols_for_attrsub_chain`, `data_model/scope.py` 150-175. -/
def symbols (before : Path K) : List (K × Marks) → List (Path K × Marks)
  | [] => []
  | (k, m) :: l => (before ++ [k], m) :: symbols (before ++ [k]) l

/-- The loop of `_handle_reactive_store`, `data_model/statement.py` 311-337. -/
def markAll (sv : St K × Vars) (l : List (Path K × Marks)) : St K × Vars := l.foldl (fun sv e => mark sv.1 sv.2 e.1 e.2) sv

/-- An assignment, `data_model/statement.py` 400-417; the loop goes over the symbols in reverse, 317. -/
def store (prev : Nat) (s : St K) (a : Store K) : St K :=
  (markAll (update s prev a, {}) (symbols [] a.target).reverse).1

/-- A statement, with several targets perhaps, and the end of it, `tracing/ipyflow_tracer.py` 312-313. -/
def stmt (prev : Nat) (s : St K) (as : List (Store K)) : St K :=
  let s1 := as.foldl (store prev) s
  { s1 with done := fun p => s1.done p || s1.now p, now := fun _ => false }

/-- A cell: the execution of it before (0: none), and what it assigns. -/
structure Cell (K : Type) where
  prev : Nat := 0
  body : List (List (Store K))

/-- The start of a cell: `_safety_precheck_cell`, `flow.py` 560-574, `before_enter_tracing_context`, `shell/interactiveshell.py` 478-480. -/
def start (s : St K) : St K :=
  { s with ctr := s.ctr + 1, updLast := fun _ => false, updDeepLast := fun _ => false, done := fun _ => false, now := fun _ => false }

/-- What happens: a cell is run, `shell/interactiveshell.py` 535-623, or the frontend says that nothing is left to run again,
`handle_reactivity_cleanup`, `comm_manager.py` 361-366. -/
inductive Op (K : Type) where
  | run (c : Cell K)
  | cleanup

/-- One of them: `shell/interactiveshell.py` 535-623, `comm_manager.py` 361-366. -/
def step (s : St K) : Op K → St K
  | .run c => c.body.foldl (stmt c.prev) (start s)
  | .cleanup => { s with minCasc := s.ctr, upd := fun _ => false, updDeep := fun _ => false }

/-- All of them, from a fresh kernel: `flow.py` 193-224. -/
def after (ops : List (Op K)) : St K := ops.foldl step {}

/-- A symbol that a cell reads: `ResolvedSymbol`, `analysis/resolved_symbols.py` 20-48. `last`: `next_atom` is `None`. -/
structure Read (K : Type) where
  sym : Path K
  marks : Marks
  last : Bool

/-- `is_cascading_reactive`, `analysis/resolved_symbols.py` 77-84. `ctr`: the last execution of the cell that reads. -/
def cascading (s : St K) (ctr : Nat) (l : Read K) : Bool := l.marks.cascading || cascAt s ctr l.sym

/-- `is_blocking`, `analysis/resolved_symbols.py` 96-102. -/
def blocking (s : St K) (l : Read K) : Bool := l.marks.blocking || decide (s.blocked l.sym ≥ stamp s l.sym)

/-- `is_reactive`, `analysis/resolved_symbols.py` 86-94. -/
def reactive (s : St K) (ctr : Nat) (l : Read K) : Bool :=
  !blocking s l && (l.marks.reactive || cascading s ctr l || (s.updDeep l.sym || s.updDeepLast l.sym))

/-- `timestamp`, `analysis/resolved_symbols.py` 58-63, with `is_deep`, 112-127. -/
def time (s : St K) (ctr : Nat) (l : Read K) : Nat :=
  if reactive s ctr l || l.last then stamp s l.sym else s.own l.sym

/-- The symbols of a chain with the marks that they inherit: `SymbolRef.gen_resolved_symbols`, `analysis/symbol_ref.py` 428-484, with all the
intermediate symbols. -/
def resolved (before : Path K) (v : Seen) : List (K × Marks) → List (Read K)
  | [] => []
  | (k, m) :: l => { sym := before ++ [k], marks := (turn v m).2, last := l.isEmpty } :: resolved (before ++ [k]) (turn v m).1 l

/-- `LiveSymbolRef.gen_resolved_symbols`, `analysis/symbol_ref.py` 520-540. -/
def spread (s : St K) (seen : Bool) : List (Read K) → List (Read K)
  | [] => []
  | l :: ls =>
    let seen := seen || blocking s l
    (if seen && !blocking s l then { l with marks := l.marks.toBlocking } else l) :: spread s seen ls

/-- What a cell reads by a chain: `analysis/live_refs.py` 520-552. -/
def reads (s : St K) (r : List (K × Marks)) : List (Read K) := spread s false (resolved [] { all := true } r)

/-- The read is why a cell has to be run again: `data_model/cell.py` 729-741, `frontend.py` 212-219. `least`: `min_forced_reactive_cell_counter()`. -/
def counts (s : St K) (ctr least : Nat) (l : Read K) : Bool :=
  !blocking s l && (reactive s ctr l || (s.upd l.sym || s.updLast l.sym)) && decide (time s ctr l > max ctr least)

/-- The cell is in `forced_reactive_cells`: `frontend.py` 212-219. -/
def forced (s : St K) (ctr least : Nat) (r : List (K × Marks)) : Bool := (reads s r).any (counts s ctr least)

/-- The cell is in `forced_cascading_reactive_cells`: `frontend.py` 220-226, `data_model/cell.py` 729-733. -/
def forcedCasc (s : St K) (ctr least : Nat) (r : List (K × Marks)) : Bool :=
  (reads s r).any (fun l => !blocking s l && cascading s ctr l && decide (time s ctr l > max ctr least))

end Verif.React
