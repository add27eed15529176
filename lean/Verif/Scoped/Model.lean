import Verif.Registry.Position

/-!
# Scoped settings

Models the context managers `Timestamp.offset` (`data_model/timestamp.py` 70-84), `set_slicing_context` and the generators built on it
(`slicing/context.py` 25-57, `utils/misc_utils.py` 52-55), `override_child_cell` (`flow.py` 417-425) and
`_override_position_index_for_current_flow_semantics` (`data_model/cell.py` 458-469), used by programs that may raise exceptions.

An unfinished generator of `for _ in iter_slicing_contexts(...)` is closed as soon as the loop is left (CPython). -/

namespace Verif.Scoped
open Verif

/-- The settings: `_cell_offset`, `_stmt_offset` (`data_model/timestamp.py` 32-33), the value of `slicing_ctx_var` (`slicing/context.py`
21-23; `some true` is static), `_override_child_cell` (`flow.py` 220), the positions (`data_model/cell.py` 81-82). -/
structure St where
  cellOff : Int
  stmtOff : Int
  slicing : Option Bool
  child : Option Nat
  pos : Registry.Pos.St Nat

/-- `flow_order` and `interface`, as far as positions depend on them: the condition of `data_model/cell.py` 421-424 and the one of 465. -/
structure Cfg where
  inOrder : Bool
  anyOrder : Bool

/-- What the program can see of the settings: offsets, slicing context, child override, positions of cells. -/
structure Obs where
  cellOff : Int
  stmtOff : Int
  slicing : Option Bool
  child : Option Nat
  pos : List (Nat × Registry.Pos.P)

/-- Programs that use the context managers. -/
inductive Prog where
  | skip
  | raise
  /-- Look at the settings. -/
  | observe
  | seq (p q : Prog)
  /-- `try: p except Exception: q` -/
  | handle (p q : Prog)
  /-- `with Timestamp.offset(c, s): p` -/
  | offset (c s : Int) (p : Prog)
  /-- `with slicing_context(b): p` -/
  | slicing (b : Bool) (p : Prog)
  /-- `for _ in iter_slicing_contexts(*bs): p` -/
  | iter (bs : List Bool) (p : Prog)
  /-- `with flow().override_child_cell(c): p` -/
  | child (c : Nat) (p : Prog)
  /-- `with cells()._override_position_index_for_current_flow_semantics(): p` -/
  | positions (p : Prog)

/-- What the program sees, `flow.py` 436, `data_model/timestamp.py` 46-48, `slicing/context.py` 21. -/
def St.obs (s : St) : Obs := ⟨s.cellOff, s.stmtOff, s.slicing, s.child, s.pos.pos⟩

/-- The settings after the program, what it saw, and whether it raised. -/
abbrev Res := St × List Obs × Bool

/-- `set_slicing_context`, `slicing/context.py` 25-31, around something; the token is the old value. -/
def withSlicing (b : Bool) (f : St → Res) (s : St) : Res :=
  let token := s.slicing
  let r := f { s with slicing := some b }
  ({ r.1 with slicing := token }, r.2)

/-- `yield_in_loop`, `utils/misc_utils.py` 52-55, over `set_slicing_context`s. -/
def iterSlicing (f : St → Res) : List Bool → St → Res
  | [], s => (s, [], false)
  | b :: bs, s =>
    match withSlicing b f s with
    | (s1, o1, true) => (s1, o1, true)
    | (s1, o1, false) =>
      let r := iterSlicing f bs s1
      (r.1, o1 ++ r.2.1, r.2.2)

/-- Execution. The context managers run their last part whether or not the body raised (`finally`). -/
def exec (cfg : Cfg) : Prog → St → Res
  | .skip, s => (s, [], false)
  | .raise, s => (s, [], true)
  | .observe, s => (s, [s.obs], false)
  | .seq p q, s =>
    match exec cfg p s with
    | (s1, o1, true) => (s1, o1, true)
    | (s1, o1, false) => let r := exec cfg q s1; (r.1, o1 ++ r.2.1, r.2.2)
  | .handle p q, s =>
    match exec cfg p s with
    | (s1, o1, true) => let r := exec cfg q s1; (r.1, o1 ++ r.2.1, r.2.2)
    | (s1, o1, false) => (s1, o1, false)
  | .offset c t p, s =>
    let r := exec cfg p { s with
      cellOff := s.cellOff + c
      stmtOff := s.stmtOff + t }
    ({ r.1 with
      cellOff := r.1.cellOff - c
      stmtOff := r.1.stmtOff - t }, r.2)
  | .slicing b p, s => withSlicing b (exec cfg p) s
  | .iter bs p, s => iterSlicing (exec cfg p) bs s
  | .child c p, s =>
    let orig := s.child
    let r := exec cfg p { s with child := some c }
    ({ r.1 with child := orig }, r.2)
  | .positions p, s =>
    let orig := s.pos.pos
    let r := exec cfg p (if cfg.anyOrder then { s with pos := Registry.Pos.setPositions cfg.inOrder s.pos [] } else s)
    ({ r.1 with pos := Registry.Pos.setPositions cfg.inOrder r.1.pos orig }, r.2)

/-! ## Scopes of several threads

The debounced recomputation runs in its own thread (`utils/misc_utils.py` 25-48), so scopes of different threads need not be nested. A context
variable has a value per thread; the offsets and the child override are shared. Entering and leaving are taken to be atomic. -/

/-- Entering a scope, or leaving the scope with the given number. -/
inductive Ev (α : Type) where
  | enter (id : Nat) (v : α)
  | leave (id : Nat)

/-- `Timestamp.offset`, `data_model/timestamp.py` 75-84: the offset, and the open scopes. -/
def offsetStep (s : Int × List (Nat × Int)) : Ev Int → Int × List (Nat × Int)
  | .enter id d => (s.1 + d, s.2 ++ [(id, d)])
  | .leave id =>
    match Assoc.get s.2 id with
    | some d => (s.1 - d, Assoc.erase s.2 id)
    | none => s

/-- `override_child_cell`, `flow.py` 418-425: the override, and the open scopes with their `orig_override`. -/
def childStep (s : Option Nat × List (Nat × Option Nat)) : Ev Nat → Option Nat × List (Nat × Option Nat)
  | .enter id c => (some c, s.2 ++ [(id, s.1)])
  | .leave id =>
    match Assoc.get s.2 id with
    | some orig => (orig, Assoc.erase s.2 id)
    | none => s

end Verif.Scoped
