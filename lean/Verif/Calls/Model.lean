import Verif.Slice.Order

/-! Statements that call functions which read global variables, several of them in a cell, and the code made for a variable.

Simplified: functions take no arguments, consist of one `return`, do not call functions and are not given other names; the right-hand
sides are sums that begin with a number. A statement that raises ends its cell and gets no number here: nothing is linked to it. -/

namespace Verif.Calls
open Verif

/-- What is added up on a right-hand side: `y` or `f()`. -/
inductive Op where
  | name (y : Nat)
  | call (f : Nat)
  deriving DecidableEq, Repr

/-- `x = c + ...` and `def f(): return c + y + ...`. -/
inductive Stmt where
  | set (x : Nat) (c : Int) (e : List Op)
  | defn (f : Nat) (c : Int) (ys : List Nat)
  deriving DecidableEq, Repr

/-- Values: numbers and functions. The number `b` stands for the node of the `return`, by which the tracer knows it:
`tracing/ipyflow_tracer.py` 1655-1664. -/
inductive Val where
  | int (n : Int)
  | fn (b : Nat) (c : Int) (ys : List Nat)
  deriving DecidableEq, Repr

/-- Global variables, each with the number of the statement that set it last (`Symbol.timestamp`, `data_model/symbol.py` 290-300). -/
abbrev Env := Nat → Option (Val × Nat)

/-- A changed table. -/
def upd {α : Type} (f : Nat → α) (a : Nat) (v : α) : Nat → α := fun b => if b = a then v else f b

/-- The sum of the variables and the statements that set them: names in a `return`, `tracing/symbol_resolver.py` 76-78. -/
def readAll (env : Env) : List Nat → Option (Int × List Nat)
  | [] => some (0, [])
  | y :: r =>
    match env y with
    | some (.int n, t) =>
      match readAll env r with
      | some (m, l) => some (n + m, t :: l)
      | none => none
    | _ => none

/-- The value of the right-hand side, the statements that get linked to, and the `return` statements that have been handled in this
cell. The names in a `return` are handled when the function returns (`tracing/ipyflow_tracer.py` 358-386 and 426-448), unless that
`return` has been handled in the cell before (`data_model/statement.py` 717-721 and `tracing/ipyflow_tracer.py` 426-429). -/
def evalOps (env : Env) (fin : List Nat) : List Op → Option (Int × List Nat × List Nat)
  | [] => some (0, [], fin)
  | .name y :: r =>
    match env y with
    | some (.int n, t) =>
      match evalOps env fin r with
      | some (m, l, fin') => some (n + m, t :: l, fin')
      | none => none
    | _ => none
  | .call f :: r =>
    match env f with
    | some (.fn b c ys, t) =>
      match readAll env ys with
      | some (n, ls) =>
        match evalOps env (b :: fin) r with
        | some (m, l, fin') => some (c + n + m, t :: (if b ∈ fin then l else ls ++ l), fin')
        | none => none
      | none => none
    | _ => none

/-- The session: variables, statements run so far (newest first), their timestamps and links, and the cell counter. -/
structure St where
  env : Env := fun _ => none
  log : List Stmt := []
  st : Nat → Timestamp := fun _ => ⟨0, 0⟩
  dyn : Nat → List Nat := fun _ => []
  stat : Nat → List Nat := fun _ => []
  cells : Nat := 0

/-- A cell being run: the variables before it, what the static analysis takes for set so far (`dead`) and for defined functions
(`_func_ast_by_name`; `analysis/live_refs.py` 57-81), the `return` statements handled, and the number of the statement. -/
structure K where
  env0 : Env
  dead : List Nat := []
  funcs : Nat → Option (List Nat) := fun _ => none
  fin : List Nat := []
  idx : Nat := 0

/-- The statement that set a variable. -/
def tsOf (env : Env) (y : Nat) : List Nat :=
  match env y with
  | some (_, t) => [t]
  | none => []

/-- The names that a called function reads if the function was defined before the cell, `analysis/live_refs.py` 578-655. -/
def oldBody (env0 : Env) (f : Nat) : List Nat :=
  match env0 f with
  | some (.fn _ _ ys, _) => ys.flatMap (tsOf env0)
  | _ => []

/-- The names that a called function reads if the function is defined in the cell: they count as live even where the cell has set them,
`analysis/live_refs.py` 359-384. -/
def newBody (k : K) (f : Nat) : List Nat := ((k.funcs f).getD []).flatMap (tsOf k.env0)

/-- The links made before the cell is run (`flow.py` 564-574, `analysis/live_refs.py` 552-570): names and calls which are not set in the
cell, and names in the functions. -/
def staticOp (k : K) : Op → List Nat
  | .name y => if y ∈ k.dead then [] else tsOf k.env0 y
  | .call f => newBody k f ++ (if f ∈ k.dead then [] else tsOf k.env0 f ++ oldBody k.env0 f)

/-- The names that the static analysis sees used, `analysis/live_refs.py` 281-298, 355-384. -/
def refs (k : K) : Op → List Nat
  | .name y => [y]
  | .call f => (k.funcs f).getD []

/-- What counts as set after an assignment: a variable that is used on the right does not, `analysis/live_refs.py` 182-221. -/
def deadAfter (k : K) (x : Nat) (e : List Op) : List Nat := if x ∈ e.flatMap (refs k) then k.dead else x :: k.dead

/-- One statement is run: `tracing/ipyflow_tracer.py` 1501-1531, links `flow.py` 427-451 and `data_model/statement.py` 140-155. -/
def step (σ : St) (k : K) : Stmt → Option (St × K)
  | .defn f c ys =>
    some ({ env := upd σ.env f (some (.fn σ.log.length c ys, σ.log.length)), log := .defn f c ys :: σ.log,
            st := upd σ.st σ.log.length ⟨σ.cells, k.idx⟩, dyn := upd σ.dyn σ.log.length [], stat := upd σ.stat σ.log.length [],
            cells := σ.cells },
          { env0 := k.env0, dead := f :: k.dead, funcs := upd k.funcs f (some ys), fin := k.fin, idx := k.idx + 1 })
  | .set x c e =>
    match evalOps σ.env k.fin e with
    | none => none
    | some (n, l, fin) =>
      some ({ env := upd σ.env x (some (.int (c + n), σ.log.length)), log := .set x c e :: σ.log,
              st := upd σ.st σ.log.length ⟨σ.cells, k.idx⟩, dyn := upd σ.dyn σ.log.length l,
              stat := upd σ.stat σ.log.length (e.flatMap (staticOp k)), cells := σ.cells },
            { env0 := k.env0, dead := deadAfter k x e, funcs := k.funcs, fin := fin, idx := k.idx + 1 })

/-- The statements of a cell, until one raises. -/
def goCell (σ : St) (k : K) : List Stmt → St
  | [] => σ
  | s :: r =>
    match step σ k s with
    | none => σ
    | some (σ', k') => goCell σ' k' r

/-- A cell is run. The tracer forgets the statements it has seen: `shell/interactiveshell.py` 273-275. -/
def runCell (σ : St) (c : List Stmt) : St := goCell { σ with cells := σ.cells + 1 } { env0 := σ.env } c

/-- Cells run one after another, newest first. -/
def run : List (List Stmt) → St
  | [] => {}
  | c :: h => runCell (run h) c

/-- The statements in `code(x)`: `api/lift.py` 29-37 with `data_model/symbol.py` 354-372 and `slicing/mixin.py` 437-452. -/
def code (σ : St) (x : Nat) : Except Err (List Nat) :=
  match σ.env x with
  | none => .error .crash
  | some (_, t) => Slice.Order.slice σ.log.length σ.st σ.dyn σ.stat [t]

/-- The text that `code` gives: the statements with these numbers, `slicing/mixin.py` 454-466, 501-530. -/
def text (σ : St) (C : List Nat) : List Stmt := C.filterMap (fun t => σ.log.reverse[t]?)

end Verif.Calls
