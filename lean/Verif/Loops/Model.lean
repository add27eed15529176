import Verif.Slice.Order

/-! Statements with branches and loops, several of them in a cell, and the code made for a variable.

Of a loop only the first iteration is traced; what the others do is found out, if at all, by comparing recorded values with actual
ones when the statement or the cell ends.

Simplified: right-hand sides are sums that begin with a number, the only iterables are `range(y)`, loops have no `else`, and values are
compared where the code compares identities. Sessions in which something raises, or in which a loop does not end, are left out. -/

namespace Verif.Loops
open Verif

/-- Statements: `pass`, `x = c + y + ...`, two statements in a body, `if y: ... else: ...`, `for i in range(y): ...` and `while y: ...`. -/
inductive S where
  | pass
  | set (x : Nat) (c : Int) (ys : List Nat)
  | seq (a b : S)
  | ite (y : Nat) (a b : S)
  | for_ (i y : Nat) (b : S)
  | while_ (y : Nat) (b : S)
  deriving DecidableEq, Repr

/-- Global variables (`user_ns`). -/
abbrev Env := Nat → Option Int

/-- A changed table. -/
def upd {α : Type} (f : Nat → α) (a : Nat) (v : α) : Nat → α := fun b => if b = a then v else f b

/-- What happens while a statement of the module is run. -/
inductive Ev where
  /-- Python reads the variable -/
  | rd (y : Nat)
  /-- the tracer resolves the variable as one that is used, `tracing/symbol_resolver.py` 76-78 -/
  | nt (y : Nat)
  /-- Python sets the variable; the tracer handles the assignment if it is traced, `data_model/statement.py` 525-569 -/
  | wr (traced : Bool) (x : Nat) (v : Int)
  /-- the tracer handles the target of a `for` that had no iteration -/
  | touch (i : Nat) (v : Option Int)
  /-- the first iteration of a loop ends and tracing is switched off, `tracing/ipyflow_tracer.py` 850-865 -/
  | iter
  deriving DecidableEq, Repr

/-- The value of a sum. -/
def total (e : Env) : List Nat → Option Int
  | [] => some 0
  | y :: r =>
    match e y, total e r with
    | some n, some m => some (n + m)
    | _, _ => none

/-- `range(n)`. -/
def range (n : Int) : List Int := (List.range n.toNat).map Int.ofNat

/-- The names that are resolved when a `while` ends: `tracing/symbol_resolver.py` 77-233 has no rule for `while`, so that its body is visited,
with an `if` or `for` in it by its test or iterable only (227-233). -/
def bodyNames : S → List Nat
  | .pass => []
  | .set x _ ys => x :: ys
  | .seq a b => bodyNames a ++ bodyNames b
  | .ite y _ _ => [y]
  | .for_ _ y _ => [y]
  | .while_ y b => y :: bodyNames b

/-- Something only if it is traced. -/
def seen (tr : Bool) (l : List Ev) : List Ev := if tr then l else []

/-- The iterations of a `for` that are not traced: `tracing/ipyflow_tracer.py` 850-865. -/
def forLoop (body : Env → Option (List Ev × Env)) (i : Nat) : List Int → Env → Option (List Ev × Env)
  | [], e => some ([], e)
  | v :: r, e =>
    match body (upd e i (some v)) with
    | none => none
    | some (l, e₁) =>
      match forLoop body i r e₁ with
      | none => none
      | some (l', e₂) => some (.wr false i v :: (l ++ l'), e₂)

/-- The iterations of a `while` that are not traced: `tracing/ipyflow_tracer.py` 850-865. -/
def whileLoop (body : Env → Option (List Ev × Env)) (y : Nat) : Nat → Env → Option (List Ev × Env)
  | 0, _ => none
  | n + 1, e =>
    match e y with
    | none => none
    | some v =>
      if v = 0 then some ([.rd y], e)
      else
        match body e with
        | none => none
        | some (l, e₁) =>
          match whileLoop body y n e₁ with
          | none => none
          | some (l', e₂) => some (.rd y :: (l ++ l'), e₂)

/-- A statement is run, by Python and, if `tr`, under the tracer. No `while` has more than `F` iterations after its first. `for` and `if` are
handled when their body is entered (`tracing/ipyflow_tracer.py` 1582-1606) or, if it is not, when they end (1501-1531); a `while` is handled
when it ends. Assignments: `data_model/statement.py` 570-600. -/
def go (F : Nat) : S → Bool → Env → Option (List Ev × Env)
  | .pass, _, e => some ([], e)
  | .set x c ys, tr, e =>
    match total e ys with
    | none => none
    | some n => some (ys.map .rd ++ (seen tr (ys.map .nt) ++ [.wr tr x (c + n)]), upd e x (some (c + n)))
  | .seq a b, tr, e =>
    match go F a tr e with
    | none => none
    | some (l, e₁) =>
      match go F b tr e₁ with
      | none => none
      | some (l', e₂) => some (l ++ l', e₂)
  | .ite y a b, tr, e =>
    match e y with
    | none => none
    | some v =>
      match (if v = 0 then go F b tr e else go F a tr e) with
      | none => none
      | some (l, e₁) => some (.rd y :: (seen tr [.nt y] ++ l), e₁)
  | .for_ i y b, tr, e =>
    match e y with
    | none => none
    | some n =>
      match range n with
      | [] => some (.rd y :: seen tr [.nt y, .touch i (e i)], e)
      | v :: r =>
        match go F b tr (upd e i (some v)) with
        | none => none
        | some (l, e₁) =>
          match forLoop (go F b false) i r e₁ with
          | none => none
          | some (l', e₂) => some (.rd y :: (seen tr [.nt y] ++ (.wr tr i v :: (l ++ (seen tr [.iter] ++ l')))), e₂)
  | .while_ y b, tr, e =>
    match e y with
    | none => none
    | some v =>
      if v = 0 then some (.rd y :: seen tr ((y :: bodyNames b).map .nt), e)
      else
        match go F b tr e with
        | none => none
        | some (l, e₁) =>
          match whileLoop (go F b false) y F e₁ with
          | none => none
          | some (l', e₂) => some (.rd y :: (l ++ (seen tr [.iter] ++ (l' ++ seen tr ((y :: bodyNames b).map .nt)))), e₂)

/-- The variables that the tracer knows, each with the value it has recorded and the number of the statement of the module that set it
last (`Symbol.obj` and `Symbol.timestamp`, `data_model/symbol.py` 290-300, 1019-1112). -/
abbrev Syms := Nat → Option (Int × Nat)

/-- The statement that set a variable. -/
def tsOf (sym : Syms) (y : Nat) : List Nat :=
  match sym y with
  | some (_, t) => [t]
  | none => []

/-- The tracer during a statement of the module: what it knows, the links made so far, and whether tracing has been off
(`tracing_disabled_since_last_module_stmt`, `tracing/ipyflow_tracer.py` 389-398). -/
structure Acc where
  sym : Syms
  links : List Nat := []
  off : Bool := false

/-- The tracer handles what happens in statement `t`. Statements in a body have the timestamp of the statement of the module, so that
variables they set are not linked to (`data_model/symbol.py` 1240-1309). -/
def handle (t : Nat) (a : Acc) : Ev → Acc
  | .rd _ => a
  | .nt y => { a with links := a.links ++ (tsOf a.sym y).filter (fun u => decide (u ≠ t)) }
  | .wr true x v => { a with sym := upd a.sym x (some (v, t)) }
  | .wr false _ _ => a
  | .touch i (some v) => { a with sym := upd a.sym i (some (v, t)) }
  | .touch _ none => a
  | .iter => { a with off := true }

/-- All of them. -/
def handleAll (t : Nat) (a : Acc) (l : List Ev) : Acc := l.foldl (handle t) a

/-- The static analysis: what is used (`live`) and what is set for certain (`dead`), `analysis/live_refs.py` 146-221 and 313-340. -/
def ana (D : List Nat) : S → List Nat × List Nat
  | .pass => ([], D)
  | .set x _ ys =>
    (ys.filter (fun y => decide (y ∉ D)), if x ∈ ys.filter (fun y => decide (y ∉ D)) then D else x :: D)
  | .seq a b => ((ana D a).1 ++ (ana (ana D a).2 b).1, (ana (ana D a).2 b).2)
  | .ite y a b =>
    (([y] ++ ((ana [] a).1 ++ (ana [] b).1)).filter (fun z => decide (z ∉ D)),
      (ana [] a).2.filter (fun z => decide (z ∈ (ana [] b).2)) ++ D)
  | .for_ i y b => (([y] ++ (ana [i] b).1).filter (fun z => decide (z ∉ D)), D)
  | .while_ y b => (([y] ++ (ana [] b).1).filter (fun z => decide (z ∉ D)), D)

/-- Variables used in the statement are compared with their actual values and, if they differ, count as set by it; variables it sets for
certain are made known: `_handle_skipped_sub_statements`, `tracing/ipyflow_tracer.py` 1534-1551, `data_model/symbol.py` 1404-1445. -/
def resync (t : Nat) (s : S) (e : Env) (sym : Syms) : Syms := fun y =>
  match sym y, e y with
  | some (w, u), some v => if (y ∈ (ana [] s).1 ∨ y ∈ (ana [] s).2) ∧ w ≠ v then some (v, t) else some (w, u)
  | none, some v => if y ∈ (ana [] s).2 then some (v, t) else none
  | p, none => p

/-- The end of a statement of the module: `after_module_stmt`, `tracing/ipyflow_tracer.py` 1553-1580. -/
def endStmt (t : Nat) (s : S) (e : Env) (a : Acc) : Syms := if a.off then resync t s e a.sym else a.sym

/-- The end of a cell: recorded values of variables set in the cell are brought up to date, without another timestamp,
`shell/interactiveshell.py` 675-700. -/
def endCell (start : Nat) (e : Env) (sym : Syms) : Syms := fun y =>
  match sym y, e y with
  | some (w, u), some v => if start ≤ u then some (v, u) else some (w, u)
  | p, _ => p

/-- The session: variables, what the tracer knows about them, statements run so far (newest first), their timestamps and links, and the
cell counter. -/
structure St where
  val : Env := fun _ => none
  sym : Syms := fun _ => none
  log : List S := []
  st : Nat → Timestamp := fun _ => ⟨0, 0⟩
  dyn : Nat → List Nat := fun _ => []
  stat : Nat → List Nat := fun _ => []
  cells : Nat := 0

/-- A cell being run: the variables known before it, what the static analysis takes for set so far, the number of its first statement and
the position of the next one. -/
structure K where
  sym0 : Syms
  start : Nat
  dead : List Nat := []
  idx : Nat := 0

/-- The links made before the cell is run: `flow.py` 427-451 and 564-574, `analysis/live_refs.py` 552-570. -/
def statLinks (k : K) (s : S) : List Nat := (ana k.dead s).1.flatMap (tsOf k.sym0)

/-- One statement of the module is run. -/
def step (F : Nat) (σ : St) (k : K) (s : S) : Option (St × K) :=
  match go F s true σ.val with
  | none => none
  | some (l, e) =>
    some ({ val := e
            sym := endStmt σ.log.length s e (handleAll σ.log.length { sym := σ.sym } l)
            log := s :: σ.log
            st := upd σ.st σ.log.length ⟨σ.cells, k.idx⟩
            dyn := upd σ.dyn σ.log.length (handleAll σ.log.length { sym := σ.sym } l).links
            stat := upd σ.stat σ.log.length (statLinks k s)
            cells := σ.cells },
          { sym0 := k.sym0, start := k.start, dead := (ana k.dead s).2, idx := k.idx + 1 })

/-- The statements of a cell. -/
def goCell (F : Nat) (σ : St) (k : K) : List S → Option St
  | [] => some { σ with sym := endCell k.start σ.val σ.sym }
  | s :: r =>
    match step F σ k s with
    | none => none
    | some (σ', k') => goCell F σ' k' r

/-- A cell is run. -/
def runCell (F : Nat) (σ : St) (c : List S) : Option St :=
  goCell F { σ with cells := σ.cells + 1 } { sym0 := σ.sym, start := σ.log.length } c

/-- Cells run one after another, newest first; `none` if something raises or a loop has more iterations than `F`. -/
def run (F : Nat) : List (List S) → Option St
  | [] => some {}
  | c :: h =>
    match run F h with
    | none => none
    | some σ => runCell F σ c

/-- The statements in `code(x)`: `api/lift.py` 29-37 with `data_model/symbol.py` 354-372 and `slicing/mixin.py` 437-452. -/
def code (σ : St) (x : Nat) : Except Err (List Nat) :=
  match σ.sym x with
  | none => .error .crash
  | some (_, t) => Slice.Order.slice σ.log.length σ.st σ.dyn σ.stat [t]

/-- The text that `code` gives: the statements with these numbers, `slicing/mixin.py` 454-466, 501-530. -/
def text (σ : St) (C : List Nat) : List S := C.filterMap (fun t => σ.log.reverse[t]?)

end Verif.Loops
