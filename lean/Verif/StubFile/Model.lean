import Verif.Annot.Model
import Verif.Base.Assoc
import Mathlib.Data.Rat.Defs
import Mathlib.Algebra.Order.Ring.Unbundled.Rat

/-!
# Files of annotations

A stub file holds stubs of classes and functions, and strings with further stubs that apply if a condition on the first line holds:

```
""":sys.version_info >= (3, 8)
def f(a, /) -> Mutate[a]: ...
"""
```

This is a model of how a file, and a directory of files, is registered, of how conditions are evaluated, and of when the annotations are put in force for the
functions of a module (`annotations/compiler.py` 223-375, `line_magics.py` 545-555, `tracing/ipyflow_tracer.py` 820-821). Left out: complex numbers, which pass
the check of 276-280; `nan` and infinite numbers; methods, for which see `Verif.Annot`.
-/

namespace Verif.StubFile
open Annot (Stub Dec modulesOf namesFor)

/-! ## Conditions -/

/-- Names in headers: the two that are allowed, and others; `compiler.py` 271-274. -/
inductive Id where
  | sys
  | versionInfo
  | other (n : Nat)
  deriving DecidableEq

/-- Constants, as the checks in `compiler.py` 260-266 and 277-279 tell them apart. -/
inductive Const where
  | int (n : Int)
  | bool (b : Bool)
  | float (q : Rat)
  | other

/-- Operators of comparisons in Python (`ast.Compare.ops`), which `compiler.py` 257-281 does not look at. -/
inductive Op where
  | lt | le | gt | ge | eq | ne | is | isNot | isIn | notIn
  deriving DecidableEq

/-- An expression as `ast.parse(header, mode="eval").body` gives it, `compiler.py` 256. `other` stands for all kinds that the checks do not name. -/
inductive Expr where
  | name (x : Id)
  | attr (e : Expr) (a : Id)
  | const (c : Const)
  | tuple (es : List Expr)
  | compare (l : Expr) (cs : List (Op × Expr))
  | other (n : Nat)

/-- The check of one element of a tuple, `compiler.py` 276-280. A Boolean is an `int`; a float is an `ast.Num`. -/
def okElt : Expr → Bool
  | .const (.int _) => true
  | .const (.bool _) => true
  | .const (.float _) => true
  | _ => false

/-- The check of one side of a comparison, `compiler.py` 259-280. A Boolean is no `ast.Num`, a float no `int`. -/
def okSide : Expr → Bool
  | .const (.int _) => true
  | .attr (.name .sys) .versionInfo => true
  | .tuple es => es.all okElt
  | _ => false

/-- The checks of `compiler.py` 257-280. -/
def okHeader : Expr → Bool
  | .compare l cs => okSide l && cs.all fun c => okSide c.2
  | _ => false

/-- An entry of a tuple: a number, or the string in `sys.version_info`. Used for `eval` in `compiler.py` 281. -/
inductive Item where
  | num (q : Rat)
  | level
  deriving DecidableEq

/-- The value of a side of a comparison, for `eval` in `compiler.py` 281. -/
inductive Value where
  | int (n : Int)
  | tuple (l : List Item)

/-- The interpreter: its version, whether two values are the same object, and what evaluating any other expression would give; for `eval` in `compiler.py` 281. -/
structure Python where
  major : Nat
  minor : Nat
  micro : Nat
  serial : Nat
  same : Value → Value → Bool
  other : Expr → Except Err Bool

/-- `sys.version_info`, as in `compiler.py` 281. -/
def versionInfo (p : Python) : List Item := [.num p.major, .num p.minor, .num p.micro, .level, .num p.serial]

/-- The number a constant stands for, in `compiler.py` 281. -/
def number : Expr → Option Rat
  | .const (.int n) => some n
  | .const (.bool b) => some (if b then 1 else 0)
  | .const (.float q) => some q
  | _ => none

/-- The value of a side of a comparison, in `compiler.py` 281. -/
def value (p : Python) : Expr → Option Value
  | .const (.int n) => some (.int n)
  | .attr (.name .sys) .versionInfo => some (.tuple (versionInfo p))
  | .tuple es => (es.mapM number).map fun l => .tuple (l.map .num)
  | _ => none

/-- Comparison of numbers in Python, for `compiler.py` 281; the last four operators do not get here. -/
def cmpNum : Op → Rat → Rat → Bool
  | .lt, a, b => decide (a < b)
  | .le, a, b => decide (a ≤ b)
  | .gt, a, b => decide (b < a)
  | .ge, a, b => decide (b ≤ a)
  | .eq, a, b => decide (a = b)
  | _, a, b => decide (a ≠ b)

/-- Comparison of tuples in Python, for `compiler.py` 281: the first entries that differ decide, and if there are none the lengths. Numbers and strings have no
order, which is a `TypeError`. -/
def cmpTuple (op : Op) : List Item → List Item → Except Err Bool
  | a :: as, b :: bs =>
    if a = b then cmpTuple op as bs
    else match op, a, b with
      | .eq, _, _ => .ok false
      | .ne, _, _ => .ok true
      | op, .num x, .num y => .ok (cmpNum op x y)
      | _, _, _ => .error .crash
  | as, bs => .ok (cmpNum op as.length bs.length)

/-- A comparison of two values in Python, for `compiler.py` 281. -/
def cmp (p : Python) (op : Op) (a b : Value) : Except Err Bool :=
  match op, a, b with
  | .is, a, b => .ok (p.same a b)
  | .isNot, a, b => .ok (!p.same a b)
  | .isIn, .int n, .tuple l => .ok (decide (.num n ∈ l))
  | .isIn, .tuple _, .tuple _ => .ok false
  | .isIn, _, .int _ => .error .crash
  | .notIn, .int n, .tuple l => .ok (decide (.num n ∉ l))
  | .notIn, .tuple _, .tuple _ => .ok true
  | .notIn, _, .int _ => .error .crash
  | op, .int m, .int n => .ok (cmpNum op m n)
  | op, .tuple l, .tuple l' => cmpTuple op l l'
  | .eq, _, _ => .ok false
  | .ne, _, _ => .ok true
  | _, _, _ => .error .crash

/-- A chain of comparisons in Python, for `compiler.py` 281: it ends at the first one that does not hold. -/
def chain (p : Python) : Value → List (Op × Value) → Except Err Bool
  | _, [] => .ok true
  | a, (op, b) :: l =>
    match cmp p op a b with
    | .error e => .error e
    | .ok false => .ok false
    | .ok true => chain p b l

/-- `eval(header)`, `compiler.py` 281. -/
def eval (p : Python) (e : Expr) : Except Err Bool :=
  match e with
  | .compare l cs =>
    match value p l, cs.mapM fun c => (value p c.2).map fun v => (c.1, v) with
    | some a, some bs => chain p a bs
    | _, _ => p.other e
  | e => p.other e

/-! ## Files -/

variable {C F : Type}

/-- A statement of a stub file, `compiler.py` 289-302. A string without a line break is `line`; the others are `block`: the first character (missing if the
first line is empty), what the rest of the first line parses to (`none` is a `SyntaxError`), whether the rest of the string parses, and its statements. `expr` is
any other expression, `other` any other statement. -/
inductive Node (C F : Type) where
  | cls (s : Stub C)
  | fn (s : Stub F)
  | line
  | block (mark : Option Char) (header : Option Expr) (parses : Bool) (body : List (Node C F))
  | expr
  | other

/-- `REGISTERED_CLASS_SPECS` and `REGISTERED_FUNCTION_SPECS`, `compiler.py` 29-30. -/
structure Specs (C F : Type) where
  cls : Nat → List (Stub C)
  fn : Nat → List (Stub F)

/-- `SPECS.setdefault(module, []).append(node)` for all modules of a stub, `compiler.py` 303-310; the modules are a set. -/
def addTo {B : Type} (t : Nat → List (Stub B)) (ms : List Nat) (s : Stub B) : Nat → List (Stub B) := fun m => if m ∈ ms then t m ++ [s] else t m

mutual
/-- The body of the loop of `register_annotations_from_source`, `compiler.py` 290-314, and `handle_string_annotation`, 240-284: the tables and the modules that
were seen, or the exception. -/
def addNode (p : Python) (file : Nat) : Node C F → Specs C F → Specs C F × Except Err (List Nat)
  | .cls s, t => ({ t with cls := addTo t.cls (modulesOf file s) s }, .ok (modulesOf file s))
  | .fn s, t => ({ t with fn := addTo t.fn (modulesOf file s) s }, .ok (modulesOf file s))
  | .line, t => (t, .error .crash)
  | .block _ none _ _, t => (t, .error .crash)
  | .block _ (some e) parses body, t =>
    if okHeader e then
      match eval p e with
      | .error x => (t, .error x)
      | .ok false => (t, .ok [file])
      | .ok true =>
        if parses then
          match addNodes p file body t with
          | (t, .error x) => (t, .error x)
          | (t, .ok ms) => (t, .ok (file :: ms))
        else (t, .error .crash)
    else (t, .ok [file])
  | .expr, t => (t, .ok [file])
  | .other, t => (t, .ok [])

/-- The loop of `register_annotations_from_source`, `compiler.py` 288-315. -/
def addNodes (p : Python) (file : Nat) : List (Node C F) → Specs C F → Specs C F × Except Err (List Nat)
  | [], t => (t, .ok [])
  | n :: l, t =>
    match addNode p file n t with
    | (t, .error x) => (t, .error x)
    | (t, .ok ms) =>
      match addNodes p file l t with
      | (t, .error x) => (t, .error x)
      | (t, .ok ms') => (t, .ok (ms ++ ms'))
end

/-- A file in a directory: whether its name ends in `.pyi`, the module it is named after, whether it parses, and its statements; `compiler.py` 289, 305, 364-365. -/
structure File (C F : Type) where
  pyi : Bool
  name : Nat
  parses : Bool
  nodes : List (Node C F)

/-- `register_annotations_from_source` for a file, `compiler.py` 287-315 and 331-333. -/
def addFile (p : Python) (f : File C F) (t : Specs C F) : Specs C F × Except Err (List Nat) :=
  if f.parses then addNodes p f.name f.nodes t else (t, .error .crash)

/-- The loop of `register_annotations_directory`, `compiler.py` 364-370. -/
def addFiles (p : Python) : List (File C F) → Specs C F → Specs C F × Except Err (List Nat)
  | [], t => (t, .ok [])
  | f :: l, t =>
    if f.pyi then
      match addFile p f t with
      | (t, .error x) => (t, .error x)
      | (t, .ok ms) =>
        match addFiles p l t with
        | (t, .error x) => (t, .error x)
        | (t, .ok ms') => (t, .ok (ms ++ ms'))
    else addFiles p l t

/-! ## Putting annotations in force -/

variable {H G : Type} [DecidableEq G]

/-- `compile_functions`, `compiler.py` 223-237: the functions whose annotation compiles (here: `some`), under each of their names. -/
def compileFunctions (l : List (Stub (Option H))) : List (Nat × H) :=
  l.foldl (fun d f => match f.body with | none => d | some h => (namesFor f.name f.decs).foldl (fun d n => Assoc.set d n h) d) []

/-- The session: the tables of stubs, `REGISTERED_HANDLER_BY_FUNCTION` (`base_handlers.py`, written in `compiler.py` 355-358) and `sys.modules`. -/
structure State (C H G : Type) where
  specs : Specs C (Option H)
  byFn : G → Option H
  imported : List Nat

/-- The loop of `compile_and_register_handlers_for_module`, `compiler.py` 355-358; `exports` is `getattr(module, function_name, None)`. -/
def setAll (exports : Nat → Nat → Option G) (m : Nat) : List (Nat × H) → (G → Option H) → (G → Option H)
  | [], b => b
  | (x, h) :: l, b =>
    match exports m x with
    | none => setAll exports m l b
    | some g => setAll exports m l (fun g' => if g' = g then some h else b g')

/-- `compile_and_register_handlers_for_module`, `compiler.py` 343-345 and 355-358. -/
def compileModule (exports : Nat → Nat → Option G) (m : Nat) (σ : State C H G) : State C H G :=
  { σ with byFn := setAll exports m (compileFunctions (σ.specs.fn m)) σ.byFn }

/-- `register_annotations_directory`, `compiler.py` 371-374. -/
def compileImported (exports : Nat → Nat → Option G) : List Nat → State C H G → State C H G
  | [], σ => σ
  | m :: l, σ => compileImported exports l (if m ∈ σ.imported then compileModule exports m σ else σ)

/-- What a user does: import a module, `%flow register_annotations` for a file or for a directory; `line_magics.py` 545-555. -/
inductive Act (C F : Type) where
  | imp (m : Nat)
  | file (f : File C F)
  | dir (fs : List (File C F))

/-- One step of a session, and the exception if there is one. The event after an import (`ipyflow_tracer.py` 820-821) comes with the first import of a module only.
Files: `register_annotations_file`, `compiler.py` 325-336, called without its second argument in `line_magics.py` 551. Directories: `compiler.py` 361-375. -/
def step (p : Python) (exports : Nat → Nat → Option G) (σ : State C H G) : Act C (Option H) → State C H G × Option Err
  | .imp m => if m ∈ σ.imported then (σ, none) else (compileModule exports m { σ with imported := m :: σ.imported }, none)
  | .file f =>
    match addFile p f σ.specs with
    | (t, .error x) => ({ σ with specs := t }, some x)
    | (t, .ok _) => ({ σ with specs := t }, none)
  | .dir fs =>
    match addFiles p fs σ.specs with
    | (t, .error x) => ({ σ with specs := t }, some x)
    | (t, .ok ms) => (compileImported exports ms { σ with specs := t }, none)

/-- A session; the newest step comes first. Exceptions end the cell with the magic, not the session. Starts from the empty tables (`compiler.py` 29-30). -/
def run (p : Python) (exports : Nat → Nat → Option G) : List (Act C (Option H)) → State C H G
  | [] => ⟨⟨fun _ => [], fun _ => []⟩, fun _ => none, []⟩
  | a :: h => (step p exports (run p exports h) a).1

end Verif.StubFile
