import Verif.Base.Assoc

/-!
# Lambdas given to libraries

Models `uninstrument` and `_make_uninstrumented_function`, `core/ipyflow/tracing/uninstrument.py` 19-67, 80-105, and the end of `argument`, `core/ipyflow/tracing/ipyflow_tracer.py`
1170-1175, where a lambda that is given to a function of a library is replaced by what `uninstrument` makes of it.

Functions have one parameter, which may have a default: a number or a name. Bodies are expressions without assignments. A function object refers to cells of the function it was made in,
and to a dictionary of globals: that of the notebook, or one of its own. Objects of functions are numbered; the same goes for cells. Decorators (`_get_uninstrumented_decorator`) and
several symbols for one function are left out, and so are functions nested in the body. `fuel`: how deep `uninstrument` may call itself; beyond that functions are left as they are. -/

namespace Verif.Lambda

/-- Values: numbers and functions, the latter by the number of the object. -/
inductive Val where
  | num (z : Int)
  | fn (i : Nat)
  deriving DecidableEq, Repr

/-- Bodies of functions. -/
inductive Exp where
  | num (z : Int)
  | var (x : Nat)
  | add (a b : Exp)
  | call (f a : Exp)
  /-- a call without an argument -/
  | call0 (f : Exp)
  deriving DecidableEq, Repr

/-- The expression of a default. -/
inductive Dflt where
  | num (z : Int)
  | var (x : Nat)
  deriving DecidableEq, Repr

/-- What a variable of an enclosing function refers to: a cell, `obj.__closure__`, or the parameter of `make_closure` (`uninstrument.py` 46-51). -/
inductive Slot where
  | cell (c : Nat)
  | fixed (v : Val)
  deriving DecidableEq, Repr

/-- An object of a function. -/
structure Fn where
  param : Nat
  /-- the expression of the default and its value -/
  dflt : Option (Dflt × Val) := none
  body : Exp
  /-- `zip(obj.__code__.co_freevars, obj.__closure__)`, `uninstrument.py` 35 -/
  frees : List (Nat × Slot) := []
  /-- `obj.__globals__`: `none` stands for that of the notebook -/
  env : Option (List (Nat × Val)) := none
  /-- there is a symbol with the definition, `uninstrument.py` 95-99 -/
  traced : Bool := true
  /-- `__name__ == "<lambda>"`, `ipyflow_tracer.py` 1173 -/
  isLambda : Bool := false
  deriving DecidableEq, Repr

/-- The state of the program. -/
structure World where
  globals : List (Nat × Val)
  cells : List Val := []
  heap : List Fn := []
  deriving DecidableEq, Repr

/-- The globals that a function refers to: `obj.__globals__`, `uninstrument.py` 39, 53, 56. -/
def globalsOf (w : World) (f : Fn) : List (Nat × Val) := f.env.getD w.globals

/-- `cell.cell_contents`, `uninstrument.py` 36. -/
def slotVal (w : World) : Slot → Option Val
  | .cell c => w.cells[c]?
  | .fixed v => some v

/-- Python: what a variable in the body of a function is (what `exec` makes of the text, `uninstrument.py` 59, keeps these rules). -/
def look (w : World) (f : Fn) (a : Val) (x : Nat) : Option Val :=
  if x = f.param then some a
  else match Assoc.get f.frees x with
    | some s => slotVal w s
    | none => Assoc.get (globalsOf w f) x

/-- Python: evaluation of an expression, given calls and variables (`none`: an error, or no result within the given depth of calls); it is what functions, made by `uninstrument.py` 59 or not,
do. -/
def eval (call : Nat → Option Val → Option Val) (look : Nat → Option Val) : Exp → Option Val
  | .num z => some (.num z)
  | .var x => look x
  | .add a b => match eval call look a, eval call look b with
    | some (.num x), some (.num y) => some (.num (x + y))
    | _, _ => none
  | .call f a => match eval call look f, eval call look a with
    | some (.fn i), some v => call i (some v)
    | _, _ => none
  | .call0 f => match eval call look f with
    | some (.fn i) => call i none
    | _ => none

/-- Python: a call of a function object, with calls nested up to the given depth; see `eval` (`uninstrument.py` 59). -/
def apply : Nat → World → Nat → Option Val → Option Val
  | 0, _, _, _ => none
  | n + 1, w, i, arg => match w.heap[i]? with
    | none => none
    | some f => match arg <|> f.dflt.map (·.2) with
      | none => none
      | some a => eval (apply n w) (look w f a) f.body

/-- Variables of an expression. -/
def vars : Exp → List Nat
  | .num _ => []
  | .var x => [x]
  | .add a b => vars a ++ vars b
  | .call f a => vars f ++ vars a
  | .call0 f => vars f

/-- `obj.__code__.co_names`, `uninstrument.py` 38. -/
def names (f : Fn) : List Nat := (vars f.body).filter fun x => x ≠ f.param ∧ (Assoc.get f.frees x).isNone

/-- The contents of the cells, `uninstrument.py` 33-36. -/
def freeze (w : World) : List (Nat × Slot) → Option (List (Nat × Slot))
  | [] => some []
  | (x, s) :: l => match slotVal w s, freeze w l with
    | some v, some l' => some ((x, .fixed v) :: l')
    | _, _ => none

/-- `global_env.update(global_overrides)`, `uninstrument.py` 54. -/
def update (g : List (Nat × Val)) (o : List (Nat × Val)) : List (Nat × Val) := o.foldl (fun g p => Assoc.set g p.1 p.2) g

/-- The value of the default when the text is executed, `uninstrument.py` 44-59: variables are those of the enclosing functions, if there are any, or global. -/
def dfltVal (w : World) (f : Fn) : Dflt → Option Val
  | .num z => some (.num z)
  | .var x => match Assoc.get f.frees x with
    | some s => slotVal w s
    | none => Assoc.get (globalsOf w f) x

/-- The loop over the names, `uninstrument.py` 38-43; `un`: the recursive call. The result: the state, `seen`, `global_overrides`. -/
def overrides (un : World → List Nat → Nat → World × List Nat × Option Nat) (f : Fn) : List Nat → World → List Nat → World × List Nat × List (Nat × Val)
  | [], w, seen => (w, seen, [])
  | x :: xs, w, seen => match Assoc.get (globalsOf w f) x with
    | some (.fn j) =>
      let r := un w seen j
      let r' := overrides un f xs r.1 r.2.1
      (r'.1, r'.2.1, match r.2.2 with
        | some j' => (x, .fn j') :: r'.2.2
        | none => r'.2.2)
    | _ => overrides un f xs w seen

/-- The new function, `uninstrument.py` 44-66, from the frozen cells and the overrides. `none`: executing the text fails (61-62). -/
def remake (w : World) (f : Fn) (frees : List (Nat × Slot)) (o : List (Nat × Val)) : Option Fn :=
  let f' : Fn := { f with frees := frees, env := if o.isEmpty then f.env else some (update (globalsOf w f) o), traced := false }
  match f.dflt with
  | none => some f'
  | some (d, _) => (dfltVal w f' d).map fun v => { f' with dflt := some (d, v) }

/-- `uninstrument`, `uninstrument.py` 80-105, with `_make_uninstrumented_function`, 19-67. The result: the state, `seen`, the new object. -/
def uninst : Nat → World → List Nat → Nat → World × List Nat × Option Nat
  | 0, w, seen, _ => (w, seen, none)
  | n + 1, w, seen, i =>
    if i ∈ seen then (w, seen, none)
    else match w.heap[i]? with
      | none => (w, i :: seen, none)
      | some f =>
        if f.traced = false then (w, i :: seen, none)
        else match freeze w f.frees with
          | none => (w, i :: seen, none)
          | some frees =>
            let r := overrides (uninst n) f (names f) w (i :: seen)
            match remake r.1 f frees r.2.2 with
            | none => (r.1, r.2.1, none)
            | some f' => ({ r.1 with heap := r.1.heap ++ [f'] }, r.2.1, some r.1.heap.length)

/-- What is given to the function: `argument`, `ipyflow_tracer.py` 1170-1176. `lib`: the function that is called is one of a library (`ext_call_cand` is not `None` and not of the
module `builtins`). -/
def pass (fuel : Nat) (lib : Bool) (w : World) (i : Nat) : World × Nat :=
  if lib && ((w.heap[i]?).map (·.isLambda)).getD false then
    let r := uninst fuel w [] i
    (r.1, r.2.2.getD i)
  else (w, i)

end Verif.Lambda
