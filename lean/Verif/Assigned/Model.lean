/-!
# The variables that a text is found to assign

Before a cell is run, and after every edit, the kernel analyses its text.  Among other things it
finds the variables that the text assigns (`modified`).  This decides whether a link to a cell that
uses a variable goes away when the assignment is removed from the text.  Which variables are read is
the subject of `Verif.Live`; expressions are reduced here to what matters for assignments.
-/

namespace Verif.Assigned

/-- An expression: nothing of interest; a variable that stands alone; a chain of attributes,
subscripts and calls that starts from a variable (indices and arguments come beside it);
`x := e`; a lambda with defaults `d`; two parts.  Simplified: the variables of comprehensions are
left out, and no function is called that the text itself defines:
core/ipyflow/analysis/live_refs.py 223-224, 281-298, 347-358, 386-390, 435-437. -/
inductive Expr where
  | nil
  | name (x : Nat)
  | chain (x : Nat)
  | walrus (x : Nat) (e : Expr)
  | lam (d : Expr)
  | both (a b : Expr)
deriving DecidableEq, Repr

/-- A target: a variable; an attribute of `base`, called `a` (`lost` if `base` is not a chain that
starts from a variable, like in `(p if c else q).a`); an element of `base`; a tuple of targets:
core/ipyflow/analysis/live_refs.py 246-263. -/
inductive Target where
  | name (x : Nat)
  | attr (base : Expr) (a : Nat) (lost : Bool)
  | sub (base index : Expr)
  | two (t u : Target)
deriving DecidableEq, Repr

/-- What an import binds: a variable; the first part `a` of `import a.b`; all of `from m import *`:
core/ipyflow/analysis/live_refs.py 235-242. -/
inductive Alias where
  | plain (x : Nat)
  | dotted (a : Nat)
  | star (xs : List Nat)
deriving DecidableEq, Repr

/-- A statement.  `assign` has one target for each `=`; `ann` and `annOnly` are annotated targets
with and without value; the expression of `defn` and `cls` are the defaults, bases and decorators:
core/ipyflow/analysis/live_refs.py 226-244, 265-279, 313-345, 417-418.  Simplified: in the
expressions of `except` clauses and in class bodies nothing is assigned. -/
inductive Stmt where
  | skip
  | seq (a b : Stmt)
  | expr (e : Expr)
  | assign (ts : List Target) (e : Expr)
  | aug (t : Target) (e : Expr)
  | ann (t : Target) (e : Expr)
  | annOnly (t : Target)
  | imp (ns : List Alias)
  | ite (e : Expr) (a b : Stmt)
  | whil (e : Expr) (a b : Stmt)
  | forr (t : Target) (e : Expr) (a b : Stmt)
  | withs (e : Expr) (t : Option Target) (a : Stmt)
  | tryy (a h o f : Stmt)
  | defn (f : Nat) (e : Expr)
  | cls (x : Nat) (e : Expr)
  | del (x : Nat)
deriving DecidableEq, Repr

/-- `live` and `dead`, as far as single variables are concerned, and `modified`:
core/ipyflow/analysis/live_refs.py 65-71. -/
structure S where
  live : List Nat
  dead : List Nat
  modified : List Nat
deriving DecidableEq, Repr

/-- A visit with `_in_kill_context`: every variable met is taken as dead, also the first one of a
chain: core/ipyflow/analysis/live_refs.py 97-98, 281-284, 386-390. -/
def kill : Expr → List Nat
  | .nil => []
  | .name x => [x]
  | .chain x => [x]
  | .walrus x e => x :: kill e
  | .lam d => kill d
  | .both a b => kill a ++ kill b

/-- The end of `visit_Assign_impl`: the targets that were not dead before, and do not stand in the
value, become dead: core/ipyflow/analysis/live_refs.py 182 and 205-220.  `dead` is the set after the
value, `seen` what the value and the bases of the targets read, `new` the set after the targets.
Simplified: the comparison of objects of lines 185-204, which is made in any-order mode only, is left
out. -/
def finish (dead seen new : List Nat) : List Nat :=
  dead ++ new.filter fun x => x ∉ dead ∧ x ∉ seen

/-- `visit` of an expression: the variables reported, and the set `dead` after it.  `keep` is
`include_killed_live`: core/ipyflow/analysis/live_refs.py 148-224, 281-298, 347-358, 386-390,
435-437. -/
def visitE (keep : Bool) : Expr → List Nat → List Nat × List Nat
  | .nil, dead => ([], dead)
  | .name x, dead => (if x ∈ dead ∧ keep = false then [] else [x], dead)
  | .chain _, dead => ([], dead)
  | .walrus x e, dead =>
    let r := visitE keep e dead
    (r.1, finish r.2 r.1 [x])
  | .lam d, dead => ([], dead ++ kill d)
  | .both a b, dead =>
    let r := visitE keep a dead
    let q := visitE keep b r.2
    (r.1 ++ q.1, q.2)

/-- The same below an attribute or a subscript (`_inside_attrsub`), where a variable is only the start
of a chain: core/ipyflow/analysis/live_refs.py 116-118, 386-412. -/
def chained : Expr → Expr
  | .nil => .nil
  | .name x => .chain x
  | .chain x => .chain x
  | .walrus x e => .walrus x (chained e)
  | .lam d => .lam d
  | .both a b => .both (chained a) (chained b)

/-- The target of an augmented assignment, visited as an expression: core/ipyflow/analysis/live_refs.py
153-155, 232-233. -/
def load : Target → Expr
  | .name x => .name x
  | .attr base _ _ => chained base
  | .sub base index => .both (chained base) index
  | .two _ _ => .nil

/-- The base of a target, `target.value`, for attributes and subscripts:
core/ipyflow/analysis/live_refs.py 158-161. -/
def base : Target → Expr
  | .attr b _ _ => b
  | .sub b _ => b
  | _ => .nil

/-- `visit_Assign_target`, on `this_assign_dead`; the index of a subscript reports what it reads:
core/ipyflow/analysis/live_refs.py 246-263. -/
def target (keep : Bool) : Target → List Nat → List Nat × List Nat
  | .name x, dead => ([], x :: dead)
  | .attr _ a lost, dead => ([], if lost then a :: dead else dead)
  | .sub _ i, dead => visitE keep i dead
  | .two t u, dead =>
    let r := target keep t dead
    let q := target keep u r.2
    (r.1 ++ q.1, q.2)

/-- All targets of an assignment: core/ipyflow/analysis/live_refs.py 166-169. -/
def targets (keep : Bool) : List Target → List Nat → List Nat × List Nat
  | [], dead => ([], dead)
  | t :: ts, dead =>
    let r := target keep t dead
    let q := targets keep ts r.2
    (r.1 ++ q.1, q.2)

/-- The bases of all targets: core/ipyflow/analysis/live_refs.py 158-161. -/
def bases : List Target → Expr
  | [] => .nil
  | t :: ts => .both (base t) (bases ts)

/-- A visit of an expression as part of a statement: core/ipyflow/analysis/live_refs.py 281-298. -/
def eval (keep : Bool) (e : Expr) (s : S) : S :=
  let r := visitE keep e s.dead
  ⟨s.live ++ r.1, r.2, s.modified⟩

/-- `visit_Assign_impl` without `aug_assign_target`: core/ipyflow/analysis/live_refs.py 148-220. -/
def assign (keep : Bool) (ts : List Target) (e : Expr) (s : S) : S :=
  let r := visitE keep (.both e (bases ts)) s.dead
  let q := targets keep ts r.2
  ⟨s.live ++ q.1 ++ r.1, finish r.2 r.1 q.2, s.modified⟩

/-- `visit_Assign_impl` with `aug_assign_target`: what the target reports is taken as modified:
core/ipyflow/analysis/live_refs.py 153-157, 232-233. -/
def augment (keep : Bool) (t : Target) (e : Expr) (s : S) : S :=
  let r := visitE keep (load t) s.dead
  let q := visitE keep e r.2
  ⟨s.live ++ r.1 ++ q.1, q.2, s.modified ++ r.1⟩

/-- The names in an import; a dotted one stands for a chain, a star is skipped:
core/ipyflow/analysis/live_refs.py 235-242. -/
def importNames : List Alias → List Nat
  | [] => []
  | .plain x :: ns => x :: importNames ns
  | .dotted _ :: ns => importNames ns
  | .star _ :: ns => importNames ns

/-- A target visited in a kill context (`for`, `with`), as an expression:
core/ipyflow/analysis/live_refs.py 275-279, 322-325. -/
def killT : Target → List Nat
  | .name x => [x]
  | .attr b _ _ => kill b
  | .sub b i => kill b ++ kill i
  | .two t u => killT t ++ killT u

/-- The end of `generic_visit_branch_or_loop`: core/ipyflow/analysis/live_refs.py 332-338.  `s` is the
state after the test, `a` and `b` those after the two bodies, which start with nothing dead. -/
def join (s a b : S) : S :=
  ⟨s.live ++ (a.live ++ b.live).filter (fun x => x ∉ s.dead),
   s.dead ++ a.dead.filter (fun x => x ∈ b.dead),
   b.modified ++ a.dead ++ b.dead⟩

/-- `visit` of a statement: core/ipyflow/analysis/live_refs.py 222-345, 417-418. -/
def visit (keep : Bool) : Stmt → S → S
  | .skip, s => s
  | .seq a b, s => visit keep b (visit keep a s)
  | .expr e, s => eval keep e s
  | .assign ts e, s => assign keep ts e s
  | .aug t e, s => augment keep t e s
  | .ann t e, s => assign keep [t] e s
  | .annOnly t, s => assign keep [t] .nil s
  | .imp ns, s => { s with dead := finish s.dead [] (importNames ns) }
  | .ite e a b, s =>
    let s := eval keep e s
    let sa := visit keep a ⟨[], [], s.modified⟩
    join s sa (visit keep b ⟨[], [], sa.modified⟩)
  | .whil e a b, s =>
    let s := eval keep e s
    let sa := visit keep a ⟨[], [], s.modified⟩
    join s sa (visit keep b ⟨[], [], sa.modified⟩)
  | .forr t e a b, s =>
    let s := eval keep e s
    let sa := visit keep a ⟨[], killT t, s.modified⟩
    join s sa (visit keep b ⟨[], [], sa.modified⟩)
  | .withs e t a, s =>
    let s := eval keep e s
    visit keep a { s with dead := s.dead ++ (t.map killT).getD [] }
  | .tryy a h o f, s => visit keep f (visit keep o (visit keep h (visit keep a s)))
  | .defn f e, s => let s := eval keep e s; { s with dead := f :: s.dead }
  | .cls x e, s => let s := eval keep e s; { s with dead := x :: s.dead }
  | .del _, s => s

/-- `compute_live_dead_symbol_refs(text)`: the variables found to be assigned in any case, and those
found to be assigned: core/ipyflow/analysis/live_refs.py 83-95, 663-680. -/
def analyse (keep : Bool) (text : Stmt) : List Nat × List Nat :=
  let s := visit keep text ⟨[], [], []⟩
  (s.dead, s.modified ++ s.dead)

/-- The variables found to be assigned: core/ipyflow/analysis/live_refs.py 94-95. -/
def found (keep : Bool) (text : Stmt) : List Nat := (analyse keep text).2

/-- `_compute_is_static_write`, for a statement that assigns `x`; `outer`: it is not inside another
one: core/ipyflow/data_model/scope.py 231-280. -/
def isStatic (outer : Bool) (stmt : Stmt) (x : Nat) : Bool :=
  outer && match stmt with
    | .assign _ _ => (analyse false stmt).1.contains x
    | .defn _ _ => (analyse false stmt).1.contains x
    | .cls _ _ => (analyse false stmt).1.contains x
    | .imp ns => ns.all fun
      | .plain y => (analyse false stmt).1.contains y
      | .dotted _ => false
      | .star _ => false
    | _ => false

/-- An assignment that is made in a run: the variable, the statement that makes it and whether it is a
statement of the cell itself: core/ipyflow/data_model/scope.py 348-354. -/
structure Write where
  var : Nat
  stmt : Stmt
  outer : Bool
deriving DecidableEq, Repr

/-- Whether `x` is in `static_writes` and whether it is in `dynamic_writes`:
core/ipyflow/data_model/cell.py 120-123. -/
structure Kinds where
  static : Bool
  dynamic : Bool
deriving DecidableEq, Repr

/-- One assignment, up to the end of its statement: core/ipyflow/data_model/scope.py 356-365,
core/ipyflow/tracing/ipyflow_tracer.py 1528-1530.  Simplified: the parts of values are left out, and
no statement assigns a variable twice (see `Verif.Writes`). -/
def write (x : Nat) (k : Kinds) (w : Write) : Kinds :=
  if w.var = x then
    if isStatic w.outer w.stmt x && !k.dynamic then { k with static := true }
    else ⟨false, true⟩
  else k

/-- Is the variable a static write of the run?  core/ipyflow/data_model/scope.py 356-365. -/
def statically (x : Nat) (run : List Write) : Bool :=
  (run.foldl (write x) ⟨false, false⟩).static

/-- Is a link because of `x`, from the cell with this run to a cell that uses `x`, still shown after
the text became another one and was checked?  core/ipyflow/frontend.py 548-554.  The text differs
from the one checked before, so that `modified` is what is found (core/ipyflow/data_model/cell.py
844-849); all else in the rule is as it was before the edit. -/
def shown (keep : Bool) (run : List Write) (text : Stmt) (x : Nat) : Bool :=
  !(statically x run && !(found keep text).contains x)

end Verif.Assigned
