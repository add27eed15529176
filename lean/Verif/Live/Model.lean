import Mathlib.Data.Finset.Basic
import Mathlib.Data.Finset.Image
import Mathlib.Data.List.Basic
import Verif.Base.Dfs

/-!
# Static live-reference analysis

Models `ComputeLiveSymbolRefs` (`core/ipyflow/analysis/live_refs.py` 54-467) and the reference visitor
(`core/ipyflow/analysis/symbol_ref.py` 152-318) on a fragment of the Python syntax tree.

Simplifications, none of which the analysis can observe unless noted:
* Reactive marks (`$x`), statement counters, source ranges and the `modified` set are left out.
* Constants used as subscripts are strings and integers. A dictionary display is a display of its keys and values.
* A comprehension has one generator with a name as its target. A `try` has one handler without a name.
* An assignment has one or two targets. Displays, argument lists and target lists are built with `pair`.
-/

namespace Verif.Live
open Verif

/-- A constant subscript, or the text of a name or attribute, `symbol_ref.py` 84-100. -/
inductive Key where
  | str (n : Nat)
  | int (z : Int)
  deriving DecidableEq

/-- `Atom`, `symbol_ref.py` 87-150, without the marks. -/
structure Atom where
  value : Key
  callpoint : Bool := false
  subscript : Bool := false
  deriving DecidableEq

/-- The chain of a `SymbolRef`, `symbol_ref.py` 325-362. -/
abbrev Ref := List Atom

/-- The atom of a plain name, `symbol_ref.py` 182-203, 267-268. -/
def nm (x : Nat) : Atom := ⟨.str x, false, false⟩

/-- Syntax tree nodes, as in the module `ast`; see the comments for the kinds of nodes a constructor stands for. -/
inductive Node where
  /-- `Constant` -/
  | const (k : Key)
  /-- `Name` -/
  | name (x : Nat)
  /-- two neighbours in a list of nodes -/
  | pair (a b : Node)
  /-- a node without a method of its own that evaluates its children: `Compare`, `UnaryOp`, `Await`, `FormattedValue` -/
  | cmp (a b : Node)
  /-- `BinOp` -/
  | bin (a b : Node)
  /-- `List` and `Tuple` (with the number of elements), `Set` and `Dict` (without) -/
  | disp (n : Option Nat) (e : Node)
  /-- `JoinedStr` -/
  | fstr (e : Node)
  /-- `IfExp` -/
  | cond (c a b : Node)
  /-- `BoolOp` -/
  | boolop (a b : Node)
  /-- `Attribute` -/
  | attr (e : Node) (a : Nat)
  /-- `Subscript` -/
  | sub (e i : Node)
  /-- `Call`; the second node stands for the arguments -/
  | call (f args : Node)
  /-- `Lambda`, its defaults and its body -/
  | lam (d b : Node)
  /-- `ListComp` and the like: element, target, iterable, condition -/
  | comp (elt : Node) (x : Nat) (iter ifs : Node)
  /-- `NamedExpr` -/
  | walrus (x : Nat) (e : Node)
  /-- `Starred` -/
  | star (e : Node)
  /-- `Pass`; also an absent node -/
  | skip
  /-- two statements, one after the other -/
  | seq (s t : Node)
  /-- `Assign` with one target -/
  | assign (t e : Node)
  /-- `Assign` with two targets -/
  | assign2 (t u e : Node)
  /-- `AugAssign` -/
  | aug (t e : Node)
  /-- `AnnAssign` with a value: target, annotation, value -/
  | ann (t a e : Node)
  /-- `AnnAssign` without a value -/
  | annOnly (t a : Node)
  /-- `Import`, `ImportFrom` binding one name -/
  | imp (x : Nat)
  /-- `If` -/
  | ite (c s t : Node)
  /-- `While` with its `else` -/
  | whil (c s o : Node)
  /-- `For`: target, iterable, body, `else` -/
  | forr (t it s o : Node)
  /-- `With`; `sw`: the context manager may suppress exceptions -/
  | withs (sw : Bool) (e t s : Node)
  /-- `Try`: body, handler, `else`, `finally` -/
  | tryy (s h o f : Node)
  /-- `FunctionDef`: name, parameters, whether some are keyword-only, defaults, defaults of keyword-only parameters and
  annotations, decorators, body -/
  | defn (f : Nat) (ps : List Nat) (kw : Bool) (dflt kwd deco body : Node)
  /-- `ClassDef`: name, bases and decorators, body -/
  | cls (x : Nat) (bases body : Node)
  /-- `Delete` -/
  | del (t : Node)
  /-- `Break` -/
  | brk
  /-- `Continue` -/
  | cont
  /-- `Raise` -/
  | rais (e : Node)

/-- The atom that a subscript contributes; `res` looks names up in the scope if there is one,
`resolve_slice_to_constant` and `SymbolRefVisitor.visit_Subscript`, `symbol_ref.py` 31-81, 244-265. -/
def keyAtoms (res : Nat → Option Key) : Node → Ref
  | .const k => [⟨k, false, true⟩]
  | .name x =>
    match res x with
    | none => []
    | some k => [⟨k, false, true⟩]
  | _ => []

/-- `SymbolRefVisitor`, `symbol_ref.py` 152-318: the chain of a node, root first. `none` is `ValueError`. -/
def chain? (res : Nat → Option Key) : Node → Option Ref
  | .name x => some [nm x]
  | .attr e a => (chain? res e).map (· ++ [⟨.str a, false, false⟩])
  | .sub e i => (chain? res e).map (· ++ keyAtoms res i)
  | .call f _ =>
    match f with
    | .name x => some [⟨.str x, true, false⟩]
    | .attr e a => (chain? res e).map (· ++ [⟨.str a, true, false⟩])
    | .sub e (.const k) => (chain? res e).map (· ++ [⟨k, true, true⟩])
    | .sub e _ => chain? res e
    | _ => some []
  | .const _ => none
  | .disp _ _ => none
  | .fstr _ => none
  | .defn f _ _ _ _ _ _ => some [nm f]
  | .cls x _ _ => some [nm x]
  | _ => some []

/-- The chain of `SymbolRef(node)`: the empty chain after a `ValueError`, `symbol_ref.py` 170-180. -/
def chainOf (res : Nat → Option Key) (e : Node) : Ref := (chain? res e).getD []

/-- `isinstance(_chain_root(node), ast.BinOp)`, `live_refs.py` 42-50. -/
def binRoot : Node → Bool
  | .attr e _ => binRoot e
  | .sub e _ => binRoot e
  | .call f _ => binRoot f
  | .bin _ _ => true
  | _ => false

/-- A `LiveSymbolRef`: the reference and `is_killed`, `symbol_ref.py` 485-496. -/
abbrev LRef := Ref × Bool

/-- Functions defined so far in the analysed code: name, parameters, keyword-only parameters present, body;
`_func_ast_by_name`, `live_refs.py` 77-79, 269. -/
abbrev Funcs := List (Nat × List Nat × Bool × Node)

/-- Settings of an analysis: `include_killed_live`, the names of quasiquotation (`live_refs.py` 398-408), the scope, and the
outcome of the object comparison of lines 177-201, which only happens in any-order mode. -/
structure Par where
  keep : Bool
  quoted : Nat → Bool
  res : Nat → Option Key
  noop : Ref → Ref → Bool

/-- `_in_kill_context` and `_inside_attrsub` (`_skip_simple_names` is always the same), `live_refs.py` 72-74, 116-120. -/
structure Ctx where
  kill : Bool := false
  inside : Bool := false

/-- The attributes that visiting changes: `dead` and `_func_ast_by_name`. -/
structure S where
  dead : Finset Ref
  funcs : Funcs

/-- The new live references of a visit, and the state after it. -/
abbrev Res := Except Err (List LRef × S)

/-- One visit after another. -/
def andThen (r : Res) (f : S → Res) : Res :=
  match r with
  | .error e => .error e
  | .ok (l, s) =>
    match f s with
    | .error e => .error e
    | .ok (l', s') => .ok (l ++ l', s')

/-- `_add_attrsub_to_live_if_eligible`, `live_refs.py` 122-148. -/
def addRef (keep : Bool) (dead : Finset Ref) (c : Ref) : List LRef :=
  if c ∈ dead ∧ keep = false then []
  else match c with
    | [] => []
    | a :: _ =>
      match a.value with
      | .int _ => []
      | .str x =>
        if (c ∈ dead ∨ [a] ∈ dead ∨ [nm x] ∈ dead) ∧ keep = false then []
        else [(c, decide (c ∈ dead ∨ [a] ∈ dead ∨ [nm x] ∈ dead))]

/-- `visit_Name`, `live_refs.py` 281-298. -/
def visitName (P : Par) (c : Ctx) (x : Nat) (s : S) : Res :=
  if c.kill then .ok ([], { s with dead := insert [nm x] s.dead })
  else if c.inside then .ok ([], s)
  else if [nm x] ∈ s.dead ∧ P.keep = false then .ok ([], s)
  else .ok ([([nm x], decide ([nm x] ∈ s.dead))], s)

/-- The `SymbolRef` that `visit_Attribute`, `visit_Subscript` and `visit_Call` report, `live_refs.py` 355-356, 386-387,
410-411. -/
def report (P : Par) (c : Ctx) (e : Node) (s : S) : Res :=
  if c.inside = false ∧ binRoot e = false then .ok (addRef P.keep s.dead (chainOf (fun _ => none) e), s) else .ok ([], s)

/-- Whether the subscript is taken for quasiquotation, `live_refs.py` 397-409. -/
def isQuoted (P : Par) : Node → Bool
  | .name x => P.quoted x
  | _ => false

/-- The elements of a literal that is assigned to a single name, `live_refs.py` 170-181. -/
def literalElts : Node → Node → Finset Ref
  | .name x, .disp (some n) _ => (Finset.range n).image (fun i : Nat => [nm x, ⟨.int (i : Nat), false, true⟩])
  | _, _ => ∅

/-- Whether the right-hand side can make the assignment a no-op, `live_refs.py` 192. -/
def simpleValue : Node → Bool
  | .attr _ _ => true
  | .sub _ _ => true
  | .name _ => true
  | _ => false

/-- The end of `visit_Assign_impl`, `live_refs.py` 182-221. `l` is `this_assign_live`, `s` the state before the targets, `s2`
the state after them (its `dead` is `this_assign_dead`), `lits` the literal elements, `may` the tests of lines 185-193 that
concern the statement. -/
def finishAssign (P : Par) (may : Bool) (lits : Finset Ref) (l : List LRef) (s s2 : S) : List LRef × S :=
  let d := (s2.dead ∪ lits) \ s.dead
  let l' := if may && (match l, d.card with
      | [a], 1 => decide (∃ b ∈ d, P.noop b a.1 = true)
      | _, _ => false) then [] else l
  (l', { s2 with dead := s.dead ∪ d.filter (fun r => r ∉ l'.map Prod.fst) })

/-- Lines 151-221 of `live_refs.py`, with `r1` the visit of value and of the bases of the targets, and `tgt` the visit of the
targets. References in subscripts of targets go straight to `live`. -/
def assignImpl (P : Par) (may : Bool) (lits : Finset Ref) (r1 : Res) (tgt : S → Res) : Res :=
  match r1 with
  | .error e => .error e
  | .ok (l, s) =>
    match tgt s with
    | .error e => .error e
    | .ok (l2, s2) => .ok (l2 ++ (finishAssign P may lits l s s2).1, (finishAssign P may lits l s s2).2)

/-- The end of `generic_visit_branch_or_loop`, `live_refs.py` 332-338. -/
def finishBranch (d : Finset Ref) (l1 l2 : List LRef) (d1 d2 : Finset Ref) (fs : Funcs) : List LRef × S :=
  ((l1 ++ l2).filter (fun r => r.1 ∉ d), ⟨d ∪ (d1 ∩ d2), fs⟩)

/-- The bodies of a branch or loop, `live_refs.py` 320-338. `tgt` visits the target with the dead set of the body, `body` and
`orelse` the two lists of statements; `s` is the state after the test and the iterable. -/
def branch (tgt body orelse : S → Res) (s : S) : Res :=
  match tgt ⟨∅, s.funcs⟩ with
  | .error e => .error e
  | .ok (l0, s0) =>
    match body s0 with
    | .error e => .error e
    | .ok (l1, s1) =>
      match orelse ⟨∅, s1.funcs⟩ with
      | .error e => .error e
      | .ok (l2, s2) =>
        .ok (l0 ++ (finishBranch s.dead l1 l2 s1.dead s2.dead s2.funcs).1,
          (finishBranch s.dead l1 l2 s1.dead s2.dead s2.funcs).2)

/-- `killed_context`, `live_refs.py` 101-113, for a comprehension with target `x`. -/
def killed (x : Nat) (inner : S → Res) (s : S) : Res :=
  match inner { s with dead := insert [nm x] s.dead } with
  | .error e => .error e
  | .ok (l, s1) => .ok (l, { s1 with dead := s1.dead \ (if [nm x] ∈ s.dead then ∅ else {[nm x]}) })

/-- Calls of functions defined in the same code, `live_refs.py` 359-383. `callF` visits the body. -/
def callKnown (callF : Nat → Funcs → Except Err (List LRef)) (f : Node) (s : S) : Res :=
  match f with
  | .name x =>
    if x ∈ s.funcs.map Prod.fst then
      match callF x s.funcs with
      | .error e => .error e
      | .ok l => .ok (l, s)
    else .ok ([], s)
  | _ => .ok ([], s)

mutual

/-- `visit`, `live_refs.py` 222-452. -/
def visit (P : Par) (callF : Nat → Funcs → Except Err (List LRef)) : Node → Ctx → S → Res
  | .const _, _, s => .ok ([], s)
  | .name x, c, s => visitName P c x s
  | .pair a b, c, s => andThen (visit P callF a c s) (visit P callF b c)
  | .cmp a b, c, s => andThen (visit P callF a c s) (visit P callF b c)
  | .bin a b, c, s => andThen (visit P callF a { c with inside := false } s) (visit P callF b { c with inside := false })
  | .disp _ e, c, s => visit P callF e { c with inside := false } s
  | .fstr e, c, s => visit P callF e c s
  | .cond t a b, c, s => andThen (andThen (visit P callF t c s) (visit P callF a c)) (visit P callF b c)
  | .boolop a b, c, s => andThen (visit P callF a c s) (visit P callF b c)
  | .attr e a, c, s => andThen (report P c (.attr e a) s) (visit P callF e { c with inside := true })
  | .sub e i, c, s =>
    if isQuoted P e then .ok ([], s)
    else andThen (andThen (report P c (.sub e i) s) (visit P callF e { c with inside := true }))
      (visit P callF i { c with inside := false })
  | .call f args, c, s =>
    andThen (andThen (andThen (visit P callF args { c with inside := false } s) (report P c (.call f args)))
      (visit P callF f { c with inside := true })) (callKnown callF f)
  | .lam d _, c, s => visit P callF d { c with kill := true } s
  | .comp elt x iter ifs, c, s =>
    killed x (fun s => andThen (andThen (visit P callF elt c s) (visit P callF iter c)) (visit P callF ifs c)) s
  | .walrus x e, c, s =>
    assignImpl P (simpleValue e) (literalElts (.name x) e) (visit P callF e c s)
      (fun s => .ok ([], { s with dead := insert [nm x] s.dead }))
  | .star e, c, s => visit P callF e c s
  | .skip, _, s => .ok ([], s)
  | .seq a b, c, s => andThen (visit P callF a c s) (visit P callF b c)
  | .assign t e, c, s =>
    assignImpl P (simpleValue e) (literalElts t e) (andThen (visit P callF e c s) (visitBase P callF t c))
      (visitTarget P callF t)
  | .assign2 t u e, c, s =>
    assignImpl P (simpleValue e) ∅
      (andThen (andThen (visit P callF e c s) (visitBase P callF t c)) (visitBase P callF u c))
      (fun s => andThen (visitTarget P callF t s) (visitTarget P callF u))
  | .aug t e, c, s =>
    assignImpl P false ∅ (andThen (visit P callF t c s) (visit P callF e c)) (fun s => .ok ([], s))
  | .ann t _ e, c, s =>
    assignImpl P (simpleValue e) (literalElts t e) (andThen (visit P callF e c s) (visitBase P callF t c))
      (visitTarget P callF t)
  | .annOnly t _, c, s => assignImpl P false ∅ (visitBase P callF t c s) (visitTarget P callF t)
  | .imp x, _, s => assignImpl P false ∅ (.ok ([], s)) (fun s => .ok ([], { s with dead := insert [nm x] s.dead }))
  | .ite t a b, c, s =>
    andThen (visit P callF t c s) (branch (fun s => .ok ([], s)) (visit P callF a c) (visit P callF b c))
  | .whil t a b, c, s =>
    andThen (visit P callF t c s) (branch (fun s => .ok ([], s)) (visit P callF a c) (visit P callF b c))
  | .forr t it a b, c, s =>
    andThen (visit P callF it c s)
      (branch (visit P callF t { c with kill := true }) (visit P callF a c) (visit P callF b c))
  | .withs _ e t a, c, s =>
    andThen (andThen (visit P callF e c s) (visit P callF t { c with kill := true })) (visit P callF a c)
  | .tryy a h o f, c, s =>
    andThen (andThen (andThen (visit P callF a c s) (visit P callF h c)) (visit P callF o c)) (visit P callF f c)
  | .defn f ps kw dflt _ deco body, c, s =>
    match andThen (visit P callF dflt c s) (visit P callF deco c) with
    | .error e => .error e
    | .ok (l, s1) => .ok (l, ⟨insert [nm f] s1.dead, (f, ps, kw, body) :: s1.funcs⟩)
  | .cls x bases _, c, s =>
    match visit P callF bases c s with
    | .error e => .error e
    | .ok (l, s1) => .ok (l, { s1 with dead := insert [nm x] s1.dead })
  | .del _, _, s => .ok ([], s)
  | .brk, _, s => .ok ([], s)
  | .cont, _, s => .ok ([], s)
  | .rais e, c, s => visit P callF e c s

/-- The visit of `target.value` for attribute and subscript targets, `live_refs.py` 161-164. -/
def visitBase (P : Par) (callF : Nat → Funcs → Except Err (List LRef)) : Node → Ctx → S → Res
  | .attr e _, c, s => visit P callF e c s
  | .sub e _, c, s => visit P callF e c s
  | _, _, s => .ok ([], s)

/-- `visit_Assign_target`, `live_refs.py` 246-263, on the set `this_assign_dead`. -/
def visitTarget (P : Par) (callF : Nat → Funcs → Except Err (List LRef)) : Node → S → Res
  | .name x, s => .ok ([], { s with dead := insert [nm x] s.dead })
  | .attr e a, s => .ok ([], { s with dead := insert (chainOf P.res (.attr e a)) s.dead })
  | .sub e i, s => visit P callF i {} { s with dead := insert (chainOf P.res (.sub e i)) s.dead }
  | .disp _ e, s => visitTarget P callF e s
  | .pair a b, s => andThen (visitTarget P callF a s) (visitTarget P callF b)
  | .star e, s => visitTarget P callF e s
  | _, s => .ok ([], s)

end

/-- The visit of the body of a called function, with at most `n` calls inside each other, `live_refs.py` 364-382. The
defaults of keyword-only parameters are in the chain of line 368-373 and have no attribute `arg`. -/
def callBody (P : Par) : Nat → Nat → Funcs → Except Err (List LRef)
  | 0, _, _ => .error .fuel
  | n + 1, f, fs =>
    match fs.find? (fun d => d.1 == f) with
    | none => .error .crash
    | some (_, ps, kw, body) =>
      if kw then .error .crash
      else match visit { P with res := fun _ => none } (callBody { P with res := fun _ => none } n) body {}
          ⟨(ps.map (fun p => [nm p])).toFinset, fs⟩ with
        | .error e => .error e
        | .ok (l, _) => .ok l

/-- `compute_live_dead_symbol_refs(code)`, `live_refs.py` 86-98, 663-680, with at most `n` calls inside each other. -/
def analyse (P : Par) (n : Nat) (code : Node) : Except Err (List LRef × Finset Ref) :=
  match visit P (callBody P n) code {} ⟨∅, []⟩ with
  | .error e => .error e
  | .ok (l, s) => .ok (l, s.dead)

end Verif.Live
