import Mathlib.Data.List.Basic
import Mathlib.Data.Finset.Basic
import Mathlib.Logic.Function.Basic
import Verif.Base.Assoc

/-! # Symbols: dependencies, aliases, garbage: model

`data_model/symbol.py` 118-200, 663-758, 792-794, 1019-1133; `data_model/scope.py` 282-450; `flow.py` 630-648;
`data_model/utils/update_protocol.py` 40-43. Symbols, objects, scopes and names are numbers. What happens to timestamps,
namespaces and waiting flags is not modelled here. -/

namespace Verif.Sym
open Verif

/-- `parents` / `children` of a symbol: a dictionary from symbols to times, `data_model/symbol.py` 143-144. -/
abbrev Dict (τ : Type) := List (Nat × List τ)

/-- All symbols. `reg` says which symbols were made and not collected yet (the code has no such table; it is used to state
properties only). `aliases` is `flow().aliases` (a missing key is the empty set), `scope s n` the dictionary of the scope `s`,
`home` and `name` the attributes `containing_scope` and `name` of symbols. -/
structure St (τ : Type) where
  reg : Nat → Bool
  par : Nat → Dict τ
  chi : Nat → Dict τ
  obj : Nat → Nat
  cached : Nat → Option Nat
  tomb : Nat → Bool
  imp : Nat → Bool
  aliases : Nat → Finset Nat
  scope : Nat → Nat → Option Nat
  home : Nat → Nat
  name : Nat → Nat

variable {τ : Type}

/-! ## Dependencies -/

/-- One pass of the loop that drops old parents, `data_model/symbol.py` 1051-1053. -/
def dropParent (x : Nat) (s : St τ) (p : Nat) : St τ :=
  { s with
    chi := Function.update s.chi p (Assoc.erase (s.chi p) x)
    par := Function.update s.par x (Assoc.erase (s.par x) p) }

/-- `d.setdefault(k, []).append(t)`, `data_model/symbol.py` 1058-1059. -/
def appendAt (d : Dict τ) (k : Nat) (t : τ) : Dict τ := Assoc.set d k ((Assoc.get d k).getD [] ++ [t])

/-- One pass of the loop that adds new parents, `data_model/symbol.py` 1055-1059. -/
def addParent (t : τ) (x : Nat) (s : St τ) (p : Nat) : St τ :=
  { s with
    chi := Function.update s.chi p (appendAt (s.chi p) x t)
    par := Function.update s.par x (appendAt (s.par x) p t) }

/-- The effective `overwrite`, `data_model/symbol.py` 1045-1048. -/
def effective (s : St τ) (x : Nat) (D : List Nat) (ow : Bool) : Bool :=
  ow && !decide (x ∈ D) && !D.any (fun d => decide (x ∈ Assoc.keys (s.par d)))

/-- Lines 1050-1059 of `data_model/symbol.py`: `new_deps.discard(self)`, then the two loops. -/
def setDeps (t : τ) (x : Nat) (D : List Nat) (ow : Bool) (s : St τ) : St τ :=
  let D' := D.filter (fun d => d ≠ x)
  let s1 := if ow then ((Assoc.keys (s.par x)).filter (fun p => p ∉ D')).foldl (dropParent x) s else s
  (D'.filter (fun d => d ∉ Assoc.keys (s1.par x))).foldl (addParent t x) s1

/-- `_refresh_cached_obj`, `data_model/symbol.py` 812-817. -/
def refreshCached (x : Nat) (s : St τ) : St τ := { s with cached := Function.update s.cached x (some (s.obj x)) }

/-- `update_deps`, `data_model/symbol.py` 1019-1133; `skip` is the condition of line 1042 (a mutation of a symbol taken to be
immutable). -/
def updateDeps (t : τ) (x : Nat) (D : List Nat) (ow skip : Bool) (s : St τ) : St τ :=
  if s.imp x && decide (s.cached x = some (s.obj x)) then s
  else if skip then s
  else refreshCached x (setDeps t x D (effective s x D ow) s)

/-! ## Objects and aliases -/

/-- `_handle_aliases`, `data_model/symbol.py` 792-794 (`c` is the cached object id). -/
def handleAliases (x c : Nat) (s : St τ) : St τ :=
  let a := Function.update s.aliases c ((s.aliases c).erase x)
  { s with aliases := Function.update a (s.obj x) (insert x (a (s.obj x))) }

/-- The condition of line 737 of `data_model/symbol.py` and what is done then. -/
def moveAlias (x : Nat) (s : St τ) : St τ :=
  match s.cached x with
  | none => s
  | some c => if c ≠ s.obj x then handleAliases x c s else s

/-- `update_obj_ref`, `data_model/symbol.py` 710-758. -/
def updateObjRef (x o : Nat) (refresh : Bool) (s : St τ) : St τ :=
  let s1 := moveAlias x { s with tomb := Function.update s.tomb x false, obj := Function.update s.obj x o }
  if refresh then refreshCached x s1 else s1

/-- `Symbol(...)` and `put`, `data_model/symbol.py` 118-194, `data_model/scope.py` 427-439. -/
def create (x o sc n : Nat) (imp : Bool) (s : St τ) : St τ :=
  { reg := Function.update s.reg x true
    par := Function.update s.par x []
    chi := Function.update s.chi x []
    obj := Function.update s.obj x o
    cached := Function.update s.cached x none
    tomb := Function.update s.tomb x false
    imp := Function.update s.imp x imp
    aliases := Function.update s.aliases o (insert x (s.aliases o))
    scope := Function.update s.scope sc (Function.update (s.scope sc) n (some x))
    home := Function.update s.home x sc
    name := Function.update s.name x n }

/-! ## Garbage -/

/-- `_remove_self_from_aliases`, `data_model/symbol.py` 670-672; object 0 is `None`. -/
def dropAliases (x : Nat) (s : St τ) : St τ :=
  { s with
    aliases := Function.update s.aliases (s.obj x) ((s.aliases (s.obj x)).erase x)
    obj := Function.update s.obj x 0 }

/-- `parent.children.pop(self, None)`, `data_model/symbol.py` 687-688. -/
def popChild (x : Nat) (s : St τ) (p : Nat) : St τ :=
  { s with chi := Function.update s.chi p (Assoc.erase (s.chi p) x) }

/-- `child.parents.pop(self, None)`, `data_model/symbol.py` 689-690. -/
def popParent (x : Nat) (s : St τ) (c : Nat) : St τ :=
  { s with par := Function.update s.par c (Assoc.erase (s.par c) x) }

/-- The loops of `collect_self_garbage`, `data_model/symbol.py` 687-690. -/
def unlink (x : Nat) (s : St τ) : St τ :=
  let s2 := (Assoc.keys (s.par x)).foldl (popChild x) s
  (Assoc.keys (s2.chi x)).foldl (popParent x) s2

/-- The symbol is taken out of its scope by name, `data_model/symbol.py` 691-692. -/
def unname (x : Nat) (s : St τ) : St τ :=
  { s with
    scope := Function.update s.scope (s.home x) (Function.update (s.scope (s.home x)) (s.name x) none)
    reg := Function.update s.reg x false }

/-- `collect_self_garbage`, `data_model/symbol.py` 682-695. -/
def collect (s : St τ) (x : Nat) : St τ := unname x (unlink x (dropAliases x s))

/-- `mark_garbage` of some symbols (those of `flow.py` 634-639 and the members of their namespaces). -/
def mark (M : List Nat) (s : St τ) : St τ := { s with tomb := fun x => s.tomb x || decide (x ∈ M) }

/-- `gc`, `flow.py` 630-642; `all` enumerates `all_symbols()`, each once. -/
def gc (M all : List Nat) (s : St τ) : St τ :=
  (all.filter (fun x => (mark M s).tomb x)).foldl collect (mark M s)

/-! ## What a running notebook does to symbols -/

/-- The operations. -/
inductive Op (τ : Type) where
  /-- A name that has no symbol yet is assigned, `data_model/scope.py` 282-330, 427-440. -/
  | define (x o sc n : Nat) (imp : Bool) (D : List Nat) (t : τ)
  /-- A name with a symbol is assigned, `data_model/scope.py` 379-396. -/
  | assign (x o : Nat) (D : List Nat) (ow : Bool) (t : τ)
  /-- `mutate`, `data_model/symbol.py` 1135-1145; `dups` are the symbols of `update_protocol.py` 68-90, which line 43 puts
  into the alias set of the object. -/
  | mutate (x : Nat) (D : List Nat) (immutable : Bool) (dups : Finset Nat) (t : τ)
  /-- The value of a global name is found changed, `data_model/symbol.py` 1435-1438; also `interactiveshell.py` 527 and
  `ipyflow_tracer.py` 815. -/
  | resync (x o : Nat)
  /-- `del`, `data_model/scope.py` 442-450. -/
  | delete (sc n : Nat) (t : τ)
  /-- An element of a list gets another subscript, `data_model/namespace.py` 287-301. -/
  | remap (sc a b : Nat) (t : τ)
  /-- `gc`, `flow.py` 630-648. -/
  | gc (M all : List Nat)

/-- `delete_symbol_for_name` for the symbol found, `data_model/scope.py` 446-449. -/
def deleteSym (sc n : Nat) (t : τ) (x : Nat) (s : St τ) : St τ :=
  mark [x] (updateDeps t x [] true false
    { s with scope := Function.update s.scope sc (Function.update (s.scope sc) n none) })

/-- `_remap_sym` for the symbol found, `data_model/namespace.py` 288-300. -/
def remapSym (sc a b : Nat) (t : τ) (x : Nat) (s : St τ) : St τ :=
  let s1 := { s with
    scope := Function.update s.scope sc (Function.update (s.scope sc) a none)
    name := Function.update s.name x b
    cached := Function.update s.cached x none }
  let s2 := updateDeps t x [] false false s1
  { s2 with scope := Function.update s2.scope sc (Function.update (s2.scope sc) b (some x)) }

/-- The alias table after `data_model/symbol.py` 1435-1437. -/
def resyncAliases (x o : Nat) (s : St τ) : Nat → Finset Nat :=
  let a := match s.cached x with
    | none => s.aliases
    | some c => Function.update s.aliases c ((s.aliases c).erase x)
  let a := Function.update a (s.obj x) ((a (s.obj x)).erase x)
  Function.update a o (insert x (a o))

/-- One operation. -/
def step (s : St τ) : Op τ → St τ
  | .define x o sc n imp D t => updateDeps t x D true false (create x o sc n imp s)
  | .assign x o D ow t => updateDeps t x D ow false (updateObjRef x o false s)
  | .mutate x D immutable dups t =>
    let s1 := updateDeps t x D false immutable s
    { s1 with aliases := Function.update s1.aliases (s1.obj x) (s1.aliases (s1.obj x) ∪ dups) }
  | .resync x o =>
    updateObjRef x o true { s with aliases := resyncAliases x o s }
  | .delete sc n t =>
    match s.scope sc n with
    | none => s
    | some x => deleteSym sc n t x s
  | .remap sc a b t =>
    match s.scope sc a with
    | none => s
    | some x => remapSym sc a b t x s
  | .gc M all => gc M all s

/-- When an operation can be performed: new symbols are new, symbols that are read or written exist, `D` is a set; a name
without a symbol is given one only if it has none; collections go over all symbols of the alias table. -/
def Allowed (s : St τ) : Op τ → Prop
  | .define x _ sc n _ D _ => s.reg x = false ∧ s.scope sc n = none ∧ D.Nodup ∧ ∀ d ∈ D, s.reg d = true
  | .assign x _ D _ _ => s.reg x = true ∧ D.Nodup ∧ ∀ d ∈ D, s.reg d = true
  | .mutate x D _ dups _ => s.reg x = true ∧ D.Nodup ∧ (∀ d ∈ D, s.reg d = true) ∧ ∀ d ∈ dups, s.reg d = true
  | .resync x _ => s.reg x = true
  | .delete _ _ _ => True
  | .remap _ _ _ _ => True
  | .gc _ all => all.Nodup ∧ ∀ x, x ∈ all ↔ ∃ o, x ∈ s.aliases o

/-- No symbols. -/
def empty : St τ :=
  ⟨fun _ => false, fun _ => [], fun _ => [], fun _ => 0, fun _ => none, fun _ => false, fun _ => false, fun _ => ∅,
    fun _ _ => none, fun _ => 0, fun _ => 0⟩

/-- States that operations lead to. -/
inductive Reachable : St τ → Prop where
  | empty : Reachable empty
  | step {s : St τ} (op : Op τ) : Reachable s → Allowed s op → Reachable (step s op)

end Verif.Sym
