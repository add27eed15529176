import Mathlib.Data.List.Basic
import Mathlib.Data.List.Nodup

/-!
# C71: imports in the exported graph

Models `get_import_string`, `imported_module`, `imported_symbol_original_name` (`data_model/symbol.py` 454-500, 517-537), and which names
get an import symbol (`data_model/statement.py` 611-648 with `analysis/symbol_edges.py` 108-113).

A dotted name is a list of names. The text of an import statement is identified with its syntax tree. -/

namespace Verif.Dag.Import

/-- `ast.alias`: a dotted name and the name after `as`. -/
structure Alias where
  name : List Nat
  asname : Option Nat
  deriving DecidableEq, Repr

/-- `ast.Import` and `ast.ImportFrom` (without relative ones, `data_model/symbol.py` 469-471). -/
inductive Stmt where
  | imp (names : List Alias)
  | from (module : List Nat) (names : List Alias)
  deriving DecidableEq, Repr

/-- `alias.asname or alias.name` (`data_model/symbol.py` 459, 491; `analysis/symbol_edges.py` 109-113), as a dotted name. -/
def Alias.target (a : Alias) : List Nat :=
  match a.asname with
  | some n => [n]
  | none => a.name

/-- The names that get an import symbol: targets without a dot (`data_model/statement.py` 646-648). -/
def symbols (names : List Alias) : List Nat := names.filterMap fun a => match a.target with
  | [n] => some n
  | _ => none

/-- `imported_module` for `import` and `imported_symbol_original_name` for `from` (`data_model/symbol.py` 457-464, 489-497): the name in the
first alias with the given target; `ValueError` (`none`) if there is none. -/
def original (names : List Alias) (n : Nat) : Option (List Nat) := (names.find? fun a => a.target = [n]).map Alias.name

/-- `get_import_string`, `data_model/symbol.py` 517-531. -/
def importString (s : Stmt) (n : Nat) : Option Stmt :=
  match s with
  | .imp names => (original names n).map fun m => if m = [n] then .imp [⟨m, none⟩] else .imp [⟨m, some n⟩]
  | .from module names => (original names n).map fun m => if m = [n] then .from module [⟨m, none⟩] else .from module [⟨m, some n⟩]

/-! ## Specification: what Python binds -/

/-- What a name can be bound to: a module, or a member of a module. -/
inductive Val where
  | module (path : List Nat)
  | member (module path : List Nat)
  deriving DecidableEq

/-- The name bound by an alias of `import`, and its value: `import a.b` binds `a`, `import a.b as c` binds `c` to `a.b`. -/
def bindImp (a : Alias) : Option (Nat × Val) :=
  match a.asname with
  | some n => some (n, .module a.name)
  | none => a.name.head?.map fun h => (h, .module [h])

/-- The name bound by an alias of `from module import`. -/
def bindFrom (module : List Nat) (a : Alias) : Option (Nat × Val) :=
  match a.asname with
  | some n => some (n, .member module a.name)
  | none => a.name.head?.map fun h => (h, .member module a.name)

/-- The bindings made by a statement, in order. -/
def bindings : Stmt → List (Nat × Val)
  | .imp names => names.filterMap bindImp
  | .from module names => names.filterMap (bindFrom module)

/-- What the name is bound to after the statement: the last binding. -/
def bound (s : Stmt) (n : Nat) : Option Val := ((bindings s).reverse.find? fun p => p.1 = n).map Prod.snd

/-! ## C71 -/

theorem bound_of_mem {s : Stmt} (h : ((bindings s).map Prod.fst).Nodup) {n : Nat} {v : Val} (hm : (n, v) ∈ bindings s) :
    bound s n = some v := by
  unfold bound
  cases hf : (bindings s).reverse.find? fun p => p.1 = n with
  | none =>
    have := List.find?_eq_none.1 hf (n, v) (List.mem_reverse.2 hm)
    simp at this
  | some p =>
    have h1 : p ∈ bindings s := List.mem_reverse.1 (List.mem_of_find?_eq_some hf)
    have h2 := List.find?_some hf
    simp only [decide_eq_true_eq] at h2
    have h3 : p = (n, v) := List.inj_on_of_nodup_map h h1 hm h2
    rw [h3]; rfl

/-- **C71** (partial): if an import statement binds no name twice, then for each import symbol it makes there is an import string, and
executing that string alone binds the name, and no other name, to what the statement bound it to. Missing: statements that bind a
name twice. -/
theorem import_partial (s : Stmt) (names : List Alias) (hs : s = .imp names ∨ ∃ m, s = .from m names)
    (hb : ((bindings s).map Prod.fst).Nodup) (n : Nat) (hn : n ∈ symbols names) :
    ∃ t, importString s n = some t ∧ (bound s n).isSome ∧ bound t n = bound s n ∧ ∀ m, m ≠ n → bound t m = none := by
  unfold symbols at hn
  rw [List.mem_filterMap] at hn
  obtain ⟨a, ha, hat⟩ := hn
  have hat' : a.target = [n] := by
    split at hat
    · injection hat with hat; subst hat; assumption
    · cases hat
  obtain ⟨b, hb1⟩ : ∃ b, (names.find? fun a => a.target = [n]) = some b := by
    cases hf : names.find? fun a => a.target = [n] with
    | none => exact absurd hat' (by simpa using List.find?_eq_none.1 hf a ha)
    | some b => exact ⟨b, rfl⟩
  have hb2 : b.target = [n] := by simpa using List.find?_some hb1
  have hbm : b ∈ names := List.mem_of_find?_eq_some hb1
  have ho : original names n = some b.name := by unfold original; rw [hb1]; rfl
  obtain ⟨bn, bas⟩ := b
  have hsingle : ∀ (t : Stmt) (v : Val), bindings t = [(n, v)] → bound t n = some v ∧ ∀ m, m ≠ n → bound t m = none := by
    intro t v h
    unfold bound
    rw [h]
    refine ⟨by simp, fun m hm => ?_⟩
    simp [Ne.symm hm]
  have hcase : ∃ t v, importString s n = some t ∧ bindings t = [(n, v)] ∧ (n, v) ∈ bindings s := by
    rcases hs with rfl | ⟨m, rfl⟩
    · cases bas with
      | none =>
        simp only [Alias.target] at hb2
        subst hb2
        refine ⟨.imp [⟨[n], none⟩], .module [n], by simp [importString, ho], rfl, ?_⟩
        exact List.mem_filterMap.2 ⟨_, hbm, rfl⟩
      | some k =>
        simp only [Alias.target, List.cons.injEq, and_true] at hb2
        subst hb2
        refine ⟨if bn = [k] then .imp [⟨bn, none⟩] else .imp [⟨bn, some k⟩], .module bn, by simp [importString, ho], ?_, ?_⟩
        · split
          · rename_i h; subst h; rfl
          · rfl
        · exact List.mem_filterMap.2 ⟨_, hbm, rfl⟩
    · cases bas with
      | none =>
        simp only [Alias.target] at hb2
        subst hb2
        refine ⟨.from m [⟨[n], none⟩], .member m [n], by simp [importString, ho], rfl, ?_⟩
        exact List.mem_filterMap.2 ⟨_, hbm, rfl⟩
      | some k =>
        simp only [Alias.target, List.cons.injEq, and_true] at hb2
        subst hb2
        refine ⟨if bn = [k] then .from m [⟨bn, none⟩] else .from m [⟨bn, some k⟩], .member m bn, by simp [importString, ho], ?_, ?_⟩
        · split
          · rename_i h; subst h; rfl
          · rfl
        · exact List.mem_filterMap.2 ⟨_, hbm, rfl⟩
  obtain ⟨t, v, h1, h2, h3⟩ := hcase
  have h4 := bound_of_mem hb h3
  obtain ⟨h5, h6⟩ := hsingle t v h2
  exact ⟨t, h1, by rw [h4]; rfl, by rw [h5, h4], h6⟩

/-- `import a, b.c as d`: the names 0 and 3 get symbols; the string for `d` is `import b.c as d`. -/
example : let s : Stmt := .imp [⟨[0], none⟩, ⟨[1, 2], some 3⟩]
    ((bindings s).map Prod.fst).Nodup ∧ 3 ∈ symbols [⟨[0], none⟩, ⟨[1, 2], some 3⟩] ∧
      importString s 3 = some (.imp [⟨[1, 2], some 3⟩]) := by decide

/-- **C71 fails** for statements that bind a name twice: after `from m import a as x, b as x` the name is `m.b`, but the exported string is
`from m import a as x`. Likewise after `import b as a, a.c`, where `a` is the package `a` and the string is `import b as a`. -/
theorem import_violated :
    (∀ (m : List Nat) (a b x : Nat), a ≠ x → b ≠ a →
      let s : Stmt := .from m [⟨[a], some x⟩, ⟨[b], some x⟩]
      importString s x = some (.from m [⟨[a], some x⟩]) ∧ bound s x = some (.member m [b]) ∧
        bound (.from m [⟨[a], some x⟩]) x = some (.member m [a])) ∧
    ∀ a b c : Nat, a ≠ b →
      let s : Stmt := .imp [⟨[b], some a⟩, ⟨[a, c], none⟩]
      a ∈ symbols [⟨[b], some a⟩, ⟨[a, c], none⟩] ∧ importString s a = some (.imp [⟨[b], some a⟩]) ∧
        bound s a = some (.module [a]) ∧ bound (.imp [⟨[b], some a⟩]) a = some (.module [b]) := by
  refine ⟨fun m a b x hax _ => ?_, fun a b c hab => ?_⟩
  · simp [importString, original, Alias.target, bound, bindings, bindFrom, hax]
  · simp [symbols, importString, original, Alias.target, bound, bindings, bindImp, hab.symm]

end Verif.Dag.Import
