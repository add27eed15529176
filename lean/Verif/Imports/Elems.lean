import Verif.Imports.Lemmas

/-! # Both forms of imports as lists of steps -/

namespace Verif.Imports
open Verif

/-- One name of an import: whether it has no `as`, the module, and the name whose symbol is updated, `statement.py` 611-666. -/
structure Elem where
  named : Bool
  mod : Option Obj
  target : Option String

/-- What is done for one name, `statement.py` 611-666. -/
def elem (w : World) (vars : List (String × Obj)) (now : Nat) (syms : List (Key × Sym)) (e : Elem) : List (Key × Sym) :=
  match e.target with
  | some t => bindName vars t now (maybeModule w e.named now e.mod syms)
  | none => maybeModule w e.named now e.mod syms

/-- A name of `import`, `statement.py` 611-638. -/
def ofImport (w : World) (x : List String × Option String) : Elem :=
  ⟨x.2.isNone, importedModule w x.1, match x.2, x.1 with | some a, _ => some a | none, [c] => some c | none, _ => none⟩

/-- A name of `from`, `statement.py` 611-638. -/
def ofFrom (w : World) (p : List String) (x : String × Option String) : Elem := ⟨x.2.isNone, fromModule w p x.1, some (x.2.getD x.1)⟩

theorem importOne_eq (w : World) (vars : List (String × Obj)) (now : Nat) (syms : List (Key × Sym)) (x : List String × Option String) :
    importOne w vars now syms x = elem w vars now syms (ofImport w x) := by
  obtain ⟨p, a⟩ := x
  cases a with
  | some a => rfl
  | none =>
    match p with
    | [] => rfl
    | [c] => rfl
    | c :: d :: cs => rfl

theorem fromOne_eq (w : World) (vars : List (String × Obj)) (now : Nat) (p : List String) (syms : List (Key × Sym)) (x : String × Option String) :
    fromOne w vars now p syms x = elem w vars now syms (ofFrom w p x) := rfl

/-- The steps of a statement, `statement.py` 611-666. -/
def elems (w : World) : Stmt → List Elem
  | .imports xs => xs.map (ofImport w)
  | .froms p xs => xs.map (ofFrom w p)
  | _ => []

/-- What a statement binds, if nothing is missing. -/
def bound (w : World) : Stmt → Option (List (String × Obj))
  | .imports xs => values (importValue w) xs
  | .froms p xs => values (fromValue w p) xs
  | _ => none

theorem step_import (w : World) (st : St) {s : Stmt} (hi : IsImport s) :
    step w st s = match bound w s with
      | none => ⟨st.vars, st.syms, st.now + 1⟩
      | some bs => ⟨bindAll st.vars bs, (elems w s).foldl (elem w (bindAll st.vars bs) (st.now + 1)) st.syms, st.now + 1⟩ := by
  cases s with
  | imports xs =>
    unfold step bound elems
    dsimp only
    cases values (importValue w) xs with
    | none => rfl
    | some bs =>
      dsimp only
      rw [List.foldl_map]
      congr 1
      exact congrArg (fun f => List.foldl f st.syms xs) (by funext a b; exact importOne_eq _ _ _ _ _)
  | froms p xs =>
    unfold step bound elems
    dsimp only
    cases values (fromValue w p) xs with
    | none => rfl
    | some bs =>
      dsimp only
      rw [List.foldl_map]
      rfl
  | _ => exact hi.elim

theorem values_some {α : Type} {f : α → Option (String × Obj)} : ∀ {xs : List α} {bs : List (String × Obj)}, values f xs = some bs → xs.map f = bs.map some
  | [], bs, h => by simp [values] at h; subst h; rfl
  | x :: xs, bs, h => by
    unfold values at h
    cases hx : f x with
    | none => rw [hx] at h; simp at h
    | some b =>
      rw [hx] at h
      simp only [Option.bind_some, Option.map_eq_some_iff] at h
      obtain ⟨bs', hb, rfl⟩ := h
      simp [hx, values_some hb]

theorem values_isSome {α : Type} {f : α → Option (String × Obj)} : ∀ {xs : List α}, (∀ x ∈ xs, (f x).isSome) → ∃ bs, values f xs = some bs
  | [], _ => ⟨[], rfl⟩
  | x :: xs, h => by
    obtain ⟨b, hb⟩ := Option.isSome_iff_exists.1 (h x List.mem_cons_self)
    obtain ⟨bs, hbs⟩ := values_isSome (xs := xs) (fun y hy => h y (List.mem_cons_of_mem _ hy))
    exact ⟨b :: bs, by simp [values, hb, hbs]⟩

theorem values_all {α : Type} {f : α → Option (String × Obj)} {xs : List α} {bs : List (String × Obj)} (h : values f xs = some bs) : ∀ x ∈ xs, (f x).isSome := by
  intro x hx
  have := values_some h
  have hm : f x ∈ bs.map some := this ▸ List.mem_map_of_mem hx
  obtain ⟨b, _, hb⟩ := List.mem_map.1 hm
  simp [← hb]

theorem importValue_isSome {w : World} {x : List String × Option String} :
    (importValue w x).isSome ↔ x.1 ≠ [] ∧ (∃ o, w.sys x.1 = some o) ∧ (x.2 = none → ∀ c, x.1.head? = some c → ∃ o, w.sys [c] = some o) := by
  obtain ⟨p, a⟩ := x
  cases a with
  | some a =>
    cases p with
    | nil => simp [importValue]
    | cons c cs => simp [importValue, Option.isSome_iff_exists]
  | none =>
    cases p with
    | nil => simp [importValue]
    | cons c cs =>
      simp only [importValue]
      cases h : w.sys (c :: cs) with
      | none => simp
      | some o => simp [Option.isSome_iff_exists]

theorem fromValue_isSome {w : World} {p : List String} {x : String × Option String} :
    (fromValue w p x).isSome ↔ ∃ m, w.sys p = some m ∧ ((∃ o, w.attr m x.1 = some o) ∨ ∃ o, w.sys (p ++ [x.1]) = some o) := by
  unfold fromValue
  cases h : w.sys p with
  | none => simp
  | some m =>
    dsimp only
    cases ha : w.attr m x.1 with
    | some o => simp [ha]
    | none => simp [ha, Option.isSome_iff_exists]

theorem bound_iff {w : World} {s : Stmt} (hi : IsImport s) : (∃ bs, bound w s = some bs) ↔ Succeeds w s := by
  cases s with
  | imports xs =>
    constructor
    · rintro ⟨bs, hb⟩ x hx
      exact importValue_isSome.1 (values_all hb x hx)
    · intro h
      exact values_isSome fun x hx => importValue_isSome.2 (h x hx)
  | froms p xs =>
    constructor
    · rintro ⟨bs, hb⟩ x hx
      exact fromValue_isSome.1 (values_all hb x hx)
    · intro h
      exact values_isSome fun x hx => fromValue_isSome.2 (h x hx)
  | _ => exact hi.elim

theorem importValue_fst {w : World} {x : List String × Option String} {b : String × Obj} (h : importValue w x = some b) :
    importName x = some b.1 := by
  obtain ⟨p, a⟩ := x
  cases a with
  | some a =>
    cases p with
    | nil => simp [importValue] at h
    | cons c cs =>
      simp only [importValue, Option.map_eq_some_iff] at h
      obtain ⟨o, _, rfl⟩ := h
      rfl
  | none =>
    cases p with
    | nil => simp [importValue] at h
    | cons c cs =>
      simp only [importValue] at h
      cases h2 : w.sys (c :: cs) with
      | none => rw [h2] at h; simp at h
      | some o =>
        rw [h2] at h
        simp only [Option.bind_some, Option.map_eq_some_iff] at h
        obtain ⟨o, _, rfl⟩ := h
        rfl

theorem fromValue_fst {w : World} {p : List String} {x : String × Option String} {b : String × Obj} (h : fromValue w p x = some b) : x.2.getD x.1 = b.1 := by
  unfold fromValue at h
  cases hp : w.sys p with
  | none => rw [hp] at h; simp at h
  | some m =>
    rw [hp] at h
    dsimp only at h
    cases ha : w.attr m x.1 with
    | some o => rw [ha] at h; simp at h; rw [← h]
    | none =>
      rw [ha] at h
      simp only [Option.map_eq_some_iff] at h
      obtain ⟨o, _, rfl⟩ := h
      rfl

/-- The names that Python binds are those of the text. -/
theorem bound_names {w : World} {s : Stmt} {bs : List (String × Obj)} (h : bound w s = some bs) : bs.map Prod.fst = boundNames s := by
  cases s with
  | imports xs =>
    have h1 := values_some h
    unfold boundNames
    dsimp only
    clear h
    induction xs generalizing bs with
    | nil => cases bs with
      | nil => rfl
      | cons b bs => simp at h1
    | cons x xs ih =>
      cases bs with
      | nil => simp at h1
      | cons b bs =>
        simp only [List.map_cons, List.cons.injEq] at h1
        rw [List.filterMap_cons, importValue_fst h1.1]
        dsimp only
        rw [List.map_cons, ih h1.2]
  | froms p xs =>
    have h1 := values_some h
    unfold boundNames
    dsimp only
    clear h
    induction xs generalizing bs with
    | nil => cases bs with
      | nil => rfl
      | cons b bs => simp at h1
    | cons x xs ih =>
      cases bs with
      | nil => simp at h1
      | cons b bs =>
        simp only [List.map_cons, List.cons.injEq] at h1
        rw [List.map_cons, List.map_cons, ih h1.2, ← fromValue_fst h1.1]
        obtain ⟨y, a⟩ := x
        cases a <;> rfl
  | _ => simp [bound] at h

theorem get_bindAll (n : String) : ∀ (bs vars : List (String × Obj)), n ∉ bs.map Prod.fst → Assoc.get (bindAll vars bs) n = Assoc.get vars n
  | [], _, _ => rfl
  | b :: bs, vars, h => by
    simp only [List.map_cons, List.mem_cons, not_or] at h
    have := get_bindAll n bs (Assoc.set vars b.1 b.2) h.2
    unfold bindAll at this ⊢
    rw [List.foldl_cons, this, Assoc.get_set_ne _ _ h.1]

theorem get_bindAll_mem (n : String) : ∀ (bs vars : List (String × Obj)), n ∈ bs.map Prod.fst → ∃ o, Assoc.get (bindAll vars bs) n = some o
  | [], _, h => by simp at h
  | b :: bs, vars, h => by
    by_cases hb : n ∈ bs.map Prod.fst
    · exact get_bindAll_mem n bs (Assoc.set vars b.1 b.2) hb
    · simp only [List.map_cons, List.mem_cons] at h
      have hn : n = b.1 := h.resolve_right hb
      have := get_bindAll n bs (Assoc.set vars b.1 b.2) hb
      unfold bindAll at this ⊢
      rw [List.foldl_cons, this, hn, Assoc.get_set_self]
      exact ⟨_, rfl⟩

/-- A step makes a symbol for a package of this name. -/
def Elem.Takes (w : World) (e : Elem) (n : String) : Prop := e.named = true ∧ ∃ o, e.mod = some o ∧ (w.name o).head? = some n

theorem elem_cases (w : World) (now : Nat) (n : String) (syms : List (Key × Sym)) (e : Elem) :
    (Assoc.get (maybeModule w e.named now e.mod syms) (none, .plain n) = Assoc.get syms (none, .plain n) ∨
      (e.Takes w n ∧ ∃ m, w.sys [n] = some m ∧ known syms m = false ∧
        Assoc.get (maybeModule w e.named now e.mod syms) (none, .plain n) = some (updated (Assoc.get syms (none, .plain n)) m .module now))) := by
  rcases get_maybeModule w e.named now n e.mod syms with h | ⟨o, m, h1, h2, h3, h4, h5, h6⟩
  · exact Or.inl h
  · exact Or.inr ⟨⟨h2, o, h1, h3⟩, m, h4, h5, h6⟩

theorem elem_of_not_takes {w : World} {now : Nat} {n : String} {syms : List (Key × Sym)} {e : Elem} (h : ¬ e.Takes w n) :
    Assoc.get (maybeModule w e.named now e.mod syms) (none, .plain n) = Assoc.get syms (none, .plain n) := by
  rcases elem_cases w now n syms e with h' | ⟨h', _⟩
  · exact h'
  · exact (h h').elim

theorem elem_target_ne {w : World} {vars : List (String × Obj)} {now : Nat} {n : String} {syms : List (Key × Sym)} {e : Elem} (h : e.target ≠ some n) :
    Assoc.get (elem w vars now syms e) (none, .plain n) = Assoc.get (maybeModule w e.named now e.mod syms) (none, .plain n) := by
  unfold elem
  cases ht : e.target with
  | none => rfl
  | some t => exact get_bindName_ne _ _ _ (fun hn => h (by rw [ht, hn]))

theorem elem_target {w : World} {vars : List (String × Obj)} {now : Nat} {n : String} {o : Obj} {syms : List (Key × Sym)} {e : Elem} (h : e.target = some n)
    (hv : Assoc.get vars n = some o) : Assoc.get (elem w vars now syms e) (none, .plain n)
      = some (updated (Assoc.get (maybeModule w e.named now e.mod syms) (none, .plain n)) o .import now) := by
  unfold elem
  rw [h]
  exact get_bindName_self _ _ _ hv

theorem elems_kept {w : World} {vars : List (String × Obj)} {now : Nat} {n : String} : ∀ {es : List Elem} {syms : List (Key × Sym)},
    (∀ e ∈ es, e.target ≠ some n ∧ ¬ e.Takes w n) → Assoc.get (es.foldl (elem w vars now) syms) (none, .plain n) = Assoc.get syms (none, .plain n)
  | [], _, _ => rfl
  | e :: es, syms, h => by
    rw [List.foldl_cons, elems_kept (fun e' he' => h e' (List.mem_cons_of_mem _ he')), elem_target_ne (h e List.mem_cons_self).1,
      elem_of_not_takes (h e List.mem_cons_self).2]

/-- Once a name has been dealt with, it stays right as long as no package of that name is taken. -/
theorem elems_right {w : World} {vars : List (String × Obj)} {now : Nat} {n : String} {o : Obj} (hv : Assoc.get vars n = some o) :
    ∀ {es : List Elem} {syms : List (Key × Sym)}, (∀ e ∈ es, ¬ e.Takes w n) → (∃ s, Assoc.get syms (none, .plain n) = some s ∧ s.obj = o ∧ s.ts = now) →
      ∃ s, Assoc.get (es.foldl (elem w vars now) syms) (none, .plain n) = some s ∧ s.obj = o ∧ s.ts = now
  | [], _, _, h => h
  | e :: es, syms, h, ⟨s, h1, h2, h3⟩ => by
    rw [List.foldl_cons]
    refine elems_right hv (fun e' he' => h e' (List.mem_cons_of_mem _ he')) ?_
    by_cases ht : e.target = some n
    · exact ⟨_, elem_target ht hv, updated_obj .., updated_ts ..⟩
    · exact ⟨s, by rw [elem_target_ne ht, elem_of_not_takes (h e List.mem_cons_self), h1], h2, h3⟩

end Verif.Imports
