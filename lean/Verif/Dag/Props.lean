import Verif.Dag.Model
import Mathlib.Logic.Relation
import Mathlib.Data.List.Induction

/-! # C46, C69, C70: the exported graph -/

namespace Verif.Dag
open Verif

/-! ## Lemmas on sets -/

theorem mem_add {α : Type} [DecidableEq α] {a b : α} {l : List α} : a ∈ add b l ↔ a = b ∨ a ∈ l := by
  unfold add
  split
  · constructor
    · exact .inr
    · rintro (rfl | h)
      · assumption
      · exact h
  · rw [List.mem_append, List.mem_singleton]; exact or_comm

theorem nodup_add {α : Type} [DecidableEq α] {a : α} {l : List α} (h : l.Nodup) : (add a l).Nodup := by
  unfold add
  split
  · exact h
  · rename_i hn
    rw [List.nodup_append]
    refine ⟨h, by simp, fun x hx y hy => ?_⟩
    rw [List.mem_singleton] at hy
    subst hy
    exact fun e => hn (e ▸ hx)

theorem mem_foldl_add {α : Type} [DecidableEq α] (l : List α) (acc : List α) (a : α) :
    a ∈ l.foldl (fun l n => add n l) acc ↔ a ∈ acc ∨ a ∈ l := by
  induction l generalizing acc with
  | nil => simp
  | cons b l ih =>
    rw [List.foldl_cons, ih, mem_add, List.mem_cons]
    clear ih
    tauto

theorem nodup_foldl_add {α : Type} [DecidableEq α] (l : List α) (acc : List α) (h : acc.Nodup) :
    (l.foldl (fun l n => add n l) acc).Nodup := by
  induction l generalizing acc with
  | nil => exact h
  | cons b l ih => exact ih _ (nodup_add h)

theorem mem_valuesAt {α : Type} {l : List (Int × α)} {c : Int} {a : α} : a ∈ valuesAt l c ↔ (c, a) ∈ l := by
  unfold valuesAt
  rw [List.mem_map]
  constructor
  · rintro ⟨⟨c', a'⟩, h, rfl⟩
    rw [List.mem_filter] at h
    have h2 := h.2
    simp only [decide_eq_true_eq] at h2
    subst h2
    exact h.1
  · intro h
    exact ⟨(c, a), List.mem_filter.2 ⟨h, by simp⟩, rfl⟩

/-! ## Specification -/

/-- A use of `x` that the tables contain: recorded at `u`, version `v`. -/
def Uses (s : St) (x : Nat) (u v : Timestamp) : Prop := (u, v) ∈ (s x).used ∨ (u, v) ∈ (s x).live

/-- The export shows `x` under the name of `y`. -/
def Shown (info : Nat → Info) (x y : Nat) : Prop :=
  (info x).top = some y ∧ (info y).global = true ∧ (info y).anon = false ∧ (info y).underscore = false ∧
    (info y).covered = false

/-- Some shown value that is no import is used in cell `c`, in a version of another cell `p`. -/
def Edge (info : Nat → Info) (s : St) (all : List Nat) (p c : Int) : Prop :=
  ∃ x ∈ all, ∃ y u v, Shown info x y ∧ (info y).imp = false ∧ Uses s x u v ∧ u.cellNum = c ∧ v.cellNum = p ∧ p ≠ c

theorem topOf_eq (info : Nat → Info) (x y : Nat) : topOf info x = some y ↔ Shown info x y := by
  unfold topOf Shown
  cases (info x).top with
  | none => simp
  | some z =>
    simp only
    constructor
    · intro h
      split at h
      · cases h
      · rename_i h1
        split at h
        · cases h
        · rename_i h2
          injection h with h
          subst h
          simp only [Bool.or_eq_true, Bool.not_eq_true', not_or, Bool.not_eq_false, Bool.not_eq_true] at h1
          simp only [Bool.not_eq_true] at h2
          exact ⟨rfl, h1.1.1, h1.1.2, h1.2, h2⟩
    · rintro ⟨h0, h1, h2, h3, h4⟩
      injection h0 with h0
      subst h0
      simp [h1, h2, h3, h4]

/-! ## What is collected -/

/-- The tables of the export say what they should. -/
structure Good (info : Nat → Info) (fuel : Nat) (s : St) (all : List Nat) (a : Acc) : Prop where
  par : ∀ c p, (c, p) ∈ a.parents ↔ Edge info s all p c
  chi : ∀ p c, (p, c) ∈ a.children ↔ Edge info s all p c
  inp : ∀ c y, (c, y) ∈ a.inputs ↔
    ∃ x ∈ all, ∃ u v, Shown info x y ∧ (info y).imp = false ∧ Uses s x u v ∧ u.cellNum = c ∧ v.cellNum ≠ c
  out : ∀ c y, (c, y) ∈ a.outputs ↔
    ∃ x ∈ all, Shown info x y ∧ (info y).imp = false ∧
      ((∃ u v, Uses s x u v ∧ v.cellNum = c ∧ u.cellNum ≠ c) ∨ ∃ t ∈ updatedTimes info fuel s x, t.cellNum = c)
  imp : ∀ c y, (c, y) ∈ a.imports ↔ ∃ x ∈ all, ∃ u v, Shown info x y ∧ (info y).imp = true ∧ Uses s x u v ∧ u.cellNum = c
  nodup : a.parents.Nodup ∧ a.children.Nodup ∧ a.imports.Nodup

theorem foldl_addUse (y : Nat) (l : List (Timestamp × Timestamp)) (a : Acc) :
    (∀ c p, (c, p) ∈ (l.foldl (addUse false y) a).parents ↔
      (c, p) ∈ a.parents ∨ ∃ q ∈ l, q.1.cellNum = c ∧ q.2.cellNum = p ∧ p ≠ c) ∧
    (∀ p c, (p, c) ∈ (l.foldl (addUse false y) a).children ↔
      (p, c) ∈ a.children ∨ ∃ q ∈ l, q.1.cellNum = c ∧ q.2.cellNum = p ∧ p ≠ c) ∧
    (∀ c z, (c, z) ∈ (l.foldl (addUse false y) a).inputs ↔
      (c, z) ∈ a.inputs ∨ z = y ∧ ∃ q ∈ l, q.1.cellNum = c ∧ q.2.cellNum ≠ c) ∧
    (∀ c z, (c, z) ∈ (l.foldl (addUse false y) a).outputs ↔
      (c, z) ∈ a.outputs ∨ z = y ∧ ∃ q ∈ l, q.2.cellNum = c ∧ q.1.cellNum ≠ c) ∧
    (l.foldl (addUse false y) a).imports = a.imports ∧
    (a.parents.Nodup → (l.foldl (addUse false y) a).parents.Nodup) ∧
    (a.children.Nodup → (l.foldl (addUse false y) a).children.Nodup) := by
  induction l generalizing a with
  | nil => simp
  | cons q l ih =>
    rw [List.foldl_cons]
    obtain ⟨h1, h2, h3, h4, h5, h6, h7⟩ := ih (addUse false y a q)
    by_cases hq : q.1.cellNum = q.2.cellNum
    · have ha : addUse false y a q = a := by simp [addUse, hq]
      rw [ha] at h1 h2 h3 h4 h5 h6 h7 ⊢
      refine ⟨fun c p => ?_, fun p c => ?_, fun c z => ?_, fun c z => ?_, h5, h6, h7⟩
      · rw [h1]
        simp only [List.mem_cons, exists_eq_or_imp]
        constructor
        · rintro (h | h)
          · exact .inl h
          · exact .inr (.inr h)
        · rintro (h | ⟨rfl, rfl, h⟩ | h)
          · exact .inl h
          · exact absurd hq.symm h
          · exact .inr h
      · rw [h2]
        simp only [List.mem_cons, exists_eq_or_imp]
        constructor
        · rintro (h | h)
          · exact .inl h
          · exact .inr (.inr h)
        · rintro (h | ⟨rfl, rfl, h⟩ | h)
          · exact .inl h
          · exact absurd hq.symm h
          · exact .inr h
      · rw [h3]
        simp only [List.mem_cons, exists_eq_or_imp]
        constructor
        · rintro (h | ⟨hz, h⟩)
          · exact .inl h
          · exact .inr ⟨hz, .inr h⟩
        · rintro (h | ⟨hz, ⟨rfl, h⟩ | h⟩)
          · exact .inl h
          · exact absurd hq.symm h
          · exact .inr ⟨hz, h⟩
      · rw [h4]
        simp only [List.mem_cons, exists_eq_or_imp]
        constructor
        · rintro (h | ⟨hz, h⟩)
          · exact .inl h
          · exact .inr ⟨hz, .inr h⟩
        · rintro (h | ⟨hz, ⟨rfl, h⟩ | h⟩)
          · exact .inl h
          · exact absurd hq h
          · exact .inr ⟨hz, h⟩
    · have hq' : q.2.cellNum ≠ q.1.cellNum := fun e => hq e.symm
      simp only [addUse, Bool.false_eq_true, if_false, ne_eq, hq, not_false_eq_true, if_true] at h1 h2 h3 h4 h5 h6 h7 ⊢
      refine ⟨fun c p => ?_, fun p c => ?_, fun c z => ?_, fun c z => ?_, h5, fun h => h6 (nodup_add h),
        fun h => h7 (nodup_add h)⟩
      · rw [h1, mem_add]
        simp only [List.mem_cons, exists_eq_or_imp, Prod.mk.injEq]
        constructor
        · rintro ((⟨rfl, rfl⟩ | h) | h)
          · exact .inr (.inl ⟨rfl, rfl, hq'⟩)
          · exact .inl h
          · exact .inr (.inr h)
        · rintro (h | ⟨rfl, rfl, h⟩ | h)
          · exact .inl (.inr h)
          · exact .inl (.inl ⟨rfl, rfl⟩)
          · exact .inr h
      · rw [h2, mem_add]
        simp only [List.mem_cons, exists_eq_or_imp, Prod.mk.injEq]
        constructor
        · rintro ((⟨rfl, rfl⟩ | h) | h)
          · exact .inr (.inl ⟨rfl, rfl, hq'⟩)
          · exact .inl h
          · exact .inr (.inr h)
        · rintro (h | ⟨rfl, rfl, h⟩ | h)
          · exact .inl (.inr h)
          · exact .inl (.inl ⟨rfl, rfl⟩)
          · exact .inr h
      · rw [h3, mem_add]
        simp only [List.mem_cons, exists_eq_or_imp, Prod.mk.injEq]
        constructor
        · rintro ((⟨rfl, rfl⟩ | h) | ⟨hz, h⟩)
          · exact .inr ⟨rfl, .inl ⟨rfl, hq'⟩⟩
          · exact .inl h
          · exact .inr ⟨hz, .inr h⟩
        · rintro (h | ⟨rfl, ⟨rfl, h⟩ | h⟩)
          · exact .inl (.inr h)
          · exact .inl (.inl ⟨rfl, rfl⟩)
          · exact .inr ⟨rfl, h⟩
      · rw [h4, mem_add]
        simp only [List.mem_cons, exists_eq_or_imp, Prod.mk.injEq]
        constructor
        · rintro ((⟨rfl, rfl⟩ | h) | ⟨hz, h⟩)
          · exact .inr ⟨rfl, .inl ⟨rfl, hq⟩⟩
          · exact .inl h
          · exact .inr ⟨hz, .inr h⟩
        · rintro (h | ⟨rfl, ⟨rfl, h⟩ | h⟩)
          · exact .inl (.inr h)
          · exact .inl (.inl ⟨rfl, rfl⟩)
          · exact .inr ⟨rfl, h⟩

theorem foldl_addUse_imp (y : Nat) (l : List (Timestamp × Timestamp)) (a : Acc) :
    (∀ c z, (c, z) ∈ (l.foldl (addUse true y) a).imports ↔ (c, z) ∈ a.imports ∨ z = y ∧ ∃ q ∈ l, q.1.cellNum = c) ∧
    (l.foldl (addUse true y) a).parents = a.parents ∧ (l.foldl (addUse true y) a).children = a.children ∧
    (l.foldl (addUse true y) a).inputs = a.inputs ∧ (l.foldl (addUse true y) a).outputs = a.outputs ∧
    (a.imports.Nodup → (l.foldl (addUse true y) a).imports.Nodup) := by
  induction l generalizing a with
  | nil => simp
  | cons q l ih =>
    rw [List.foldl_cons]
    obtain ⟨h1, h2, h3, h4, h5, h6⟩ := ih (addUse true y a q)
    refine ⟨fun c z => ?_, h2, h3, h4, h5, fun h => h6 (nodup_add h)⟩
    rw [h1]
    simp only [addUse, if_true, mem_add, List.mem_cons, exists_eq_or_imp, Prod.mk.injEq]
    constructor
    · rintro ((⟨rfl, rfl⟩ | h) | ⟨hz, h⟩)
      · exact .inr ⟨rfl, .inl rfl⟩
      · exact .inl h
      · exact .inr ⟨hz, .inr h⟩
    · rintro (h | ⟨rfl, rfl | h⟩)
      · exact .inl (.inr h)
      · exact .inl (.inl ⟨rfl, rfl⟩)
      · exact .inr ⟨rfl, h⟩

theorem foldl_addUpdate (y : Nat) (l : List Timestamp) (a : Acc) :
    (∀ c z, (c, z) ∈ (l.foldl (addUpdate y) a).outputs ↔ (c, z) ∈ a.outputs ∨ z = y ∧ ∃ t ∈ l, t.cellNum = c) ∧
    (l.foldl (addUpdate y) a).parents = a.parents ∧ (l.foldl (addUpdate y) a).children = a.children ∧
    (l.foldl (addUpdate y) a).inputs = a.inputs ∧ (l.foldl (addUpdate y) a).imports = a.imports := by
  induction l generalizing a with
  | nil => simp
  | cons q l ih =>
    rw [List.foldl_cons]
    obtain ⟨h1, h2, h3, h4, h5⟩ := ih (addUpdate y a q)
    refine ⟨fun c z => ?_, h2, h3, h4, h5⟩
    rw [h1]
    simp only [addUpdate, mem_add, List.mem_cons, exists_eq_or_imp, Prod.mk.injEq]
    constructor
    · rintro ((⟨rfl, rfl⟩ | h) | ⟨hz, h⟩)
      · exact .inr ⟨rfl, .inl rfl⟩
      · exact .inl h
      · exact .inr ⟨hz, .inr h⟩
    · rintro (h | ⟨rfl, rfl | h⟩)
      · exact .inl (.inr h)
      · exact .inl (.inl ⟨rfl, rfl⟩)
      · exact .inr ⟨rfl, h⟩

theorem uses_iff (s : St) (x : Nat) (u v : Timestamp) : (u, v) ∈ (s x).used ++ (s x).live ↔ Uses s x u v := List.mem_append

theorem good_snoc (info : Nat → Info) (fuel : Nat) (s : St) (all : List Nat) (a : Acc) (x : Nat)
    (h : Good info fuel s all a) : Good info fuel s (all ++ [x]) (addSym info fuel s a x) := by
  unfold addSym
  cases ht : topOf info x with
  | none =>
    simp only
    have hx : ∀ y, ¬ Shown info x y := fun y hy => by rw [← topOf_eq, ht] at hy; cases hy
    refine ⟨fun c p => ?_, fun p c => ?_, fun c y => ?_, fun c y => ?_, fun c y => ?_, h.nodup⟩
    · rw [h.par]
      constructor
      · rintro ⟨x', hx', r⟩; exact ⟨x', List.mem_append_left _ hx', r⟩
      · rintro ⟨x', hx', y, u, v, hs, r⟩
        rcases List.mem_append.1 hx' with h1 | h1
        · exact ⟨x', h1, y, u, v, hs, r⟩
        · rw [List.mem_singleton] at h1; subst h1; exact absurd hs (hx y)
    · rw [h.chi]
      constructor
      · rintro ⟨x', hx', r⟩; exact ⟨x', List.mem_append_left _ hx', r⟩
      · rintro ⟨x', hx', y, u, v, hs, r⟩
        rcases List.mem_append.1 hx' with h1 | h1
        · exact ⟨x', h1, y, u, v, hs, r⟩
        · rw [List.mem_singleton] at h1; subst h1; exact absurd hs (hx y)
    · rw [h.inp]
      constructor
      · rintro ⟨x', hx', r⟩; exact ⟨x', List.mem_append_left _ hx', r⟩
      · rintro ⟨x', hx', u, v, hs, r⟩
        rcases List.mem_append.1 hx' with h1 | h1
        · exact ⟨x', h1, u, v, hs, r⟩
        · rw [List.mem_singleton] at h1; subst h1; exact absurd hs (hx y)
    · rw [h.out]
      constructor
      · rintro ⟨x', hx', r⟩; exact ⟨x', List.mem_append_left _ hx', r⟩
      · rintro ⟨x', hx', hs, r⟩
        rcases List.mem_append.1 hx' with h1 | h1
        · exact ⟨x', h1, hs, r⟩
        · rw [List.mem_singleton] at h1; subst h1; exact absurd hs (hx y)
    · rw [h.imp]
      constructor
      · rintro ⟨x', hx', r⟩; exact ⟨x', List.mem_append_left _ hx', r⟩
      · rintro ⟨x', hx', u, v, hs, r⟩
        rcases List.mem_append.1 hx' with h1 | h1
        · exact ⟨x', h1, u, v, hs, r⟩
        · rw [List.mem_singleton] at h1; subst h1; exact absurd hs (hx y)
  | some y =>
    simp only
    have hsh : Shown info x y := (topOf_eq info x y).1 ht
    have huniq : ∀ z, Shown info x z → z = y := fun z hz => by
      rw [← topOf_eq, ht] at hz; injection hz with hz; exact hz.symm
    cases hi : (info y).imp with
    | true =>
      obtain ⟨h1, h2, h3, h4, h5, h6⟩ := foldl_addUse_imp y ((s x).used ++ (s x).live) a
      simp only [if_true]
      refine ⟨fun c p => ?_, fun p c => ?_, fun c z => ?_, fun c z => ?_, fun c z => ?_, by rw [h2, h3]; exact ⟨h.nodup.1, h.nodup.2.1, h6 h.nodup.2.2⟩⟩
      · rw [h2, h.par]
        constructor
        · rintro ⟨x', hx', r⟩; exact ⟨x', List.mem_append_left _ hx', r⟩
        · rintro ⟨x', hx', z, u, v, hs, hz, r⟩
          rcases List.mem_append.1 hx' with h7 | h7
          · exact ⟨x', h7, z, u, v, hs, hz, r⟩
          · rw [List.mem_singleton] at h7; subst h7; rw [huniq z hs, hi] at hz; cases hz
      · rw [h3, h.chi]
        constructor
        · rintro ⟨x', hx', r⟩; exact ⟨x', List.mem_append_left _ hx', r⟩
        · rintro ⟨x', hx', z, u, v, hs, hz, r⟩
          rcases List.mem_append.1 hx' with h7 | h7
          · exact ⟨x', h7, z, u, v, hs, hz, r⟩
          · rw [List.mem_singleton] at h7; subst h7; rw [huniq z hs, hi] at hz; cases hz
      · rw [h4, h.inp]
        constructor
        · rintro ⟨x', hx', r⟩; exact ⟨x', List.mem_append_left _ hx', r⟩
        · rintro ⟨x', hx', u, v, hs, hz, r⟩
          rcases List.mem_append.1 hx' with h7 | h7
          · exact ⟨x', h7, u, v, hs, hz, r⟩
          · rw [List.mem_singleton] at h7; subst h7; rw [huniq z hs, hi] at hz; cases hz
      · rw [h5, h.out]
        constructor
        · rintro ⟨x', hx', r⟩; exact ⟨x', List.mem_append_left _ hx', r⟩
        · rintro ⟨x', hx', hs, hz, r⟩
          rcases List.mem_append.1 hx' with h7 | h7
          · exact ⟨x', h7, hs, hz, r⟩
          · rw [List.mem_singleton] at h7; subst h7; rw [huniq z hs, hi] at hz; cases hz
      · rw [h1, h.imp]
        constructor
        · rintro (⟨x', hx', r⟩ | ⟨rfl, ⟨u, v⟩, hq, r⟩)
          · exact ⟨x', List.mem_append_left _ hx', r⟩
          · exact ⟨x, by simp, u, v, hsh, hi, (uses_iff s x u v).1 hq, r⟩
        · rintro ⟨x', hx', u, v, hs, hz, hu, r⟩
          rcases List.mem_append.1 hx' with h7 | h7
          · exact .inl ⟨x', h7, u, v, hs, hz, hu, r⟩
          · rw [List.mem_singleton] at h7; subst h7
            exact .inr ⟨huniq z hs, (u, v), (uses_iff s x' u v).2 hu, r⟩
    | false =>
      obtain ⟨h1, h2, h3, h4, h5, h6, h7⟩ := foldl_addUse y ((s x).used ++ (s x).live) a
      obtain ⟨g1, g2, g3, g4, g5⟩ := foldl_addUpdate y (updatedTimes info fuel s x)
        (((s x).used ++ (s x).live).foldl (addUse false y) a)
      simp only [Bool.false_eq_true, if_false]
      refine ⟨fun c p => ?_, fun p c => ?_, fun c z => ?_, fun c z => ?_, fun c z => ?_, by
        rw [g2, g3, g5, h5]; exact ⟨h6 h.nodup.1, h7 h.nodup.2.1, h.nodup.2.2⟩⟩
      · rw [g2, h1, h.par]
        constructor
        · rintro (⟨x', hx', r⟩ | ⟨⟨u, v⟩, hq, r⟩)
          · exact ⟨x', List.mem_append_left _ hx', r⟩
          · exact ⟨x, by simp, y, u, v, hsh, hi, (uses_iff s x u v).1 hq, r⟩
        · rintro ⟨x', hx', z, u, v, hs, hz, hu, r⟩
          rcases List.mem_append.1 hx' with h8 | h8
          · exact .inl ⟨x', h8, z, u, v, hs, hz, hu, r⟩
          · rw [List.mem_singleton] at h8; subst h8
            exact .inr ⟨(u, v), (uses_iff s x' u v).2 hu, r⟩
      · rw [g3, h2, h.chi]
        constructor
        · rintro (⟨x', hx', r⟩ | ⟨⟨u, v⟩, hq, r⟩)
          · exact ⟨x', List.mem_append_left _ hx', r⟩
          · exact ⟨x, by simp, y, u, v, hsh, hi, (uses_iff s x u v).1 hq, r⟩
        · rintro ⟨x', hx', z, u, v, hs, hz, hu, r⟩
          rcases List.mem_append.1 hx' with h8 | h8
          · exact .inl ⟨x', h8, z, u, v, hs, hz, hu, r⟩
          · rw [List.mem_singleton] at h8; subst h8
            exact .inr ⟨(u, v), (uses_iff s x' u v).2 hu, r⟩
      · rw [g4, h3, h.inp]
        constructor
        · rintro (⟨x', hx', r⟩ | ⟨rfl, ⟨u, v⟩, hq, r⟩)
          · exact ⟨x', List.mem_append_left _ hx', r⟩
          · exact ⟨x, by simp, u, v, hsh, hi, (uses_iff s x u v).1 hq, r⟩
        · rintro ⟨x', hx', u, v, hs, hz, hu, r⟩
          rcases List.mem_append.1 hx' with h8 | h8
          · exact .inl ⟨x', h8, u, v, hs, hz, hu, r⟩
          · rw [List.mem_singleton] at h8; subst h8
            exact .inr ⟨huniq z hs, (u, v), (uses_iff s x' u v).2 hu, r⟩
      · rw [g1, h4, h.out]
        constructor
        · rintro ((⟨x', hx', r⟩ | ⟨rfl, ⟨u, v⟩, hq, r⟩) | ⟨rfl, r⟩)
          · exact ⟨x', List.mem_append_left _ hx', r⟩
          · exact ⟨x, by simp, hsh, hi, .inl ⟨u, v, (uses_iff s x u v).1 hq, r⟩⟩
          · exact ⟨x, by simp, hsh, hi, .inr r⟩
        · rintro ⟨x', hx', hs, hz, r⟩
          rcases List.mem_append.1 hx' with h8 | h8
          · exact .inl (.inl ⟨x', h8, hs, hz, r⟩)
          · rw [List.mem_singleton] at h8; subst h8
            rcases r with ⟨u, v, hu, r⟩ | r
            · exact .inl (.inr ⟨huniq z hs, (u, v), (uses_iff s x' u v).2 hu, r⟩)
            · exact .inr ⟨huniq z hs, r⟩
      · rw [g5, h5, h.imp]
        constructor
        · rintro ⟨x', hx', r⟩; exact ⟨x', List.mem_append_left _ hx', r⟩
        · rintro ⟨x', hx', u, v, hs, hz, r⟩
          rcases List.mem_append.1 hx' with h8 | h8
          · exact ⟨x', h8, u, v, hs, hz, r⟩
          · rw [List.mem_singleton] at h8; subst h8; rw [huniq z hs, hi] at hz; cases hz

theorem collect_good (info : Nat → Info) (fuel : Nat) (s : St) (all : List Nat) :
    Good info fuel s all (collect info fuel s all) := by
  induction all using List.reverseRecOn with
  | nil => exact ⟨by simp [collect, Edge], by simp [collect, Edge], by simp [collect], by simp [collect], by simp [collect], by simp [collect]⟩
  | append_singleton l x ih =>
    have : collect info fuel s (l ++ [x]) = addSym info fuel s (collect info fuel s l) x := by
      unfold collect; rw [List.foldl_append]; rfl
    rw [this]
    exact good_snoc info fuel s l _ x ih

theorem entries_ok (info : Nat → Info) (a : Acc) (l : List Int) (r : List (Int × Entry)) (h : entries info a l = .ok r) :
    r.map Prod.fst = l ∧ ∀ c e, (c, e) ∈ r → entryOf info a c = .ok e := by
  induction l generalizing r with
  | nil => cases h; simp
  | cons c l ih =>
    unfold entries at h
    cases he : entryOf info a c with
    | error x => rw [he] at h; cases h
    | ok e =>
      cases hr : entries info a l with
      | error x => rw [he, hr] at h; cases h
      | ok r' =>
        rw [he, hr] at h
        cases h
        obtain ⟨h1, h2⟩ := ih r' hr
        refine ⟨by simp [h1], fun c' e' hc => ?_⟩
        rcases List.mem_cons.1 hc with h3 | h3
        · cases h3; exact he
        · exact h2 c' e' h3

theorem mem_relevant (a : Acc) (c : Int) : c ∈ relevant a ↔
    (∃ y, (c, y) ∈ a.imports) ∨ (∃ y, (c, y) ∈ a.inputs) ∨ (∃ y, (c, y) ∈ a.outputs) ∨ (∃ p, (c, p) ∈ a.parents) ∨
      ∃ p, (c, p) ∈ a.children := by
  have hm : ∀ {α : Type} (l : List (Int × α)), c ∈ l.map Prod.fst ↔ ∃ y, (c, y) ∈ l := by
    intro α l
    rw [List.mem_map]
    constructor
    · rintro ⟨⟨c', y⟩, h, rfl⟩; exact ⟨y, h⟩
    · rintro ⟨y, h⟩; exact ⟨(c, y), h, rfl⟩
  unfold relevant
  rw [mem_foldl_add]
  simp only [List.mem_append, hm, List.not_mem_nil, false_or, or_assoc]

/-- What the entry of a cell must say. -/
structure EntrySpec (info : Nat → Info) (fuel : Nat) (s : St) (all : List Nat) (c : Int) (e : Entry) : Prop where
  par : ∀ p, p ∈ e.parents ↔ Edge info s all p c
  chi : ∀ p, p ∈ e.children ↔ Edge info s all c p
  inp : ∀ n, n ∈ e.inputs ↔ ∃ x ∈ all, ∃ y u v, Shown info x y ∧ (info y).imp = false ∧ (info y).name = n ∧
    Uses s x u v ∧ u.cellNum = c ∧ v.cellNum ≠ c
  out : ∀ n, n ∈ e.outputs ↔ ∃ x ∈ all, ∃ y, Shown info x y ∧ (info y).imp = false ∧ (info y).name = n ∧
    ((∃ u v, Uses s x u v ∧ v.cellNum = c ∧ u.cellNum ≠ c) ∨ ∃ t ∈ updatedTimes info fuel s x, t.cellNum = c)
  imp : ∀ y, y ∈ e.imports ↔ ∃ x ∈ all, ∃ u v, Shown info x y ∧ (info y).imp = true ∧ Uses s x u v ∧ u.cellNum = c
  nodup : e.parents.Nodup ∧ e.children.Nodup ∧ e.inputs.Nodup ∧ e.outputs.Nodup ∧ e.imports.Nodup

theorem nodup_valuesAt {α : Type} {l : List (Int × α)} (h : l.Nodup) (c : Int) : (valuesAt l c).Nodup := by
  unfold valuesAt
  refine (h.filter _).map_on fun p hp q hq e => ?_
  have h1 := (List.mem_filter.1 hp).2
  have h2 := (List.mem_filter.1 hq).2
  simp only [decide_eq_true_eq] at h1 h2
  exact Prod.ext (h1.trans h2.symm) e

theorem create_spec (info : Nat → Info) (fuel : Nat) (s : St) (all : List Nat) (r : List (Int × Entry))
    (h : create info fuel s all = .ok r) : (r.map Prod.fst).Nodup ∧
      (∀ c, c ∈ r.map Prod.fst ↔ c ∈ relevant (collect info fuel s all)) ∧
      ∀ c e, (c, e) ∈ r → EntrySpec info fuel s all c e := by
  obtain ⟨h1, h2⟩ := entries_ok _ _ _ _ h
  have hg := collect_good info fuel s all
  refine ⟨by rw [h1]; exact nodup_foldl_add _ _ List.nodup_nil, fun c => by rw [h1], fun c e hc => ?_⟩
  have h3 := h2 c e hc
  unfold entryOf at h3
  split at h3
  · cases h3
    refine ⟨fun p => by rw [mem_valuesAt, hg.par], fun p => by rw [mem_valuesAt, hg.chi], fun n => ?_, fun n => ?_, fun y => ?_, ?_⟩
    · rw [mem_foldl_add]
      simp only [List.not_mem_nil, false_or, List.mem_map, mem_valuesAt, hg.inp]
      constructor
      · rintro ⟨y, ⟨x, hx, u, v, r1, r2, r3⟩, rfl⟩; exact ⟨x, hx, y, u, v, r1, r2, rfl, r3⟩
      · rintro ⟨x, hx, y, u, v, r1, r2, rfl, r3⟩; exact ⟨y, ⟨x, hx, u, v, r1, r2, r3⟩, rfl⟩
    · rw [mem_foldl_add]
      simp only [List.not_mem_nil, false_or, List.mem_map, mem_valuesAt, hg.out]
      constructor
      · rintro ⟨y, ⟨x, hx, r1, r2, r3⟩, rfl⟩; exact ⟨x, hx, y, r1, r2, rfl, r3⟩
      · rintro ⟨x, hx, y, r1, r2, rfl, r3⟩; exact ⟨y, ⟨x, hx, r1, r2, r3⟩, rfl⟩
    · rw [mem_valuesAt, hg.imp]
    · exact ⟨nodup_valuesAt hg.nodup.1 _, nodup_valuesAt hg.nodup.2.1 _, nodup_foldl_add _ _ List.nodup_nil,
        nodup_foldl_add _ _ List.nodup_nil, nodup_valuesAt hg.nodup.2.2 _⟩
  · cases h3

/-! ## C46 -/

/-- **C46**: in the exported metadata, whatever the tables contain, every cell has one entry; `p` is listed as a parent of `c`
iff `p` has an entry that lists `c` as a child; `p` is then a different cell, and there is a shown value that is an input of
`c` and an output of `p`. -/
theorem dag_mutual (info : Nat → Info) (fuel : Nat) (s : St) (all : List Nat) (r : List (Int × Entry))
    (h : create info fuel s all = .ok r) :
    (r.map Prod.fst).Nodup ∧
    (∀ c e p, (c, e) ∈ r → p ∈ e.parents → p ≠ c ∧ ∃ e', (p, e') ∈ r ∧ c ∈ e'.children ∧ ∃ n, n ∈ e.inputs ∧ n ∈ e'.outputs) ∧
    (∀ c e p, (p, e) ∈ r → c ∈ e.children → p ≠ c ∧ ∃ e', (c, e') ∈ r ∧ p ∈ e'.parents ∧ ∃ n, n ∈ e'.inputs ∧ n ∈ e.outputs) := by
  obtain ⟨h0, h1, h2⟩ := create_spec info fuel s all r h
  have hg := collect_good info fuel s all
  have hent : ∀ c, c ∈ relevant (collect info fuel s all) → ∃ e, (c, e) ∈ r := by
    intro c hc
    rw [← h1, List.mem_map] at hc
    obtain ⟨⟨c', e⟩, h3, rfl⟩ := hc
    exact ⟨e, h3⟩
  refine ⟨h0, fun c e p hc hp => ?_, fun c e p hp hc => ?_⟩
  · have he := ((h2 c e hc).par p).1 hp
    obtain ⟨e', he'⟩ := hent p ((mem_relevant _ p).2 (.inr (.inr (.inr (.inr ⟨c, (hg.chi p c).2 he⟩)))))
    have hE := he
    obtain ⟨x, hx, y, u, v, hs, hi, hu, hc1, hp1, hne⟩ := he
    refine ⟨hne, e', he', ((h2 p e' he').chi c).2 hE, (info y).name, ((h2 c e hc).inp _).2 ?_, ((h2 p e' he').out _).2 ?_⟩
    · exact ⟨x, hx, y, u, v, hs, hi, rfl, hu, hc1, hp1 ▸ hne⟩
    · exact ⟨x, hx, y, hs, hi, rfl, .inl ⟨u, v, hu, hp1, hc1 ▸ hne.symm⟩⟩
  · have he := ((h2 p e hp).chi c).1 hc
    obtain ⟨e', he'⟩ := hent c ((mem_relevant _ c).2 (.inr (.inr (.inr (.inl ⟨p, (hg.par c p).2 he⟩)))))
    have hE := he
    obtain ⟨x, hx, y, u, v, hs, hi, hu, hc1, hp1, hne⟩ := he
    refine ⟨hne, e', he', ((h2 c e' he').par p).2 hE, (info y).name, ((h2 c e' he').inp _).2 ?_, ((h2 p e hp).out _).2 ?_⟩
    · exact ⟨x, hx, y, u, v, hs, hi, rfl, hu, hc1, hp1 ▸ hne⟩
    · exact ⟨x, hx, y, hs, hi, rfl, .inl ⟨u, v, hu, hp1, hc1 ▸ hne.symm⟩⟩

/-- **C46**, what is listed: the entry of each cell is exactly as specified by `EntrySpec`. -/
theorem dag_exact (info : Nat → Info) (fuel : Nat) (s : St) (all : List Nat) (r : List (Int × Entry))
    (h : create info fuel s all = .ok r) (c : Int) (e : Entry) (hc : (c, e) ∈ r) : EntrySpec info fuel s all c e :=
  (create_spec info fuel s all r h).2.2 c e hc

/-- **C46**, failures: the export raises iff an imported name that is used somewhere has no import string. -/
theorem dag_raises_iff (info : Nat → Info) (fuel : Nat) (s : St) (all : List Nat) :
    create info fuel s all = .error .crash ↔
      ∃ x ∈ all, ∃ y u v, Shown info x y ∧ (info y).imp = true ∧ Uses s x u v ∧ (info y).importOk = false := by
  have hg := collect_good info fuel s all
  have hent : ∀ l : List Int, entries info (collect info fuel s all) l = .error .crash ↔
      ∃ c ∈ l, entryOf info (collect info fuel s all) c = .error .crash := by
    intro l
    induction l with
    | nil => simp [entries]
    | cons c l ih =>
      unfold entries
      cases he : entryOf info (collect info fuel s all) c with
      | error x =>
        have hx : x = .crash := by
          unfold entryOf at he
          split at he
          · cases he
          · injection he with he; exact he.symm
        subst hx
        simp [bind, Except.bind, he]
      | ok e =>
        cases hr : entries info (collect info fuel s all) l with
        | error x =>
          rw [hr] at ih
          simp only [bind, Except.bind, List.mem_cons, exists_eq_or_imp, he]
          rw [ih]
          simp
        | ok r =>
          rw [hr] at ih
          simp only [bind, Except.bind, List.mem_cons, exists_eq_or_imp, he, pure, Except.pure]
          rw [← ih]
          simp
  have hone : ∀ c, entryOf info (collect info fuel s all) c = .error .crash ↔
      ∃ y, (c, y) ∈ (collect info fuel s all).imports ∧ (info y).importOk = false := by
    intro c
    unfold entryOf
    split
    · rename_i h
      simp only [List.all_eq_true, mem_valuesAt] at h
      refine ⟨fun h' => (by cases h'), fun ⟨y, h1, h2⟩ => ?_⟩
      rw [h y h1] at h2; cases h2
    · rename_i h
      simp only [List.all_eq_true, mem_valuesAt, not_forall, Bool.not_eq_true] at h
      obtain ⟨y, h1, h2⟩ := h
      exact ⟨fun _ => ⟨y, h1, h2⟩, fun _ => rfl⟩
  unfold create
  simp only
  rw [hent]
  constructor
  · rintro ⟨c, _, hc⟩
    obtain ⟨y, h1, h2⟩ := (hone c).1 hc
    obtain ⟨x, hx, u, v, h3, h4, h5, _⟩ := (hg.imp c y).1 h1
    exact ⟨x, hx, y, u, v, h3, h4, h5, h2⟩
  · rintro ⟨x, hx, y, u, v, h3, h4, h5, h2⟩
    have h1 := (hg.imp u.cellNum y).2 ⟨x, hx, u, v, h3, h4, h5, rfl⟩
    exact ⟨u.cellNum, (mem_relevant _ _).2 (.inl ⟨y, h1⟩), (hone _).2 ⟨y, h1, h2⟩⟩

end Verif.Dag
