import Verif.Saved.Spec
import Verif.Sched.GraphProps

/-!
# Lemmas about edge tables and the report -/

namespace Verif.Saved
open Verif Verif.Slice Verif.Sched

/-! ## Tables -/

theorem mem_set {l : List (Id × Finset Sym)} {b q : Id} {v T : Finset Sym} (h : (q, T) ∈ Assoc.set l b v) : (q = b ∧ T = v) ∨ (q, T) ∈ l := by
  induction l with
  | nil =>
    simp only [Assoc.set, List.mem_singleton, Prod.mk.injEq] at h
    exact .inl h
  | cons a l ih =>
    obtain ⟨k, u⟩ := a
    unfold Assoc.set at h
    by_cases hk : k = b
    · rw [if_pos hk] at h
      rcases List.mem_cons.1 h with h | h
      · injection h with h1 h2
        exact .inl ⟨h1.trans hk, h2⟩
      · exact .inr (List.mem_cons_of_mem _ h)
    · rw [if_neg hk] at h
      rcases List.mem_cons.1 h with h | h
      · exact .inr (h ▸ List.mem_cons_self)
      · rcases ih h with h | h
        · exact .inl h
        · exact .inr (List.mem_cons_of_mem _ h)

theorem touch_other {t : Table} {x : Ctx} {a b : Id} {S : Finset Sym} {y : Ctx} {i : Id} (h : ¬(y = x ∧ i = a)) : touch t x a b S y i = t y i := by
  unfold touch; rw [if_neg h]

theorem touch_same {t : Table} {x : Ctx} {a b : Id} {S : Finset Sym} :
    touch t x a b S x a = Assoc.set (t x a) b ((Assoc.get (t x a) b).getD ∅ ∪ S) := by
  unfold touch; rw [if_pos ⟨rfl, rfl⟩]

theorem drop_other {t : Table} {x : Ctx} {a b : Id} {S : Finset Sym} {y : Ctx} {i : Id} (h : ¬(y = x ∧ i = a)) : drop t x a b S y i = t y i := by
  unfold drop; rw [if_neg h]

/-- Entries after `touch` were there before or are the touched one. -/
theorem mem_touch {t : Table} {x : Ctx} {a b : Id} {S : Finset Sym} {y : Ctx} {i j : Id} {T : Finset Sym} (h : (j, T) ∈ touch t x a b S y i) :
    (j, T) ∈ t y i ∨ (y = x ∧ i = a ∧ j = b ∧ ∃ T0, (T0 = ∅ ∨ (j, T0) ∈ t y i) ∧ T = T0 ∪ S) := by
  by_cases hc : y = x ∧ i = a
  · obtain ⟨rfl, rfl⟩ := hc
    rw [touch_same] at h
    rcases mem_set h with ⟨rfl, rfl⟩ | h
    · right
      refine ⟨rfl, rfl, rfl, _, ?_, rfl⟩
      rcases hg : Assoc.get (t y i) j with _ | v
      · left; rfl
      · right; exact Assoc.mem_of_get hg
    · exact .inl h
  · rw [touch_other hc] at h; exact .inl h

/-- Entries after `drop` are parts of entries before. -/
theorem mem_drop {t : Table} {x : Ctx} {a b : Id} {S : Finset Sym} {y : Ctx} {i j : Id} {T : Finset Sym} (h : (j, T) ∈ drop t x a b S y i) :
    ∃ T0, (j, T0) ∈ t y i ∧ T ⊆ T0 := by
  by_cases hc : y = x ∧ i = a
  · unfold drop at h
    rw [if_pos hc] at h
    rcases hg : Assoc.get (t y i) b with _ | v
    · rw [hg] at h; exact ⟨T, h, fun _ h => h⟩
    · rw [hg] at h
      dsimp only at h
      by_cases he : v \ S = ∅
      · rw [if_pos he] at h
        exact ⟨T, (List.mem_filter.1 h).1, fun _ h => h⟩
      · rw [if_neg he] at h
        rcases mem_set h with ⟨rfl, rfl⟩ | h
        · exact ⟨v, Assoc.mem_of_get hg, Finset.sdiff_subset⟩
        · exact ⟨T, h, fun _ h => h⟩
  · rw [drop_other hc] at h; exact ⟨T, h, fun _ h => h⟩

theorem inherit_other {x : Ctx} {c : Id} {s : Sym} {y : Ctx} {i : Id} (h : ¬(y = x ∧ i = c)) (l : List (Id × Finset Sym)) :
    ∀ t : Table, inherit t x c s l y i = t y i := by
  induction l with
  | nil => intro t; rfl
  | cons a l ih =>
    obtain ⟨p, S⟩ := a
    intro t
    unfold inherit
    rw [ih]
    by_cases hs : s ∈ S
    · rw [if_pos hs, touch_other h]
    · rw [if_neg hs]

/-- Entries after `inherit` were there before, or add the symbol to an entry of the previous run. -/
theorem mem_inherit {x : Ctx} {c : Id} {s : Sym} {y : Ctx} {i j : Id} {T : Finset Sym} (l : List (Id × Finset Sym)) :
    ∀ t : Table, (j, T) ∈ inherit t x c s l y i →
      (j, T) ∈ t y i ∨ (y = x ∧ i = c ∧ (∃ S, (j, S) ∈ l ∧ s ∈ S) ∧ ∃ T0, (T0 = ∅ ∨ (j, T0) ∈ t y i) ∧ T ⊆ T0 ∪ {s}) := by
  induction l with
  | nil => intro t h; exact .inl h
  | cons a l ih =>
    obtain ⟨p, S⟩ := a
    intro t h
    unfold inherit at h
    by_cases hs : s ∈ S
    · rw [if_pos hs] at h
      rcases ih _ h with h | ⟨h1, h2, ⟨S', hS', hs'⟩, T0, h3, h4⟩
      · rcases mem_touch h with h | ⟨h1, h2, h3, T0, h4, h5⟩
        · exact .inl h
        · exact .inr ⟨h1, h2, ⟨S, h3 ▸ List.mem_cons_self, hs⟩, T0, h4, h5.subset⟩
      · refine .inr ⟨h1, h2, ⟨S', List.mem_cons_of_mem _ hS', hs'⟩, ?_⟩
        rcases h3 with rfl | h3
        · exact ⟨∅, .inl rfl, h4⟩
        · rcases mem_touch h3 with h3 | ⟨_, _, _, T1, h5, h6⟩
          · exact ⟨T0, .inr h3, h4⟩
          · refine ⟨T1, h5, ?_⟩
            rw [h6, Finset.union_assoc, Finset.union_idempotent] at h4
            exact h4
    · rw [if_neg hs] at h
      rcases ih _ h with h | ⟨h1, h2, ⟨S', hS', hs'⟩, h3⟩
      · exact .inl h
      · exact .inr ⟨h1, h2, ⟨S', List.mem_cons_of_mem _ hS', hs'⟩, h3⟩

/-- One entry per cell. -/
def Uniq (t : Table) : Prop := ∀ x i, (Assoc.keys (t x i)).Nodup

theorem uniq_touch {t : Table} (h : Uniq t) (x : Ctx) (a b : Id) (S : Finset Sym) : Uniq (touch t x a b S) := by
  intro y i
  by_cases hc : y = x ∧ i = a
  · obtain ⟨rfl, rfl⟩ := hc
    rw [touch_same]; exact Assoc.nodup_set (h y i) _ _
  · rw [touch_other hc]; exact h y i

theorem uniq_drop {t : Table} (h : Uniq t) (x : Ctx) (a b : Id) (S : Finset Sym) : Uniq (drop t x a b S) := by
  intro y i
  by_cases hc : y = x ∧ i = a
  · unfold drop
    rw [if_pos hc]
    rcases hg : Assoc.get (t y i) b with _ | v
    · exact h y i
    · dsimp only
      by_cases he : v \ S = ∅
      · rw [if_pos he]; exact Assoc.nodup_erase (h y i) _
      · rw [if_neg he]; exact Assoc.nodup_set (h y i) _ _
  · rw [drop_other hc]; exact h y i

theorem uniq_inherit {x : Ctx} {c : Id} {s : Sym} (l : List (Id × Finset Sym)) : ∀ t : Table, Uniq t → Uniq (inherit t x c s l) := by
  induction l with
  | nil => intro t h; exact h
  | cons a l ih =>
    obtain ⟨p, S⟩ := a
    intro t h
    unfold inherit
    by_cases hs : s ∈ S
    · rw [if_pos hs]; exact ih _ (uniq_touch h _ _ _ _)
    · rw [if_neg hs]; exact ih _ h

/-! ## The report -/

/-- A parent is reported iff some entry of it is kept. -/
theorem mem_keepAll {w : Sched.World Id Sym} {latest : Option (Timestamp → Option Id)} {c p : Id} (l : List (Ctx × (Id × Finset Sym))) :
    ∀ {acc s : Finset Id}, keepAll w latest c l acc = .ok s →
      (p ∈ s ↔ p ∈ acc ∨ ∃ x S, (x, (p, S)) ∈ l ∧ keepEntry w latest x c (p, S) = .ok true) := by
  induction l with
  | nil =>
    intro acc s h
    injection h with h
    subst h
    simp
  | cons a l ih =>
    obtain ⟨x, q, S⟩ := a
    intro acc s h
    unfold keepAll at h
    rcases hk : keepEntry w latest x c (q, S) with e | b
    · rw [hk] at h; cases h
    · rw [hk] at h
      dsimp only at h
      rw [ih h]
      cases b with
      | true =>
        rw [if_pos rfl, Finset.mem_insert]
        constructor
        · rintro ((rfl | h) | ⟨x', S', h1, h2⟩)
          · exact .inr ⟨x, S, List.mem_cons_self, hk⟩
          · exact .inl h
          · exact .inr ⟨x', S', List.mem_cons_of_mem _ h1, h2⟩
        · rintro (h | ⟨x', S', h1, h2⟩)
          · exact .inl (.inr h)
          · rcases List.mem_cons.1 h1 with h1 | h1
            · injection h1 with _ h1
              injection h1 with h1 _
              exact .inl (.inl h1)
            · exact .inr ⟨x', S', h1, h2⟩
      | false =>
        rw [if_neg (by simp)]
        constructor
        · rintro (h | ⟨x', S', h1, h2⟩)
          · exact .inl h
          · exact .inr ⟨x', S', List.mem_cons_of_mem _ h1, h2⟩
        · rintro (h | ⟨x', S', h1, h2⟩)
          · exact .inl h
          · rcases List.mem_cons.1 h1 with h1 | h1
            · injection h1 with h0 h3
              subst h0
              rw [h3, hk] at h2
              injection h2 with h2
              cases h2
            · exact .inr ⟨x', S', h1, h2⟩

/-- An entry of `c` for `p` that the report keeps. -/
def Kept (w : Sched.World Id Sym) (c p : Id) : Prop :=
  ∃ x ∈ w.ctxs, ∃ S, (p, S) ∈ w.directionalParents x c ∧ keepEntry w (latestParByTs w c) x c (p, S) = .ok true

theorem mem_filteredParents {w : Sched.World Id Sym} {c p : Id} {s : Finset Id} (h : filteredParents w c = .ok s) : p ∈ s ↔ Kept w c p := by
  unfold filteredParents at h
  rw [mem_keepAll _ h]
  constructor
  · rintro (h | ⟨x, S, h1, h2⟩)
    · cases h
    · rw [List.mem_flatMap] at h1
      obtain ⟨y, hy, h1⟩ := h1
      rw [List.mem_map] at h1
      obtain ⟨e, he, h1⟩ := h1
      injection h1 with h3 h4
      subst h3; subst h4
      exact ⟨y, hy, S, he, h2⟩
  · rintro ⟨x, hx, S, h1, h2⟩
    exact .inr ⟨x, S, List.mem_flatMap.2 ⟨x, hx, List.mem_map.2 ⟨_, h1, rfl⟩⟩, h2⟩

theorem get_foldl_set {P : Id → Option (Finset Id)} {i : Id} (cells : List Id) :
    ∀ m : List (Id × Finset Id), Assoc.get ((json cells P).foldl (fun m e => Assoc.set m e.1 e.2) m) i =
      if i ∈ cells ∧ (P i).isSome then P i else Assoc.get m i := by
  induction cells with
  | nil => intro m; simp [json]
  | cons a cells ih =>
    intro m
    rcases hp : P a with _ | s
    · have : json (a :: cells) P = json cells P := by unfold json; rw [List.filterMap_cons, hp]; rfl
      rw [this, ih]
      by_cases hia : i = a
      · subst hia; simp [hp]
      · simp [hia]
    · have : json (a :: cells) P = (a, s) :: json cells P := by unfold json; rw [List.filterMap_cons, hp]; rfl
      rw [this, List.foldl_cons, ih]
      by_cases hia : i = a
      · subst hia
        simp only [List.mem_cons, true_or, hp, Option.isSome_some, and_true, if_true, Assoc.get_set_self]
        split <;> rfl
      · rw [Assoc.get_set_ne _ _ hia]
        simp [hia]

theorem get_merge {P : Id → Option (Finset Id)} {cells : List Id} {m : List (Id × Finset Id)} {i : Id} :
    Assoc.get (mergeMaps (json cells P) m) i = if i ∈ cells ∧ (P i).isSome then P i else Assoc.get m i := get_foldl_set cells m

theorem nodup_foldl_set (l : List (Id × Finset Id)) : ∀ m : List (Id × Finset Id), (Assoc.keys m).Nodup →
    (Assoc.keys (l.foldl (fun m e => Assoc.set m e.1 e.2) m)).Nodup := by
  induction l with
  | nil => intro m h; exact h
  | cons a l ih => intro m h; exact ih _ (Assoc.nodup_set h _ _)

theorem step_sched_zero {σ : State} (h : σ.kern.runs = 0) (w : Sched.World Id Sym) : step σ (.sched w) = σ := by
  have : payload σ.kern w = .ok ([], []) := by unfold payload; rw [if_pos h]
  unfold step
  dsimp only
  rw [this]
  rfl

/-- What a schedule makes of the notebook. -/
theorem step_sched {σ : State} (h : σ.kern.runs ≠ 0) (w : Sched.World Id Sym) :
    ∃ P C : Id → Option (Finset Id), step σ (.sched w) =
        { σ with note := { parents := mergeMaps (json σ.kern.cells P) σ.note.parents, children := mergeMaps (json σ.kern.cells C) σ.note.children } } ∧
      (∀ i ∈ σ.kern.cells, (P i).isSome ∧ (C i).isSome) ∧ (∀ i, (P i).isSome → i ∈ σ.kern.cells) ∧
      (∀ p c, Listed C p c ↔ Listed P c p) ∧
      (∀ c p, c ∈ σ.kern.cells → (Listed P c p ↔ Kept (look σ.kern w) c p)) := by
  obtain ⟨P, C, hg, h1, h2, h3, _, _⟩ := reported_graph (look σ.kern w) σ.kern.cells
  refine ⟨P, C, ?_, h1, h2, h3, ?_⟩
  · have : payload σ.kern w = .ok (json σ.kern.cells P, json σ.kern.cells C) := by unfold payload; rw [if_neg h, hg]
    unfold step
    dsimp only
    rw [this]
  · intro c p hc
    obtain ⟨T, hT, hs⟩ := parentsTable_spec (look σ.kern w) σ.kern.cells (fun _ => none)
    have hPT : P = T := by
      unfold filteredGraph at hg
      rw [hT] at hg
      injection hg with hg
      injection hg with hg _
      exact hg.symm
    subst hPT
    obtain ⟨s, hf, hPs⟩ := (hs c).1 hc
    rw [← mem_filteredParents hf]
    unfold Listed
    rw [hPs]
    simp

end Verif.Saved
