import Verif.Sched.Examples

set_option linter.unusedSectionVars false

/-!
# Stale parents (`frontend.py` 254-304): model and properties (C10)

The nested dicts of sets are functions `child → executed → parents`; a missing key is the empty set (the code never stores
an empty set).
-/

namespace Verif.Sched
open Verif Verif.Slice

variable {ι σ : Type} [DecidableEq ι] [DecidableEq σ]

/-- What `_compute_stale_parent_makers` reads (`frontend.py` 285-304): the cells in position order, each cell's recorded
parents over all enabled contexts (`raw_parents`, no direction filter), the namespace chain of a symbol
(`traverse_up_namespaces`, `data_model/symbol.py` 614-619), and per cell
`(static_writes & last_check_result.modified) | dynamic_writes` (300-303). -/
structure StaleInputs (ι σ : Type) where
  order : List ι
  entries : ι → List (ι × Finset σ)
  up : σ → List σ
  writes : ι → Finset σ

/-- The two tables. -/
structure StaleTables (ι : Type) where
  byChild : ι → ι → Finset ι
  byExecuted : ι → ι → Finset ι

/-- All pairs `(executed, parent)` met by the four inner loops for one cell, `frontend.py` 287-293. -/
def staleHits (s : StaleInputs ι σ) (soFar : σ → Finset ι) (x : ι) : Finset (ι × ι) :=
  (s.entries x).toFinset.biUnion fun e => e.2.biUnion fun q => (s.up q).toFinset.biUnion fun u =>
    (soFar u).image fun ex => (ex, e.1)

/-- One cell of the loop, `frontend.py` 286-304: record the hits in both tables, then add the cell's own writes. -/
def staleStep (s : StaleInputs ι σ) (st : StaleTables ι × (σ → Finset ι)) (x : ι) : StaleTables ι × (σ → Finset ι) :=
  let hits := staleHits s st.2 x
  ({ byChild := fun child ex =>
      if child = x then st.1.byChild child ex ∪ (hits.filter fun h => h.1 = ex).image Prod.snd
      else st.1.byChild child ex
     byExecuted := fun ex child =>
      if child = x then st.1.byExecuted ex child ∪ (hits.filter fun h => h.1 = ex).image Prod.snd
      else st.1.byExecuted ex child },
   fun u => if u ∈ s.writes x then insert x (st.2 u) else st.2 u)

/-- One call of `_compute_stale_parent_makers`, `frontend.py` 274-304 (it is called once per checked cell, 457). -/
def staleMakers (s : StaleInputs ι σ) (T : StaleTables ι) : StaleTables ι :=
  (s.order.foldl (staleStep s) (T, fun _ => ∅)).1

/-- All the calls made while the cells are checked; between calls the write sets may change. -/
def staleCalls (calls : List (StaleInputs ι σ)) : StaleTables ι :=
  calls.foldl (fun T s => staleMakers s T) ⟨fun _ _ => ∅, fun _ _ => ∅⟩

/-- `_compute_stale_parents` for one cell, `frontend.py` 265-272, when the schedule is DAG-like and in order (256-264). -/
def staleParents (w : World ι σ) (up : σ → List σ) (x : ι) : Finset ι :=
  if w.dagLike = true ∧ w.flowOrder = .inOrder then
    (((w.ctxs.flatMap fun c => w.directionalParents c x).filter fun e =>
      decide (∃ q ∈ e.2, ∃ u ∈ up q, (w.shallowTs u).cellNum > w.ctr e.1)).map Prod.fst).toFinset
  else ∅

/-! ## Specification -/

/-- In the notebook order of `s`, `executed` comes before `child`, writes a symbol on the namespace chain of a symbol that
`child` takes from `parent`. -/
def StaleMaker (s : StaleInputs ι σ) (child executed parent : ι) : Prop :=
  (∃ before after, s.order = before ++ child :: after ∧ executed ∈ before) ∧
    ∃ S q u, (parent, S) ∈ s.entries child ∧ q ∈ S ∧ u ∈ s.up q ∧ u ∈ s.writes executed

/-! ## Proofs -/

theorem mem_staleHits {s : StaleInputs ι σ} {soFar : σ → Finset ι} {x ex p : ι} :
    (ex, p) ∈ staleHits s soFar x ↔ ∃ S q u, (p, S) ∈ s.entries x ∧ q ∈ S ∧ u ∈ s.up q ∧ ex ∈ soFar u := by
  simp only [staleHits, Finset.mem_biUnion, List.mem_toFinset, Finset.mem_image, Prod.mk.injEq]
  constructor
  · rintro ⟨e, he, q, hq, u, hu, ex', hex, rfl, rfl⟩
    exact ⟨e.2, q, u, he, hq, hu, hex⟩
  · rintro ⟨S, q, u, he, hq, hu, hex⟩
    exact ⟨(p, S), he, q, hq, u, hu, ex, hex, rfl, rfl⟩

theorem mem_hits {hits : Finset (ι × ι)} {ex p : ι} :
    p ∈ (hits.filter fun h => h.1 = ex).image Prod.snd ↔ (ex, p) ∈ hits := by
  simp only [Finset.mem_image, Finset.mem_filter]
  constructor
  · rintro ⟨⟨a, b⟩, ⟨h, rfl⟩, rfl⟩; exact h
  · intro h; exact ⟨(ex, p), ⟨h, rfl⟩, rfl⟩

theorem staleFold (s : StaleInputs ι σ) : ∀ (done rest : List ι), done ++ rest = s.order →
    ∀ (st : StaleTables ι × (σ → Finset ι)),
    (∀ u ex, ex ∈ st.2 u ↔ ex ∈ done ∧ u ∈ s.writes ex) →
    let st' := rest.foldl (staleStep s) st
    (∀ child ex p, p ∈ st'.1.byChild child ex ↔ p ∈ st.1.byChild child ex ∨
      ((∃ before after, rest = before ++ child :: after ∧ ex ∈ done ++ before) ∧
        ∃ S q u, (p, S) ∈ s.entries child ∧ q ∈ S ∧ u ∈ s.up q ∧ u ∈ s.writes ex)) ∧
    (∀ child ex p, p ∈ st'.1.byExecuted ex child ↔ p ∈ st.1.byExecuted ex child ∨
      ((∃ before after, rest = before ++ child :: after ∧ ex ∈ done ++ before) ∧
        ∃ S q u, (p, S) ∈ s.entries child ∧ q ∈ S ∧ u ∈ s.up q ∧ u ∈ s.writes ex)) := by
  intro done rest
  induction rest generalizing done with
  | nil =>
    intro _ st _
    simp
  | cons x rest ih =>
    intro horder st hso
    have hso' : ∀ u ex, ex ∈ (staleStep s st x).2 u ↔ ex ∈ done ++ [x] ∧ u ∈ s.writes ex := by
      intro u ex
      simp only [staleStep, List.mem_append, List.mem_singleton]
      by_cases hu : u ∈ s.writes x
      · simp only [if_pos hu, Finset.mem_insert, hso]
        constructor
        · rintro (rfl | ⟨a, b⟩)
          · exact ⟨.inr rfl, hu⟩
          · exact ⟨.inl a, b⟩
        · rintro ⟨a | rfl, b⟩
          · exact .inr ⟨a, b⟩
          · exact .inl rfl
      · simp only [if_neg hu, hso]
        constructor
        · rintro ⟨a, b⟩; exact ⟨.inl a, b⟩
        · rintro ⟨a | rfl, b⟩
          · exact ⟨a, b⟩
          · exact absurd b hu
    have hrec := ih (done ++ [x]) (by rw [← horder]; simp) (staleStep s st x) hso'
    simp only [List.foldl_cons]
    -- splitting the position of `child` in `x :: rest`
    have hsplit : ∀ child ex, (∃ before after, x :: rest = before ++ child :: after ∧ ex ∈ done ++ before) ↔
        (child = x ∧ ex ∈ done) ∨ (∃ before after, rest = before ++ child :: after ∧ ex ∈ (done ++ [x]) ++ before) := by
      intro child ex
      constructor
      · rintro ⟨b, a, h, hex⟩
        cases b with
        | nil =>
          simp only [List.nil_append, List.cons.injEq] at h
          exact .inl ⟨h.1.symm, by simpa using hex⟩
        | cons y b =>
          simp only [List.cons_append, List.cons.injEq] at h
          obtain ⟨rfl, h⟩ := h
          exact .inr ⟨b, a, h, by simpa using hex⟩
      · rintro (⟨rfl, hex⟩ | ⟨b, a, h, hex⟩)
        · exact ⟨[], rest, rfl, by simpa using hex⟩
        · exact ⟨x :: b, a, by rw [h]; rfl, by simpa using hex⟩
    have hstep : ∀ child ex p, (child = x ∧ (ex, p) ∈ staleHits s st.2 x) ↔
        ((child = x ∧ ex ∈ done) ∧ ∃ S q u, (p, S) ∈ s.entries child ∧ q ∈ S ∧ u ∈ s.up q ∧ u ∈ s.writes ex) := by
      intro child ex p
      rw [mem_staleHits]
      constructor
      · rintro ⟨rfl, S, q, u, h1, h2, h3, h4⟩
        obtain ⟨h5, h6⟩ := (hso u ex).1 h4
        exact ⟨⟨rfl, h5⟩, S, q, u, h1, h2, h3, h6⟩
      · rintro ⟨⟨rfl, h5⟩, S, q, u, h1, h2, h3, h6⟩
        exact ⟨rfl, S, q, u, h1, h2, h3, (hso u ex).2 ⟨h5, h6⟩⟩
    constructor
    · intro child ex p
      rw [hrec.1, hsplit]
      have h1 : p ∈ (staleStep s st x).1.byChild child ex ↔
          p ∈ st.1.byChild child ex ∨ (child = x ∧ (ex, p) ∈ staleHits s st.2 x) := by
        simp only [staleStep]
        by_cases hc : child = x
        · subst hc; rw [if_pos rfl, Finset.mem_union, mem_hits]; simp
        · simp [hc]
      rw [h1, hstep, or_assoc, ← or_and_right]
    · intro child ex p
      rw [hrec.2, hsplit]
      have h1 : p ∈ (staleStep s st x).1.byExecuted ex child ↔
          p ∈ st.1.byExecuted ex child ∨ (child = x ∧ (ex, p) ∈ staleHits s st.2 x) := by
        simp only [staleStep]
        by_cases hc : child = x
        · subst hc; rw [if_pos rfl, Finset.mem_union, mem_hits]; simp
        · simp [hc]
      rw [h1, hstep, or_assoc, ← or_and_right]

theorem staleMakers_spec (s : StaleInputs ι σ) (T : StaleTables ι) (child ex p : ι) :
    (p ∈ (staleMakers s T).byChild child ex ↔ p ∈ T.byChild child ex ∨ StaleMaker s child ex p) ∧
    (p ∈ (staleMakers s T).byExecuted ex child ↔ p ∈ T.byExecuted ex child ∨ StaleMaker s child ex p) := by
  have := staleFold s [] s.order rfl (T, fun _ => ∅) (by simp)
  simp only [List.nil_append] at this
  exact ⟨this.1 child ex p, this.2 child ex p⟩

/-- Both stale-parent indexes hold exactly the stale makers of the calls made, so they are transposes of each other. -/
theorem stale_indexes_exact (calls : List (StaleInputs ι σ)) (child ex p : ι) :
    (p ∈ (staleCalls calls).byChild child ex ↔ ∃ s ∈ calls, StaleMaker s child ex p) ∧
    (p ∈ (staleCalls calls).byExecuted ex child ↔ ∃ s ∈ calls, StaleMaker s child ex p) := by
  unfold staleCalls
  induction calls using List.reverseRecOn with
  | nil => simp
  | append_singleton calls s ih =>
    rw [List.foldl_append, List.foldl_cons, List.foldl_nil]
    obtain ⟨h1, h2⟩ := staleMakers_spec s (calls.foldl (fun T s => staleMakers s T) ⟨fun _ _ => ∅, fun _ _ => ∅⟩) child ex p
    rw [h1, h2, ih.1, ih.2]
    simp only [List.mem_append, List.mem_singleton]
    constructor <;>
    · constructor
      · rintro (⟨s', h, h'⟩ | h)
        · exact ⟨s', .inl h, h'⟩
        · exact ⟨s, .inr rfl, h⟩
      · rintro ⟨s', h | rfl, h'⟩
        · exact .inl ⟨s', h, h'⟩
        · exact .inr h'

/-- The transposition and order part of C10: when the notebook order has no repetition, the executed cell stands strictly
before the child, hence differs from it, and the parent is recorded for the child. -/
theorem stale_indexes_transpose (calls : List (StaleInputs ι σ)) (child ex p : ι) :
    (p ∈ (staleCalls calls).byChild child ex ↔ p ∈ (staleCalls calls).byExecuted ex child) ∧
    (p ∈ (staleCalls calls).byChild child ex → ∃ s ∈ calls, (∃ S, (p, S) ∈ s.entries child) ∧
      (∃ before after, s.order = before ++ child :: after ∧ ex ∈ before) ∧ (s.order.Nodup → ex ≠ child)) := by
  obtain ⟨h1, h2⟩ := stale_indexes_exact calls child ex p
  refine ⟨by rw [h1, h2], ?_⟩
  intro h
  obtain ⟨s, hs, hord, S, q, u, h3, _⟩ := h1.1 h
  refine ⟨s, hs, ⟨S, h3⟩, hord, ?_⟩
  rintro hnd rfl
  obtain ⟨b, a, ho, hb⟩ := hord
  rw [ho] at hnd
  exact (List.nodup_append.1 hnd).2.2 ex hb ex (by simp) rfl

/-- `stale_parents[x]` lists exactly the parents above `x` that supply a symbol one of whose enclosing objects was written
after the parent ran. -/
theorem stale_parents_exact (w : World ι σ) (up : σ → List σ) (x p : ι) :
    p ∈ staleParents w up x ↔ w.schedule ≠ .liveness ∧ w.flowOrder = .inOrder ∧
      ∃ c ∈ w.ctxs, ∃ S, Entry w c x p S ∧ ∃ q ∈ S, ∃ u ∈ up q, w.ctr p < (w.shallowTs u).cellNum := by
  unfold staleParents
  by_cases h : w.dagLike = true ∧ w.flowOrder = .inOrder
  · rw [if_pos h]
    simp only [List.mem_toFinset, List.mem_map, List.mem_filter, List.mem_flatMap, mem_directional, decide_eq_true_eq]
    constructor
    · rintro ⟨e, ⟨⟨c, hc, hE⟩, hq⟩, rfl⟩
      exact ⟨dagLike_iff.1 h.1, h.2, c, hc, e.2, hE, hq⟩
    · rintro ⟨_, _, c, hc, S, hE, hq⟩
      exact ⟨(p, S), ⟨⟨c, hc, hE⟩, hq⟩, rfl⟩
  · rw [if_neg h]
    simp only [Finset.notMem_empty, false_iff]
    rintro ⟨h1, h2, _⟩
    exact h ⟨dagLike_iff.2 h1, h2⟩

/-- Three cells in order 0, 1, 2: cells 0 and 1 write symbol 7, and cell 2 takes symbol 8 (a member of 7) from cell 0. -/
def staleDemo : StaleInputs Nat Nat where
  order := [0, 1, 2]
  entries := fun i => if i = 2 then [(0, {8})] else []
  up := fun q => if q = 8 then [8, 7] else [q]
  writes := fun i => if i < 2 then {7} else ∅

example : (staleCalls [staleDemo]).byChild 2 1 = {0} := by decide

/-- In `demo`, cell 2 reads symbol 1 from cell 1; if symbol 1 is a member of symbol 0 (written at 4, after cell 1 ran) then
cell 1 is a stale parent of cell 2. -/
example : staleParents demo (fun q => if q = 1 then [1, 0] else [q]) 2 = {1} := by decide

end Verif.Sched
