import Mathlib.Data.Finset.Basic
import Mathlib.Logic.Function.Basic
import Verif.Base.Assoc
import Verif.Base.Dfs

set_option linter.unusedSectionVars false

/-! # Giving a placeholder cell its real id: C22

`Cell.update_id`, `data_model/cell.py` 262-293, called by `comm_manager.py` 331-345. The renaming of the objects along
`prev_cell` (266-267) is in `Verif.Registry.Model`; here are the tables keyed by id. -/

namespace Verif.Registry.Ren
open Verif
variable {ι σ τ : Type} [DecidableEq ι] [DecidableEq σ]

/-- The slicing contexts: `false` dynamic, `true` static (`tracing`-time and liveness-time edges),
`slicing/context.py`. -/
abbrev Ctx := Bool

/-- A table of edges: for each cell object a dictionary from ids to symbols, `data_model/cell.py` 118-131. -/
abbrev Tab (ι σ : Type) := Nat → List (ι × Finset σ)

/-- The tables of `update_id`: the current object of each id, `raw_parents` and `raw_children` of each object in each
context, positions and their inverse, and the reactive ids of each tag; `data_model/cell.py` 78-83, 118-131. -/
structure G (ι σ τ : Type) where
  cur : ι → Option Nat
  par : Ctx → Tab ι σ
  chi : Ctx → Tab ι σ
  pos : List (ι × Nat)
  byPos : Nat → Option ι
  reactive : τ → Finset ι

/-- The dictionary comprehensions of lines 285-288 and 291-293. -/
def renameKeys (old new : ι) (l : List (ι × Finset σ)) : List (ι × Finset σ) :=
  l.foldl (fun d x => Assoc.set d (if x.1 = old then new else x.1) x.2) []

/-- One pass of the loop of lines 284-287 (or 290-293). -/
def renameStep (cur : ι → Option Nat) (old new : ι) (T : Tab ι σ) (pid : ι) : Except Err (Tab ι σ) :=
  match cur pid with
  | none => .error .crash
  | some q => .ok (Function.update T q (renameKeys old new (T q)))

/-- The loops of lines 282-293: for every key of one table of the cell, rename in the other table of that neighbour.
`from_id` raises `KeyError` for an unknown id. -/
def renameLoop (cur : ι → Option Nat) (old new : ι) (ks : List ι) (T : Tab ι σ) : Except Err (Tab ι σ) :=
  ks.foldlM (renameStep cur old new) T

/-- Both loops for one slicing context, `data_model/cell.py` 281-293. -/
def renameCtx (old new : ι) (r : Nat) (g : G ι σ τ) (c : Ctx) : Except Err (G ι σ τ) := do
  let chi ← renameLoop g.cur old new (Assoc.keys (g.par c r)) (g.chi c)
  let par ← renameLoop g.cur old new (Assoc.keys (chi r)) (g.par c)
  pure { g with chi := Function.update g.chi c chi, par := Function.update g.par c par }

/-- `_position_by_cell_id` is updated, `data_model/cell.py` 267-269. -/
def renamePos (old new : ι) (pos : List (ι × Nat)) : List (ι × Nat) :=
  match Assoc.get pos old with
  | none => pos
  | some p => Assoc.set (Assoc.erase pos old) new p

/-- `update_id` on the current object `r` of `old`, `data_model/cell.py` 262-293. `ctxs` are the enabled slicing contexts. -/
def updateId (ctxs : List Ctx) (old new : ι) (r : Nat) (g : G ι σ τ) : Except Err (G ι σ τ) :=
  ctxs.foldlM (renameCtx old new r) { g with
    cur := Function.update (Function.update g.cur old none) new (some r)
    pos := renamePos old new g.pos
    reactive := fun t => if old ∈ g.reactive t then insert new ((g.reactive t).erase old) else g.reactive t }

/-! ## Specification -/

/-- The substitution of the new id for the old one. -/
def subst (old new x : ι) : ι := if x = old then new else x

/-- The tables are in order: distinct ids have distinct objects, and in the enabled contexts the keys of the tables of
current objects are ids of known cells, distinct, not the cell itself, and every edge is recorded at both ends. -/
structure Wf (ctxs : List Ctx) (g : G ι σ τ) : Prop where
  inj : ∀ a b q, g.cur a = some q → g.cur b = some q → a = b
  nodupP : ∀ c ∈ ctxs, ∀ q, (Assoc.keys (g.par c q)).Nodup
  nodupC : ∀ c ∈ ctxs, ∀ q, (Assoc.keys (g.chi c q)).Nodup
  known : ∀ c ∈ ctxs, ∀ a q b, g.cur a = some q → b ∈ Assoc.keys (g.par c q) ∨ b ∈ Assoc.keys (g.chi c q) →
    (g.cur b).isSome ∧ b ≠ a
  both : ∀ c ∈ ctxs, ∀ a b q p, g.cur a = some q → g.cur b = some p →
    (b ∈ Assoc.keys (g.par c q) ↔ a ∈ Assoc.keys (g.chi c p))

/-! ## Lemmas -/

theorem renameKeys_aux {old new : ι} : ∀ (l d : List (ι × Finset σ)), (Assoc.keys l).Nodup →
    new ∉ Assoc.keys l → (Assoc.keys d).Nodup → (∀ x ∈ Assoc.keys l, subst old new x ∉ Assoc.keys d) →
    l.foldl (fun d x => Assoc.set d (if x.1 = old then new else x.1) x.2) d =
      d ++ l.map fun x => (subst old new x.1, x.2) := by
  intro l
  induction l with
  | nil => intro d _ _ _ _; simp
  | cons x l ih =>
    intro d hl hn hd hdisj
    simp only [Assoc.keys, List.map_cons, List.nodup_cons, List.mem_cons, not_or] at hl hn
    have hx : subst old new x.1 ∉ Assoc.keys d := hdisj x.1 (by simp [Assoc.keys])
    simp only [List.foldl_cons]
    have hset : Assoc.set d (if x.1 = old then new else x.1) x.2 = d ++ [(subst old new x.1, x.2)] :=
      Assoc.set_of_not_mem hx
    rw [hset, ih _ hl.2 hn.2]
    · simp
    · rw [← hset]; exact Assoc.nodup_set hd _ _
    · intro y hy
      have hy' := hdisj y (by simp only [Assoc.keys, List.map_cons, List.mem_cons]; exact .inr hy)
      simp only [Assoc.keys, List.map_append, List.mem_append, List.map_cons, List.map_nil, List.mem_singleton, not_or]
      refine ⟨hy', ?_⟩
      intro e
      have hne : y ≠ x.1 := by rintro rfl; exact hl.1 hy
      have hyn : y ≠ new := by rintro rfl; exact hn.2 hy
      unfold subst at e
      split at e <;> split at e
      · rename_i h1 h2; exact hne (h1.trans h2.symm)
      · exact hn.1 e
      · exact hyn e
      · exact hne e

theorem renameKeys_eq {old new : ι} {l : List (ι × Finset σ)} (hl : (Assoc.keys l).Nodup) (hn : new ∉ Assoc.keys l) :
    renameKeys old new l = l.map fun x => (subst old new x.1, x.2) := by
  unfold renameKeys
  rw [renameKeys_aux l [] hl hn (by simp [Assoc.keys]) (by simp [Assoc.keys])]
  simp

theorem get_renameKeys {old new : ι} {l : List (ι × Finset σ)} (hl : (Assoc.keys l).Nodup) (hn : new ∉ Assoc.keys l)
    {b : ι} (hb : b ≠ new) : Assoc.get (renameKeys old new l) (subst old new b) = Assoc.get l b := by
  rw [renameKeys_eq hl hn]
  clear hl
  induction l with
  | nil => simp
  | cons x l ih =>
    simp only [Assoc.keys, List.map_cons, List.mem_cons, not_or] at hn
    simp only [List.map_cons]
    have key : subst old new x.1 = subst old new b ↔ x.1 = b := by
      constructor
      · intro e
        unfold subst at e
        split at e <;> split at e
        · rename_i h1 h2; exact h1.trans h2.symm
        · exact absurd e.symm hb
        · exact absurd e.symm hn.1
        · exact e
      · rintro rfl; rfl
    simp only [Assoc.get, key]
    rw [ih hn.2]

theorem keys_renameKeys {old new : ι} {l : List (ι × Finset σ)} (hl : (Assoc.keys l).Nodup) (hn : new ∉ Assoc.keys l) :
    Assoc.keys (renameKeys old new l) = (Assoc.keys l).map (subst old new) := by
  rw [renameKeys_eq hl hn]
  simp [Assoc.keys, Function.comp_def]

open Classical in
theorem renameLoop_ok {cur : ι → Option Nat} {old new : ι} (hinj : ∀ a b q, cur a = some q → cur b = some q → a = b) :
    ∀ (ks : List ι) (T : Tab ι σ), ks.Nodup → (∀ k ∈ ks, (cur k).isSome) →
      renameLoop cur old new ks T = .ok fun q => if ∃ k ∈ ks, cur k = some q then renameKeys old new (T q) else T q := by
  intro ks
  induction ks with
  | nil => intro T _ _; simp [renameLoop]; rfl
  | cons k ks ih =>
    intro T hn hk
    obtain ⟨p, hp⟩ := Option.isSome_iff_exists.1 (hk k (by simp))
    rw [List.nodup_cons] at hn
    unfold renameLoop at ih ⊢
    rw [List.foldlM_cons]
    have h1 : renameStep cur old new T k = .ok (Function.update T p (renameKeys old new (T p))) := by
      unfold renameStep; rw [hp]
    rw [h1]
    show ks.foldlM (renameStep cur old new) _ = _
    rw [ih _ hn.2 (fun x hx => hk x (List.mem_cons_of_mem _ hx))]
    congr 1
    funext q
    by_cases hq : q = p
    · subst hq
      have h2 : ¬ ∃ k' ∈ ks, cur k' = some q := by
        rintro ⟨k', h3, h4⟩
        rw [hinj k' k q h4 hp] at h3
        exact hn.1 h3
      rw [if_neg h2, if_pos ⟨k, by simp, hp⟩, Function.update_self]
    · rw [Function.update_of_ne hq]
      have h2 : (∃ k' ∈ k :: ks, cur k' = some q) ↔ ∃ k' ∈ ks, cur k' = some q := by
        constructor
        · rintro ⟨k', h3, h4⟩
          rcases List.mem_cons.1 h3 with rfl | h3
          · rw [hp] at h4; injection h4 with h4; exact absurd h4.symm hq
          · exact ⟨k', h3, h4⟩
        · rintro ⟨k', h3, h4⟩; exact ⟨k', List.mem_cons_of_mem _ h3, h4⟩
      simp only [h2]

/-- The id lookup after the renaming. -/
def newCur (g : G ι σ τ) (old new : ι) (r : Nat) : ι → Option Nat :=
  Function.update (Function.update g.cur old none) new (some r)

theorem newCur_of_ne {g : G ι σ τ} {old new : ι} {r : Nat} {x : ι} (h1 : x ≠ old) (h2 : x ≠ new) :
    newCur g old new r x = g.cur x := by
  unfold newCur; rw [Function.update_of_ne h2, Function.update_of_ne h1]

/-- One context is renamed correctly. `P`, `C` are the tables of the context. -/
theorem renameCtx_ok {ctxs : List Ctx} {g0 : G ι σ τ} (hw : Wf ctxs g0) {old new : ι} {r : Nat}
    (hr : g0.cur old = some r) (hn : g0.cur new = none) {c : Ctx} (hc : c ∈ ctxs) (g : G ι σ τ)
    (hcur : g.cur = newCur g0 old new r) (hpar : g.par c = g0.par c) (hchi : g.chi c = g0.chi c) :
    ∃ P C, renameCtx old new r g c = .ok { g with chi := Function.update g.chi c C, par := Function.update g.par c P } ∧
      ∀ a q, g0.cur a = some q →
        (∀ b, b ≠ new → Assoc.get (P q) (subst old new b) = Assoc.get (g0.par c q) b ∧
          Assoc.get (C q) (subst old new b) = Assoc.get (g0.chi c q) b) ∧
        old ∉ Assoc.keys (P q) ∧ old ∉ Assoc.keys (C q) := by
  classical
  have hne : old ≠ new := by rintro rfl; rw [hr] at hn; simp at hn
  have hinj : ∀ a b q, newCur g0 old new r a = some q → newCur g0 old new r b = some q → a = b := by
    have hcase : ∀ a q, newCur g0 old new r a = some q → (a = new ∧ q = r) ∨ (a ≠ new ∧ a ≠ old ∧ g0.cur a = some q) := by
      intro a q ha
      by_cases h1 : a = new
      · subst h1; unfold newCur at ha; rw [Function.update_self] at ha; injection ha with ha; exact .inl ⟨rfl, ha.symm⟩
      · by_cases h2 : a = old
        · subst h2; unfold newCur at ha; rw [Function.update_of_ne h1, Function.update_self] at ha; simp at ha
        · rw [newCur_of_ne h2 h1] at ha; exact .inr ⟨h1, h2, ha⟩
    intro a b q ha hb
    rcases hcase a q ha with ⟨rfl, rfl⟩ | ⟨h1, h2, h3⟩
    · rcases hcase b q hb with ⟨rfl, _⟩ | ⟨h4, h5, h6⟩
      · rfl
      · exact absurd (hw.inj _ _ _ h6 hr) h5
    · rcases hcase b q hb with ⟨rfl, rfl⟩ | ⟨h4, h5, h6⟩
      · exact absurd (hw.inj _ _ _ h3 hr) h2
      · exact hw.inj _ _ _ h3 h6
  have hknown : ∀ x q a, g0.cur a = some q → x ∈ Assoc.keys (g0.par c q) ∨ x ∈ Assoc.keys (g0.chi c q) → x ≠ new := by
    intro x q a ha hx e
    have := (hw.known c hc a q x ha hx).1
    rw [e, hn] at this; simp at this
  have hself : ∀ x, x ∈ Assoc.keys (g0.par c r) ∨ x ∈ Assoc.keys (g0.chi c r) → x ≠ old :=
    fun x hx => (hw.known c hc old r x hr hx).2
  have hks : ∀ x, x ∈ Assoc.keys (g0.par c r) ∨ x ∈ Assoc.keys (g0.chi c r) → newCur g0 old new r x = g0.cur x :=
    fun x hx => newCur_of_ne (hself x hx) (hknown x r old hr hx)
  have h1 := renameLoop_ok (old := old) (new := new) hinj (Assoc.keys (g0.par c r)) (g0.chi c) (hw.nodupP c hc r)
    (fun k hk => by rw [hks k (.inl hk)]; exact (hw.known c hc old r k hr (.inl hk)).1)
  set C : Tab ι σ := fun q => if ∃ k ∈ Assoc.keys (g0.par c r), newCur g0 old new r k = some q then
    renameKeys old new (g0.chi c q) else g0.chi c q with hC
  have hCr : C r = g0.chi c r := by
    rw [hC]
    simp only
    rw [if_neg]
    rintro ⟨k, hk, hk'⟩
    rw [hks k (.inl hk)] at hk'
    exact hself k (.inl hk) (hw.inj _ _ _ hk' hr)
  have h2 := renameLoop_ok (old := old) (new := new) hinj (Assoc.keys (g0.chi c r)) (g0.par c) (hw.nodupC c hc r)
    (fun k hk => by rw [hks k (.inr hk)]; exact (hw.known c hc old r k hr (.inr hk)).1)
  set P : Tab ι σ := fun q => if ∃ k ∈ Assoc.keys (g0.chi c r), newCur g0 old new r k = some q then
    renameKeys old new (g0.par c q) else g0.par c q with hP
  refine ⟨P, C, ?_, ?_⟩
  · unfold renameCtx
    rw [hcur, hpar, hchi, h1]
    show (do let par ← renameLoop (newCur g0 old new r) old new (Assoc.keys (C r)) (g0.par c); _) = _
    rw [hCr, h2]
    rfl
  · intro a q ha
    have side : ∀ (T T' : Tab ι σ), (∀ q, (Assoc.keys (T q)).Nodup) →
        (∀ x q a, g0.cur a = some q → x ∈ Assoc.keys (T q) → x ≠ new) →
        (∀ x, x ∈ Assoc.keys (T' r) → newCur g0 old new r x = g0.cur x) →
        (∀ a q, g0.cur a = some q → (old ∈ Assoc.keys (T q) ↔ a ∈ Assoc.keys (T' r))) →
        let R := if ∃ k ∈ Assoc.keys (T' r), newCur g0 old new r k = some q then renameKeys old new (T q) else T q
        (∀ b, b ≠ new → Assoc.get R (subst old new b) = Assoc.get (T q) b) ∧ old ∉ Assoc.keys R := by
      intro T T' hnd hnn hkk hsym
      have hnew : new ∉ Assoc.keys (T q) := fun h => hnn new q a ha h rfl
      simp only
      by_cases ht : ∃ k ∈ Assoc.keys (T' r), newCur g0 old new r k = some q
      · rw [if_pos ht]
        refine ⟨fun b hb => get_renameKeys (hnd q) hnew hb, ?_⟩
        rw [keys_renameKeys (hnd q) hnew, List.mem_map]
        rintro ⟨x, hx, hx'⟩
        unfold subst at hx'
        split at hx'
        · exact hne hx'.symm
        · contradiction
      · rw [if_neg ht]
        have hold : old ∉ Assoc.keys (T q) := by
          intro h
          have := (hsym a q ha).1 h
          exact ht ⟨a, this, by rw [hkk a this]; exact ha⟩
        refine ⟨?_, hold⟩
        intro b hb
        by_cases hbo : b = old
        · subst hbo
          unfold subst; rw [if_pos rfl]
          rw [Assoc.get_eq_none_iff.2 hold, Assoc.get_eq_none_iff.2 hnew]
        · unfold subst; rw [if_neg hbo]
    have s1 := side (g0.par c) (g0.chi c) (hw.nodupP c hc) (fun x q a ha hx => hknown x q a ha (.inl hx))
      (fun x hx => hks x (.inr hx)) (fun a q ha => hw.both c hc a old q r ha hr)
    have s2 := side (g0.chi c) (g0.par c) (hw.nodupC c hc) (fun x q a ha hx => hknown x q a ha (.inr hx))
      (fun x hx => hks x (.inl hx)) (fun a q ha => (hw.both c hc old a r q hr ha).symm)
    exact ⟨fun b hb => ⟨s1.1 b hb, s2.1 b hb⟩, s1.2, s2.2⟩

theorem updateId_loop {ctxs : List Ctx} {g0 : G ι σ τ} (hw : Wf ctxs g0) {old new : ι} {r : Nat}
    (hr : g0.cur old = some r) (hn : g0.cur new = none) : ∀ (cs : List Ctx), cs.Nodup → (∀ c ∈ cs, c ∈ ctxs) →
    ∀ g : G ι σ τ, g.cur = newCur g0 old new r → (∀ c ∈ cs, g.par c = g0.par c ∧ g.chi c = g0.chi c) →
    ∃ g', cs.foldlM (renameCtx old new r) g = .ok g' ∧ g'.cur = g.cur ∧ g'.pos = g.pos ∧ g'.reactive = g.reactive ∧
      g'.byPos = g.byPos ∧
      (∀ c, c ∉ cs → g'.par c = g.par c ∧ g'.chi c = g.chi c) ∧
      ∀ c ∈ cs, ∀ a q, g0.cur a = some q →
        (∀ b, b ≠ new → Assoc.get (g'.par c q) (subst old new b) = Assoc.get (g0.par c q) b ∧
          Assoc.get (g'.chi c q) (subst old new b) = Assoc.get (g0.chi c q) b) ∧
        old ∉ Assoc.keys (g'.par c q) ∧ old ∉ Assoc.keys (g'.chi c q) := by
  intro cs
  induction cs with
  | nil => intro _ _ g _ _; exact ⟨g, rfl, rfl, rfl, rfl, rfl, by simp, by simp⟩
  | cons c cs ih =>
    intro hnd hsub g hcur htab
    rw [List.nodup_cons] at hnd
    obtain ⟨P, C, h1, h2⟩ := renameCtx_ok hw hr hn (hsub c (by simp)) g hcur (htab c (by simp)).1 (htab c (by simp)).2
    set g1 : G ι σ τ := { g with chi := Function.update g.chi c C, par := Function.update g.par c P } with hg1
    obtain ⟨g', e1, e2, e3, e4, e4', e5, e6⟩ := ih hnd.2 (fun x hx => hsub x (List.mem_cons_of_mem _ hx)) g1 hcur (by
      intro x hx
      have hxc : x ≠ c := by rintro rfl; exact hnd.1 hx
      have := htab x (List.mem_cons_of_mem _ hx)
      rw [hg1]
      simp only [Function.update_of_ne hxc]
      exact this)
    refine ⟨g', ?_, e2, e3, e4, e4', ?_, ?_⟩
    · rw [List.foldlM_cons, h1]; exact e1
    · intro x hx
      rw [List.mem_cons, not_or] at hx
      rw [(e5 x hx.2).1, (e5 x hx.2).2, hg1]
      simp only [Function.update_of_ne hx.1, and_self]
    · intro x hx a q ha
      rcases List.mem_cons.1 hx with rfl | hx
      · rw [(e5 x hnd.1).1, (e5 x hnd.1).2, hg1]
        simp only [Function.update_self]
        exact h2 a q ha
      · exact e6 x hx a q ha

/-! ## Properties -/

/-- C22, partial. If the tables are in order in the enabled contexts and the new id is unknown, giving a cell a new id
succeeds and gives the same graph with the new id in place of the old one: the id lookup, the position of every cell, the
reactive ids of every tag, and parents and children (with their symbols) of the current version of every cell in every
enabled context. The old id is left nowhere among them.

Missing: contexts that are not enabled, older versions of neighbours, and the index from positions to cells, see
`rename_violated`. -/
theorem rename_graph_partial (ctxs : List Ctx) (hctxs : ctxs.Nodup) (g : G ι σ τ) (hw : Wf ctxs g) (old new : ι) (r : Nat)
    (hr : g.cur old = some r) (hn : g.cur new = none) :
    ∃ g', updateId ctxs old new r g = .ok g' ∧
      (∀ a, a ≠ new → g'.cur (subst old new a) = g.cur a) ∧ g'.cur old = none ∧
      (new ∉ Assoc.keys g.pos → ∀ a, a ≠ new → Assoc.get g'.pos (subst old new a) = Assoc.get g.pos a) ∧
      (∀ t, new ∉ g.reactive t → g'.reactive t = (g.reactive t).image (subst old new)) ∧
      ∀ c ∈ ctxs, ∀ a q, g.cur a = some q →
        (∀ b, b ≠ new → Assoc.get (g'.par c q) (subst old new b) = Assoc.get (g.par c q) b ∧
          Assoc.get (g'.chi c q) (subst old new b) = Assoc.get (g.chi c q) b) ∧
        old ∉ Assoc.keys (g'.par c q) ∧ old ∉ Assoc.keys (g'.chi c q) := by
  have hne : old ≠ new := by rintro rfl; rw [hr] at hn; simp at hn
  obtain ⟨g', e1, e2, e3, e4, _, _, e6⟩ := updateId_loop hw hr hn ctxs hctxs (fun c hc => hc)
    { g with
      cur := Function.update (Function.update g.cur old none) new (some r)
      pos := renamePos old new g.pos
      reactive := fun t => if old ∈ g.reactive t then insert new ((g.reactive t).erase old) else g.reactive t }
    rfl (fun c _ => ⟨rfl, rfl⟩)
  refine ⟨g', e1, ?_, ?_, ?_, ?_, e6⟩
  · intro a ha
    rw [e2]
    simp only
    unfold subst
    by_cases hao : a = old
    · subst hao; rw [if_pos rfl, Function.update_self, hr]
    · rw [if_neg hao, Function.update_of_ne ha, Function.update_of_ne hao]
  · rw [e2]; simp only; rw [Function.update_of_ne hne, Function.update_self]
  · intro hnp a ha
    rw [e3]
    simp only [renamePos]
    cases hp : Assoc.get g.pos old with
    | none =>
      simp only
      unfold subst
      by_cases hao : a = old
      · subst hao; rw [if_pos rfl, hp]; exact Assoc.get_eq_none_iff.2 hnp
      · rw [if_neg hao]
    | some p =>
      simp only
      rw [Assoc.get_set, Assoc.get_erase]
      unfold subst
      by_cases hao : a = old
      · subst hao; rw [if_pos rfl, if_pos rfl, hp]
      · rw [if_neg hao, if_neg ha, if_neg hao]
  · intro t ht
    rw [e4]
    simp only
    ext x
    by_cases ho : old ∈ g.reactive t
    · rw [if_pos ho, Finset.mem_insert, Finset.mem_erase, Finset.mem_image]
      constructor
      · rintro (rfl | ⟨h1, h2⟩)
        · exact ⟨old, ho, if_pos rfl⟩
        · exact ⟨x, h2, if_neg h1⟩
      · rintro ⟨y, hy, rfl⟩
        unfold subst
        by_cases hyo : y = old
        · rw [if_pos hyo]; exact .inl rfl
        · rw [if_neg hyo]; exact .inr ⟨hyo, hy⟩
    · rw [if_neg ho, Finset.mem_image]
      constructor
      · intro h; exact ⟨x, h, if_neg (by rintro rfl; exact ho h)⟩
      · rintro ⟨y, hy, rfl⟩
        have : y ≠ old := by rintro rfl; exact ho hy
        unfold subst; rw [if_neg this]; exact hy

/-- Cells 1, 2, 3 (objects 0, 1, 2; object 3 is an older version of cell 3) with edges 1 → 2 → 3 in the dynamic context
and an edge 2 → 3 in the static one. -/
def gEx : G Nat Nat Nat where
  cur := fun i => if i = 1 then some 0 else if i = 2 then some 1 else if i = 3 then some 2 else none
  par := fun c q => match c, q with
    | false, 1 => [(1, {7})]
    | false, 2 => [(2, {8})]
    | false, 3 => [(2, {8})]
    | true, 2 => [(2, {9})]
    | _, _ => []
  chi := fun c q => match c, q with
    | false, 0 => [(2, {7})]
    | false, 1 => [(3, {8})]
    | true, 1 => [(3, {9})]
    | _, _ => []
  pos := [(1, 0), (2, 1), (3, 2)]
  byPos := fun p => if p = 1 then some 2 else none
  reactive := fun _ => {2, 3}

theorem cur_gEx {a q : Nat} (h : gEx.cur a = some q) : (a = 1 ∧ q = 0) ∨ (a = 2 ∧ q = 1) ∨ (a = 3 ∧ q = 2) := by
  simp only [gEx] at h
  split at h
  · injection h with h; omega
  · split at h
    · injection h with h; omega
    · split at h
      · injection h with h; omega
      · simp at h

theorem wf_gEx : Wf [false, true] gEx where
  inj := by
    intro a b q ha hb
    rcases cur_gEx ha with h | h | h <;> rcases cur_gEx hb with h' | h' | h' <;> omega
  nodupP := by
    rintro (_ | _) _ q <;> (simp only [gEx]; split <;> simp [Assoc.keys])
  nodupC := by
    rintro (_ | _) _ q <;> (simp only [gEx]; split <;> simp [Assoc.keys])
  known := by
    rintro (_ | _) _ a q b ha hb <;> rcases cur_gEx ha with ⟨rfl, rfl⟩ | ⟨rfl, rfl⟩ | ⟨rfl, rfl⟩ <;>
      simp [gEx, Assoc.keys] at hb <;> (rcases hb with rfl | rfl) <;> simp [gEx]
  both := by
    rintro (_ | _) _ a b q p ha hb <;> rcases cur_gEx ha with ⟨rfl, rfl⟩ | ⟨rfl, rfl⟩ | ⟨rfl, rfl⟩ <;>
      rcases cur_gEx hb with ⟨rfl, rfl⟩ | ⟨rfl, rfl⟩ | ⟨rfl, rfl⟩ <;> simp [gEx, Assoc.keys]

example : Wf [false, true] gEx ∧ gEx.cur 2 = some 1 ∧ gEx.cur 5 = none ∧
    ((updateId [false, true] 2 5 1 gEx).toOption.map fun g => (g.par false 2, g.chi false 0, g.par true 2)) =
      some ([(5, {8})], [(5, {7})], [(5, {9})]) :=
  ⟨wf_gEx, by decide, by decide, by decide⟩

/-- C22 fails in three places: a context that is not enabled keeps the old id, an older version of a child keeps it (so
that slicing from that version meets an id that is unknown), and the index from positions to cells keeps it. -/
theorem rename_violated :
    ((updateId [false] 2 5 1 gEx).toOption.map fun g => (g.par true 2, g.cur 2)) = some ([(2, {9})], none) ∧
    ((updateId [false, true] 2 5 1 gEx).toOption.map fun g => (g.par false 3, g.cur 2)) = some ([(2, {8})], none) ∧
    ((updateId [false, true] 2 5 1 gEx).toOption.map fun g => (g.byPos 1, g.cur 2)) = some (some 2, none) := by
  refine ⟨by decide, by decide, by decide⟩

end Verif.Registry.Ren
