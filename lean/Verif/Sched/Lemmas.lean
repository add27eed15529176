import Verif.Sched.Spec
import Mathlib.Algebra.Order.BigOperators.Group.Finset
import Mathlib.Algebra.BigOperators.Group.Finset.Basic

set_option linter.unusedSectionVars false

/-! Helper lemmas for `Verif.Sched.Props`. -/

namespace Verif.Sched
open Verif Verif.Slice

variable {ι σ : Type} [DecidableEq ι] [DecidableEq σ]

/-! ## Entries -/

theorem mem_directional {w : World ι σ} {c : Ctx} {x : ι} {e : ι × Finset σ} :
    e ∈ w.directionalParents c x ↔ Entry w c x e.1 e.2 := by
  unfold World.directionalParents Entry
  by_cases h : w.flowOrder = .inOrder <;> simp [h]

theorem mem_parentIds {w : World ι σ} {x p : ι} : p ∈ w.parentIds x ↔ DependsOn w x p := by
  unfold World.parentIds DependsOn
  simp only [List.mem_toFinset, List.mem_flatMap, List.mem_map, mem_directional]
  constructor
  · rintro ⟨c, hc, e, he, rfl⟩; exact ⟨c, hc, e.2, he⟩
  · rintro ⟨c, hc, S, h⟩; exact ⟨c, hc, (p, S), h, rfl⟩

theorem allEntries_eq (w : World ι σ) (x : ι) :
    (w.ctxs.flatMap fun c => w.directionalParents c x) = allEntries w x := by
  unfold allEntries
  congr 1
  funext c
  unfold World.directionalParents
  by_cases h : w.flowOrder = .inOrder <;> simp [h]

theorem carries_iff {w : World ι σ} {x : ι} {S : Finset σ} {t : Timestamp} :
    t ∈ ((S \ w.removed x) \ {w.fake}).image w.shallowTs ↔ Carries w x S t := by
  simp only [Finset.mem_image, Finset.mem_sdiff, Finset.mem_singleton, Carries, Counts]
  constructor
  · rintro ⟨s, ⟨h1, h2⟩, h3⟩; exact ⟨s, h1, h2, h3⟩
  · rintro ⟨s, h1, h2, h3⟩; exact ⟨s, ⟨h1, h2⟩, h3⟩

/-- What a table over the entries `l` says about one timestamp. -/
def LatestIn (w : World ι σ) (x : ι) (l : List (ι × Finset σ)) (t : Timestamp) : Option ι → Prop
  | none => ∀ e ∈ l, ¬ Carries w x e.2 t
  | some p => ∃ before S after, l = before ++ (p, S) :: after ∧ Carries w x S t ∧
      (∀ e ∈ before, Carries w x e.2 t → w.pos e.1 ≤ w.pos p) ∧
      (∀ e ∈ after, Carries w x e.2 t → w.pos e.1 < w.pos p)

theorem latestIn_fold (w : World ι σ) (x : ι) (l : List (ι × Finset σ)) (t : Timestamp) :
    LatestIn w x l t (l.foldl (latestStep w x) (fun _ => none) t) := by
  induction l using List.reverseRecOn with
  | nil => intro e he; cases he
  | append_singleton l e ih =>
    rw [List.foldl_append, List.foldl_cons, List.foldl_nil]
    generalize l.foldl (latestStep w x) (fun _ => none) = m at ih
    unfold latestStep
    by_cases hc : Carries w x e.2 t
    · simp only [if_pos (carries_iff.2 hc)]
      cases hm : m t with
      | none =>
        rw [hm] at ih
        refine ⟨l, e.2, [], by simp, hc, fun e' he' hc' => absurd hc' (ih e' he'), by simp⟩
      | some q =>
        rw [hm] at ih
        obtain ⟨b, S, a, hl, hS, hb, ha⟩ := ih
        by_cases hp : w.pos e.1 ≥ w.pos q
        · simp only [hp, if_true]
          refine ⟨l, e.2, [], by simp, hc, ?_, by simp⟩
          intro e' he' hc'
          rw [hl] at he'
          rcases List.mem_append.1 he' with h | h
          · exact (hb e' h hc').trans hp
          · rcases List.mem_cons.1 h with h | h
            · subst h; exact hp
            · exact ((ha e' h hc').le).trans hp
        · simp only [hp, if_false]
          refine ⟨b, S, a ++ [e], by simp [hl], hS, hb, ?_⟩
          intro e' he' hc'
          rcases List.mem_append.1 he' with h | h
          · exact ha e' h hc'
          · rw [List.mem_singleton] at h; subst h; exact lt_of_not_ge hp
    · simp only [if_neg (fun h => hc (carries_iff.1 h))]
      cases hm : m t with
      | none =>
        rw [hm] at ih
        intro e' he'
        rcases List.mem_append.1 he' with h | h
        · exact ih e' h
        · rw [List.mem_singleton] at h; subst h; exact hc
      | some q =>
        rw [hm] at ih
        obtain ⟨b, S, a, hl, hS, hb, ha⟩ := ih
        refine ⟨b, S, a ++ [e], by simp [hl], hS, hb, ?_⟩
        intro e' he' hc'
        rcases List.mem_append.1 he' with h | h
        · exact ha e' h hc'
        · rw [List.mem_singleton] at h; subst h; exact absurd hc' hc

theorem isLatest_unique {w : World ι σ} {x : ι} {l : List (ι × Finset σ)} {t : Timestamp} {p q : ι}
    (hp : LatestIn w x l t (some p)) (hq : LatestIn w x l t (some q)) : p = q := by
  obtain ⟨b, S, a, hl, hS, hb, ha⟩ := hp
  obtain ⟨b', S', a', hl', hS', hb', ha'⟩ := hq
  rw [hl] at hl'
  rcases List.append_eq_append_iff.1 hl' with ⟨k, hk, hk'⟩ | ⟨k, hk, hk'⟩
  · cases k with
    | nil => simp at hk'; exact hk'.1.1
    | cons e k =>
      simp only [List.cons_append, List.cons.injEq] at hk'
      obtain ⟨rfl, hk'⟩ := hk'
      have h1 : w.pos q < w.pos p := ha (q, S') (by rw [hk']; simp) hS'
      have h2 : w.pos p ≤ w.pos q := hb' (p, S) (by rw [hk]; simp) hS
      exact absurd h1 (not_lt.2 h2)
  · cases k with
    | nil => simp at hk'; exact hk'.1.1.symm
    | cons e k =>
      simp only [List.cons_append, List.cons.injEq] at hk'
      obtain ⟨rfl, hk'⟩ := hk'
      have h1 : w.pos p < w.pos q := ha' (p, S) (by rw [hk']; simp) hS
      have h2 : w.pos q ≤ w.pos p := hb (q, S') (by rw [hk]; simp) hS'
      exact absurd h1 (not_lt.2 h2)

theorem latestPar_iff {w : World ι σ} {x : ι} {m : Timestamp → Option ι} (h : latestParByTs w x = some m)
    (t : Timestamp) (p : ι) : m t = some p ↔ IsLatest w x t p := by
  unfold latestParByTs at h
  split at h
  · exact absurd h (by simp)
  · injection h with h
    subst h
    rw [allEntries_eq]
    have key := latestIn_fold w x (allEntries w x) t
    constructor
    · intro hp; rw [hp] at key; exact key
    · intro hp
      cases hq : (allEntries w x).foldl (latestStep w x) (fun _ => none) t with
      | none =>
        rw [hq] at key
        obtain ⟨b, S, a, hl, hS, _⟩ := hp
        exact absurd hS (key (p, S) (by rw [hl]; simp))
      | some q => rw [hq] at key; rw [isLatest_unique key hp]

theorem latestPar_none_iff {w : World ι σ} {x : ι} {m : Timestamp → Option ι} (h : latestParByTs w x = some m)
    (t : Timestamp) : m t = none ↔ ∀ e ∈ allEntries w x, ¬ Carries w x e.2 t := by
  unfold latestParByTs at h
  split at h
  · exact absurd h (by simp)
  · injection h with h
    subst h
    rw [allEntries_eq]
    have key := latestIn_fold w x (allEntries w x) t
    constructor
    · intro hp; rw [hp] at key; exact key
    · intro hp
      cases hq : (allEntries w x).foldl (latestStep w x) (fun _ => none) t with
      | none => rfl
      | some q =>
        rw [hq] at key
        obtain ⟨b, S, a, hl, hS, _⟩ := key
        exact absurd hS (hp (q, S) (by rw [hl]; simp))

theorem latestPar_some {w : World ι σ} {x : ι} : (∃ m, latestParByTs w x = some m) ↔ w.flowOrder = .inOrder := by
  unfold latestParByTs
  by_cases h : w.flowOrder = .inOrder <;> simp [h]

theorem mem_allEntries {w : World ι σ} {x : ι} {e : ι × Finset σ} :
    e ∈ allEntries w x ↔ ∃ c ∈ w.ctxs, Entry w c x e.1 e.2 := by
  rw [← allEntries_eq]
  simp only [List.mem_flatMap, mem_directional]

/-! ## Readiness -/

/-- The verdict of one entry, in terms of the specification. -/
theorem parentVerdict_spec {w : World ι σ} {c : Ctx} (hc : c ∈ w.ctxs) {x : ι} {e : ι × Finset σ}
    (he : Entry w c x e.1 e.2) : ∃ v, parentVerdict w (latestParByTs w x) c x e = .ok v ∧
      (v ≠ .skip ↔ ((Counts w x e.2 w.fake ∧ w.ctr x < 0 ∧ 0 < w.ctr e.1) ∨
        (Relevant w x e.1 e.2 ∧ Fresher w x e.1 e.2 ∧ ¬ Shadowed w c x e.1 e.2))) ∧
      (v = .newReady ↔ (Relevant w x e.1 e.2 ∧ Fresher w x e.1 e.2 ∧ ¬ Shadowed w c x e.1 e.2 ∧
        w.minNewReady ≤ w.ctr e.1 ∧ 0 < w.ctr x)) := by
  unfold parentVerdict
  have hfake : w.fake ∈ e.2 \ w.removed x ↔ Counts w x e.2 w.fake := by simp [Counts]
  have hcounts : ∀ s, s ∈ e.2 \ w.removed x ↔ Counts w x e.2 s := by simp [Counts]
  by_cases h1 : Counts w x e.2 w.fake ∧ w.ctr x < 0 ∧ 0 < w.ctr e.1
  · rw [if_pos ⟨hfake.2 h1.1, h1.2⟩]
    refine ⟨_, rfl, by simp [h1], ?_⟩
    have : ¬ 0 < w.ctr x := by omega
    simp [this]
  · rw [if_neg (fun h => h1 ⟨hfake.1 h.1, h.2⟩)]
    -- the latest-parent test
    have hrel : ∃ b, notLatest w (latestParByTs w x) e.1 (e.2 \ w.removed x) = .ok b ∧
        (b = false ↔ Relevant w x e.1 e.2) := by
      unfold notLatest
      cases hm : latestParByTs w x with
      | none =>
        refine ⟨false, rfl, ?_⟩
        have : w.flowOrder ≠ .inOrder := fun h => by
          obtain ⟨m, hm'⟩ := latestPar_some.2 h; rw [hm] at hm'; cases hm'
        simp [Relevant, this]
      | some m =>
        have hin : w.flowOrder = .inOrder := latestPar_some.1 ⟨m, hm⟩
        by_cases hf : Counts w x e.2 w.fake
        · exact ⟨false, by simp only [if_pos (hfake.2 hf)], by simp [Relevant, hf]⟩
        · simp only [if_neg (fun h => hf (hfake.1 h))]
          have hno : ¬ ∃ s ∈ e.2 \ w.removed x, m (w.shallowTs s) = none := by
            rintro ⟨s, hs, hn⟩
            rw [latestPar_none_iff hm] at hn
            refine hn e (mem_allEntries.2 ⟨c, hc, he⟩) ⟨s, (hcounts s).1 hs, ?_, rfl⟩
            rintro rfl; exact hf ((hcounts _).1 hs)
          unfold isLatestFor
          rw [if_neg hno]
          refine ⟨_, rfl, ?_⟩
          simp only [Bool.not_eq_false', decide_eq_true_eq, Relevant, hf, false_or]
          constructor
          · rintro ⟨s, hs, h⟩ _
            exact ⟨s, (hcounts s).1 hs, (latestPar_iff hm _ _).1 h⟩
          · intro h
            obtain ⟨s, hs, h⟩ := h hin
            exact ⟨s, (hcounts s).2 hs, (latestPar_iff hm _ _).2 h⟩
    obtain ⟨b, hb, hbrel⟩ := hrel
    simp only [hb]
    have hfresh : ((max (w.ctr x) w.minTimestamp < w.ctr e.1 ∧
            (w.pull ∨ w.ctr e.1 ∈ (e.2 \ w.removed x).image fun s => (w.shallowTs s).cellNum)) ∨
          (∃ s ∈ e.2 \ w.removed x, ∃ v ∈ w.visibleTs s, v.cellNum ≠ (w.shallowTs s).cellNum ∧ v.cellNum = w.ctr e.1))
        ↔ Fresher w x e.1 e.2 := by
      unfold Fresher
      simp only [Finset.mem_image, hcounts, max_lt_iff, and_assoc, Option.mem_def]
      constructor
      · rintro (⟨a, b, c⟩ | ⟨s, hs, v, hv, h⟩)
        · exact .inl ⟨a, b, c⟩
        · exact .inr ⟨s, v, hs, hv, h⟩
      · rintro (⟨a, b, c⟩ | ⟨s, v, hs, hv, h⟩)
        · exact .inl ⟨a, b, c⟩
        · exact .inr ⟨s, hs, v, hv, h⟩
    have hshadow : shadowed w c x e.1 (e.2 \ w.removed x) = true ↔ Shadowed w c x e.1 e.2 := by
      unfold shadowed Shadowed
      simp only [Bool.and_eq_true, beq_iff_eq, List.any_eq_true, Bool.not_eq_true', decide_eq_false_iff_not,
        Bool.or_eq_true, decide_eq_true_eq, not_le, and_assoc]
      constructor
      · rintro ⟨h1, h2, e', he', h3, h4⟩
        refine ⟨h1, h2, e'.1, e'.2, mem_directional.1 he', h3, h4.imp_left ?_⟩
        intro h s hs; exact h ((hcounts s).2 hs)
      · rintro ⟨h1, h2, q, T, he', h3, h4⟩
        refine ⟨h1, h2, (q, T), mem_directional.2 he', h3, h4.imp_left ?_⟩
        intro h s hs; exact h s ((hcounts s).1 hs)
    cases b with
    | true =>
      have : ¬ Relevant w x e.1 e.2 := fun h => by simpa using hbrel.2 h
      exact ⟨.skip, rfl, by simp [this, h1], by simp [this]⟩
    | false =>
      have hR : Relevant w x e.1 e.2 := hbrel.1 rfl
      by_cases hF : Fresher w x e.1 e.2
      · rw [if_pos (hfresh.2 hF)]
        by_cases hS : Shadowed w c x e.1 e.2
        · rw [if_pos (hshadow.2 hS)]
          exact ⟨.skip, rfl, by simp [hS, h1], by simp [hS]⟩
        · rw [if_neg (fun h => hS (hshadow.1 h))]
          by_cases hN : w.ctr e.1 ≥ w.minNewReady ∧ w.ctr x > 0
          · rw [if_pos hN]
            exact ⟨.newReady, rfl, by simp [hR, hF, hS], by simp [hR, hF, hS]; exact hN⟩
          · rw [if_neg hN]
            refine ⟨.ready, rfl, by simp [hR, hF, hS], ?_⟩
            simp only [reduceCtorEq, false_iff]
            rintro ⟨_, _, _, h⟩; exact hN h
      · rw [if_neg (fun h => hF (hfresh.1 h))]
        exact ⟨.skip, rfl, by simp [hF, h1], by simp [hF]⟩

/-- An entry that makes `x` newly ready. -/
def FreshNow (w : World ι σ) (c : Ctx) (x : ι) (e : ι × Finset σ) : Prop :=
  Relevant w x e.1 e.2 ∧ Fresher w x e.1 e.2 ∧ ¬ Shadowed w c x e.1 e.2 ∧ w.minNewReady ≤ w.ctr e.1 ∧ 0 < w.ctr x

/-- An entry that makes `x` ready. -/
def StaleEntry (w : World ι σ) (c : Ctx) (x : ι) (e : ι × Finset σ) : Prop :=
  (Counts w x e.2 w.fake ∧ w.ctr x < 0 ∧ 0 < w.ctr e.1) ∨
    (Relevant w x e.1 e.2 ∧ Fresher w x e.1 e.2 ∧ ¬ Shadowed w c x e.1 e.2)

theorem readinessCtx_spec {w : World ι σ} {c : Ctx} (hc : c ∈ w.ctxs) {x : ι} :
    ∀ (es : List (ι × Finset σ)) (st : Bool × Bool), (∀ e ∈ es, Entry w c x e.1 e.2) →
    (st.2 = true → st.1 = true) →
    ∃ st', readinessCtx w (latestParByTs w x) c x es st = .ok st' ∧ (st'.2 = true → st'.1 = true) ∧
      (st'.1 = true ↔ st.1 = true ∨ ∃ e ∈ es, StaleEntry w c x e) ∧
      (st'.2 = true ↔ st.2 = true ∨ ∃ e ∈ es, FreshNow w c x e) := by
  intro es
  induction es with
  | nil => intro st _ h; exact ⟨st, rfl, h, by simp, by simp⟩
  | cons e es ih =>
    intro st hes hst
    obtain ⟨v, hv, hstale, hnew⟩ := parentVerdict_spec hc (hes e (by simp))
    have hes' : ∀ e ∈ es, Entry w c x e.1 e.2 := fun e' h => hes e' (by simp [h])
    have hns : FreshNow w c x e → StaleEntry w c x e := fun h => .inr ⟨h.1, h.2.1, h.2.2.1⟩
    change (v ≠ .skip ↔ StaleEntry w c x e) at hstale
    change (v = .newReady ↔ FreshNow w c x e) at hnew
    unfold readinessCtx
    simp only [hv]
    cases v with
    | skip =>
      have h1 : ¬ StaleEntry w c x e := by rw [← hstale]; simp
      have h2 : ¬ FreshNow w c x e := fun h => h1 (hns h)
      obtain ⟨st', h, hm, ha, hb⟩ := ih st hes' hst
      exact ⟨st', h, hm, by rw [ha]; simp [h1], by rw [hb]; simp [h2]⟩
    | ready =>
      have h1 : StaleEntry w c x e := by rw [← hstale]; simp
      have h2 : ¬ FreshNow w c x e := by rw [← hnew]; simp
      obtain ⟨st', h, hm, ha, hb⟩ := ih (true, st.2) hes' (by simp)
      exact ⟨st', h, hm, by rw [ha]; simp [h1], by rw [hb]; simp [h2]⟩
    | readyBreak =>
      have h1 : StaleEntry w c x e := by rw [← hstale]; simp
      have h2 : ¬ FreshNow w c x e := by rw [← hnew]; simp
      refine ⟨(true, st.2), rfl, by simp, by simp [h1], ?_⟩
      -- a break on an inserted edge only happens for a cell that never ran
      have hx : ¬ 0 < w.ctr x := by
        unfold parentVerdict at hv
        by_cases hcond : w.fake ∈ e.2 \ w.removed x ∧ w.ctr x < 0 ∧ 0 < w.ctr e.1
        · omega
        · rw [if_neg hcond] at hv
          exfalso
          revert hv
          split <;> (try simp)
          split <;> (try simp)
          split <;> (try simp)
          split <;> simp
      constructor
      · intro h; exact .inl h
      · rintro (h | ⟨e', _, h⟩)
        · exact h
        · exact absurd h.2.2.2.2 hx
    | newReady =>
      have h1 : StaleEntry w c x e := by rw [← hstale]; simp
      have h2 : FreshNow w c x e := by rw [← hnew]
      exact ⟨(true, true), rfl, by simp, by simp [h1], by simp [h2]⟩

theorem readinessDag_spec {w : World ι σ} {x : ι} :
    ∀ (cs : List Ctx) (st : Bool × Bool), (∀ c ∈ cs, c ∈ w.ctxs) → (st.2 = true → st.1 = true) →
    ∃ st', readinessDag w (latestParByTs w x) x cs st = .ok st' ∧ (st'.2 = true → st'.1 = true) ∧
      (st'.1 = true ↔ st.1 = true ∨ ∃ c ∈ cs, ∃ p S, Entry w c x p S ∧ StaleEntry w c x (p, S)) ∧
      (st'.2 = true ↔ st.2 = true ∨ ∃ c ∈ cs, ∃ p S, Entry w c x p S ∧ FreshNow w c x (p, S)) := by
  intro cs
  induction cs with
  | nil => intro st _ h; exact ⟨st, rfl, h, by simp, by simp⟩
  | cons c cs ih =>
    intro st hcs hst
    unfold readinessDag
    by_cases h2 : st.2 = true
    · rw [if_pos h2]
      exact ⟨st, rfl, hst, by simp [hst h2], by simp [h2]⟩
    · rw [if_neg h2]
      obtain ⟨st1, he1, hm1, ha1, hb1⟩ := readinessCtx_spec (hcs c (by simp)) (x := x) (w.directionalParents c x) st
        (fun e he => mem_directional.1 he) hst
      simp only [he1]
      obtain ⟨st', h, hm, ha, hb⟩ := ih st1 (fun c' h => hcs c' (by simp [h])) hm1
      refine ⟨st', h, hm, ?_, ?_⟩
      · rw [ha, ha1]
        constructor
        · rintro ((h | ⟨e, he, h⟩) | ⟨c', hc', h⟩)
          · exact .inl h
          · exact .inr ⟨c, by simp, e.1, e.2, mem_directional.1 he, h⟩
          · exact .inr ⟨c', by simp [hc'], h⟩
        · rintro (h | ⟨c', hc', p, S, hE, h⟩)
          · exact .inl (.inl h)
          · rcases List.mem_cons.1 hc' with rfl | hc'
            · exact .inl (.inr ⟨(p, S), mem_directional.2 hE, h⟩)
            · exact .inr ⟨c', hc', p, S, hE, h⟩
      · rw [hb, hb1]
        constructor
        · rintro ((h | ⟨e, he, h⟩) | ⟨c', hc', h⟩)
          · exact .inl h
          · exact .inr ⟨c, by simp, e.1, e.2, mem_directional.1 he, h⟩
          · exact .inr ⟨c', by simp [hc'], h⟩
        · rintro (h | ⟨c', hc', p, S, hE, h⟩)
          · exact .inl (.inl h)
          · rcases List.mem_cons.1 hc' with rfl | hc'
            · exact .inl (.inr ⟨(p, S), mem_directional.2 hE, h⟩)
            · exact .inr ⟨c', hc', p, S, hE, h⟩

theorem dagLike_iff {w : World ι σ} : w.dagLike = true ↔ w.schedule ≠ .liveness := by
  unfold World.dagLike
  cases w.schedule <;> simp

/-- Result of `computeReadiness` for a cell not already waiting. -/
theorem computeReadiness_spec {w : World ι σ} {W : Finset ι} {x : ι} {chk : Check σ} (hchk : w.check x = some chk)
    (hW : x ∈ W ↔ LiveWaits w x) :
    ∃ st, computeReadiness w W x chk = .ok st ∧ (st.1 = true ↔ NeedsRerun w x) ∧ (st.2 = true → st.1 = true) ∧
      (st.2 = true → 0 < w.ctr x) := by
  unfold computeReadiness
  by_cases hx : x ∈ W
  · rw [if_pos hx]
    refine ⟨_, rfl, ?_, by simp, by simp⟩
    simp only [Bool.false_eq_true, false_iff]
    rintro ⟨_, _, h, _⟩
    exact h (hW.1 hx)
  · rw [if_neg hx]
    have hnl : ¬ LiveWaits w x := fun h => hx (hW.2 h)
    have hst : ∃ st, (if w.dagLike then readinessDag w (latestParByTs w x) x w.ctxs (false, false)
        else (.ok (false, false) : Except Err (Bool × Bool))) = .ok st ∧
        (st.1 = true ↔ (w.schedule ≠ .liveness ∧ StaleInput w x)) ∧ (st.2 = true → st.1 = true) ∧
        (st.2 = true → 0 < w.ctr x) := by
      by_cases hd : w.dagLike = true
      · rw [if_pos hd]
        obtain ⟨st, h, hm, ha, hb⟩ := readinessDag_spec (w := w) (x := x) w.ctxs (false, false) (fun _ h => h) (by simp)
        refine ⟨st, h, ?_, hm, ?_⟩
        · rw [ha]
          simp only [Bool.false_eq_true, false_or]
          constructor
          · intro h; exact ⟨dagLike_iff.1 hd, h⟩
          · intro h; exact h.2
        · intro h2
          rw [hb] at h2
          simp only [Bool.false_eq_true, false_or] at h2
          obtain ⟨_, _, _, _, _, h⟩ := h2
          exact h.2.2.2.2
      · rw [if_neg hd]
        have : w.schedule = .liveness := by
          by_contra h; exact hd (dagLike_iff.2 h)
        exact ⟨_, rfl, by simp [this], by simp, by simp⟩
    obtain ⟨st, h, h1, h2, h3⟩ := hst
    simp only [h]
    by_cases hl : (!st.2 && (w.schedule == .liveness || (w.schedule == .hybrid && w.flowOrder == .inOrder))) = true
    · rw [if_pos hl]
      simp only [Bool.and_eq_true, Bool.not_eq_true', Bool.or_eq_true, beq_iff_eq] at hl
      by_cases hm : chk.maxUsed > max (w.ctr x) w.minTimestamp
      · rw [if_pos hm]
        have hsl : StaleLive w x chk := ⟨lt_of_le_of_lt (le_max_left _ _) hm, lt_of_le_of_lt (le_max_right _ _) hm⟩
        refine ⟨_, rfl, ?_, by simp, ?_⟩
        · simp only [true_iff]; exact ⟨chk, hchk, hnl, .inr ⟨hl.2, hsl⟩⟩
        · simp [hl.1]
          intro a _; exact a
      · rw [if_neg hm]
        refine ⟨st, rfl, ?_, h2, h3⟩
        rw [h1]
        constructor
        · intro h; exact ⟨chk, hchk, hnl, .inl h⟩
        · rintro ⟨chk', hchk', _, h | ⟨_, h⟩⟩
          · exact h
          · rw [hchk] at hchk'; injection hchk' with hchk'; subst hchk'
            exact absurd (max_lt h.1 h.2) hm
    · rw [if_neg hl]
      refine ⟨st, rfl, ?_, h2, h3⟩
      constructor
      · intro h; exact ⟨chk, hchk, hnl, .inl (h1.1 h)⟩
      · rintro ⟨chk', hchk', _, h | ⟨hs, h⟩⟩
        · exact h1.2 h
        · by_cases h2' : st.2 = true
          · exact h2 h2'
          · exfalso; apply hl
            simp only [Bool.and_eq_true, Bool.not_eq_true', Bool.or_eq_true, beq_iff_eq]
            exact ⟨by simpa using h2', hs⟩

end Verif.Sched
