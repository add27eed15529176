import Verif.Sched.Lemmas

set_option linter.unusedSectionVars false

/-! The loop over the checked cells (`frontend.py` 609-619), for `Verif.Sched.Props`. -/

namespace Verif.Sched
open Verif Verif.Slice

variable {ι σ : Type} [DecidableEq ι] [DecidableEq σ]

theorem unsafeOwners_spec {w : World ι σ} {x : ι} : ∀ {l : List (Bool × Timestamp)} {s : Finset ι},
    unsafeOwners w x l = .ok s → ∀ u, u ∈ s ↔ ∃ t, (true, t) ∈ l ∧ t.isInitialized = true ∧
      w.ownerOf t.cellNum = some u ∧ w.pos x < w.pos u := by
  intro l
  induction l with
  | nil => intro s h u; unfold unsafeOwners at h; injection h with h; subst h; simp
  | cons a l ih =>
    obtain ⟨deep, t⟩ := a
    intro s h u
    unfold unsafeOwners at h
    by_cases hd : (!deep || !t.isInitialized) = true
    · rw [if_pos hd] at h
      rw [ih h u]
      constructor
      · rintro ⟨t', ht', h'⟩; exact ⟨t', by simp [ht'], h'⟩
      · rintro ⟨t', ht', hi, h'⟩
        rcases List.mem_cons.1 ht' with he | ht'
        · simp only [Prod.mk.injEq] at he
          obtain ⟨rfl, rfl⟩ := he
          simp [hi] at hd
        · exact ⟨t', ht', hi, h'⟩
    · rw [if_neg hd] at h
      simp only [Bool.or_eq_true, Bool.not_eq_true', not_or, Bool.not_eq_false] at hd
      cases ho : w.ownerOf t.cellNum with
      | none => rw [ho] at h; simp at h
      | some v =>
        rw [ho] at h
        simp only at h
        cases hr : unsafeOwners w x l with
        | error e => rw [hr] at h; simp at h
        | ok s' =>
          rw [hr] at h
          simp only [Except.ok.injEq] at h
          have key := ih hr u
          have : u ∈ s ↔ (u = v ∧ w.pos x < w.pos v) ∨ u ∈ s' := by
            rw [← h]
            by_cases hp : w.pos x < w.pos v
            · simp [hp]
            · simp [hp]
          rw [this, key]
          constructor
          · rintro (⟨rfl, hp⟩ | ⟨t', ht', h'⟩)
            · exact ⟨t, by simp [hd.1], hd.2, ho, hp⟩
            · exact ⟨t', by simp [ht'], h'⟩
          · rintro ⟨t', ht', hi, ho', hp⟩
            rcases List.mem_cons.1 ht' with he | ht'
            · simp only [Prod.mk.injEq] at he
              obtain ⟨_, rfl⟩ := he
              rw [ho] at ho'
              injection ho' with ho'
              subst ho'
              exact .inl ⟨rfl, hp⟩
            · exact .inr ⟨t', ht', hi, ho', hp⟩

theorem unsafeOwners_total {w : World ι σ} {x : ι} : ∀ {l : List (Bool × Timestamp)},
    (∀ t, (true, t) ∈ l → t.isInitialized = true → ∃ u, w.ownerOf t.cellNum = some u) →
    ∃ s, unsafeOwners w x l = .ok s := by
  intro l
  induction l with
  | nil => intro _; exact ⟨∅, rfl⟩
  | cons a l ih =>
    obtain ⟨deep, t⟩ := a
    intro h
    obtain ⟨s, hs⟩ := ih (fun t' ht' => h t' (by simp [ht']))
    unfold unsafeOwners
    by_cases hd : (!deep || !t.isInitialized) = true
    · rw [if_pos hd]; exact ⟨s, hs⟩
    · rw [if_neg hd]
      simp only [Bool.or_eq_true, Bool.not_eq_true', not_or, Bool.not_eq_false] at hd
      obtain ⟨u, hu⟩ := h t (by simp [hd.1]) hd.2
      simp only [hu, hs]
      exact ⟨_, rfl⟩

/-- The cells made to wait by the check of `x` itself. -/
def waitsNow (w : World ι σ) (chk : Check σ) : Prop :=
  w.schedule = .liveness ∧ (chk.waitingSyms.Nonempty ∨ chk.unresolved = true)

instance (w : World ι σ) (chk : Check σ) : Decidable (waitsNow w chk) := by unfold waitsNow; infer_instance

theorem checkOneOk_eq {w : World ι σ} {lastPos : Option Pos} {r : Result ι σ} {x : ι} {chk : Check σ}
    {bad : Finset ι} {st : Bool × Bool}
    (hbad : (if w.flowOrder = .inOrder then unsafeOwners w x chk.liveTimes else .ok ∅) = .ok bad)
    (hst : computeReadiness w (if waitsNow w chk then insert x r.waiting else r.waiting) x chk = .ok st) :
    checkOneOk w lastPos r x chk = .ok {
      waiting := if waitsNow w chk then insert x r.waiting else r.waiting
      ready := if st.1 then insert x r.ready else r.ready
      newReady := if ¬ (w.flowOrder = .inOrder ∧ (∃ p ∈ lastPos, w.pos x ≤ p)) ∧
          (st.2 = true ∨ (w.ctr x > 0 ∧ r.readyFlag x = false ∧ st.1 = true ∧ w.cellCounter ≥ w.minNewReady))
        then insert x r.newReady else r.newReady
      typeErr := if chk.typechecks then r.typeErr else insert x r.typeErr
      forced := r.forced
      cascading := r.cascading
      unsafeOrder := Function.update r.unsafeOrder x (r.unsafeOrder x ∪ bad)
      waitingSyms := if w.schedule = .liveness ∧ chk.waitingSyms.Nonempty then
        Function.update r.waitingSyms x chk.waitingSyms else r.waitingSyms
      killing := fun s => if s ∈ chk.dead then insert x (r.killing s) else r.killing s
      readyFlag := Function.update r.readyFlag x st.1
      links := r.links
      makers := r.makers } := by
  obtain ⟨s1, s2⟩ := st
  unfold checkOneOk
  simp only [hbad]
  have hcond : ((if w.schedule = .liveness then chk.waitingSyms else ∅).Nonempty ∨
      (if w.schedule = .liveness then chk.unresolved else false) = true) ↔ waitsNow w chk := by
    unfold waitsNow; by_cases h : w.schedule = .liveness <;> simp [h]
  have hcond2 : (if w.schedule = .liveness then chk.waitingSyms else ∅).Nonempty ↔
      (w.schedule = .liveness ∧ chk.waitingSyms.Nonempty) := by
    by_cases h : w.schedule = .liveness <;> simp [h]
  by_cases hA : waitsNow w chk
  · simp only [if_pos (hcond.2 hA)]
    simp only [if_pos hA] at hst ⊢
    by_cases hB : w.schedule = .liveness ∧ chk.waitingSyms.Nonempty
    · simp only [if_pos (hcond2.2 hB), if_pos hB]
      simp only [if_pos hB.1]
      by_cases hT : chk.typechecks = true
      · simp only [if_pos hT, hst]
        by_cases hP : (w.flowOrder = .inOrder ∧ (∃ p ∈ lastPos, w.pos x ≤ p))
        · simp only [if_pos hP, if_neg (fun h : ¬ _ ∧ _ => h.1 hP)]
          cases s1 <;> rfl
        · by_cases hN : (s2 = true ∨ (w.ctr x > 0 ∧ r.readyFlag x = false ∧ s1 = true ∧ w.cellCounter ≥ w.minNewReady))
          · simp only [if_neg hP, if_pos (And.intro hP hN)]
            cases s1 <;> exact if_pos hN
          · simp only [if_neg hP, if_neg (fun h : ¬ _ ∧ _ => hN h.2)]
            cases s1 <;> exact if_neg hN
      · simp only [if_neg hT, hst]
        by_cases hP : (w.flowOrder = .inOrder ∧ (∃ p ∈ lastPos, w.pos x ≤ p))
        · simp only [if_pos hP, if_neg (fun h : ¬ _ ∧ _ => h.1 hP)]
          cases s1 <;> rfl
        · by_cases hN : (s2 = true ∨ (w.ctr x > 0 ∧ r.readyFlag x = false ∧ s1 = true ∧ w.cellCounter ≥ w.minNewReady))
          · simp only [if_neg hP, if_pos (And.intro hP hN)]
            cases s1 <;> exact if_pos hN
          · simp only [if_neg hP, if_neg (fun h : ¬ _ ∧ _ => hN h.2)]
            cases s1 <;> exact if_neg hN
    · simp only [if_neg (fun h => hB (hcond2.1 h)), if_neg hB]
      by_cases hT : chk.typechecks = true
      · simp only [if_pos hT, hst]
        by_cases hP : (w.flowOrder = .inOrder ∧ (∃ p ∈ lastPos, w.pos x ≤ p))
        · simp only [if_pos hP, if_neg (fun h : ¬ _ ∧ _ => h.1 hP)]
          cases s1 <;> rfl
        · by_cases hN : (s2 = true ∨ (w.ctr x > 0 ∧ r.readyFlag x = false ∧ s1 = true ∧ w.cellCounter ≥ w.minNewReady))
          · simp only [if_neg hP, if_pos (And.intro hP hN)]
            cases s1 <;> exact if_pos hN
          · simp only [if_neg hP, if_neg (fun h : ¬ _ ∧ _ => hN h.2)]
            cases s1 <;> exact if_neg hN
      · simp only [if_neg hT, hst]
        by_cases hP : (w.flowOrder = .inOrder ∧ (∃ p ∈ lastPos, w.pos x ≤ p))
        · simp only [if_pos hP, if_neg (fun h : ¬ _ ∧ _ => h.1 hP)]
          cases s1 <;> rfl
        · by_cases hN : (s2 = true ∨ (w.ctr x > 0 ∧ r.readyFlag x = false ∧ s1 = true ∧ w.cellCounter ≥ w.minNewReady))
          · simp only [if_neg hP, if_pos (And.intro hP hN)]
            cases s1 <;> exact if_pos hN
          · simp only [if_neg hP, if_neg (fun h : ¬ _ ∧ _ => hN h.2)]
            cases s1 <;> exact if_neg hN
  · have hB : ¬ (w.schedule = .liveness ∧ chk.waitingSyms.Nonempty) := fun h => hA ⟨h.1, .inl h.2⟩
    simp only [if_neg (fun h => hA (hcond.1 h)), if_neg (fun h => hB (hcond2.1 h)), if_neg hB]
    simp only [if_neg hA] at hst ⊢
    by_cases hT : chk.typechecks = true
    · simp only [if_pos hT, hst]
      by_cases hP : (w.flowOrder = .inOrder ∧ (∃ p ∈ lastPos, w.pos x ≤ p))
      · simp only [if_pos hP, if_neg (fun h : ¬ _ ∧ _ => h.1 hP)]
        cases s1 <;> rfl
      · by_cases hN : (s2 = true ∨ (w.ctr x > 0 ∧ r.readyFlag x = false ∧ s1 = true ∧ w.cellCounter ≥ w.minNewReady))
        · simp only [if_neg hP, if_pos (And.intro hP hN)]
          cases s1 <;> exact if_pos hN
        · simp only [if_neg hP, if_neg (fun h : ¬ _ ∧ _ => hN h.2)]
          cases s1 <;> exact if_neg hN
    · simp only [if_neg hT, hst]
      by_cases hP : (w.flowOrder = .inOrder ∧ (∃ p ∈ lastPos, w.pos x ≤ p))
      · simp only [if_pos hP, if_neg (fun h : ¬ _ ∧ _ => h.1 hP)]
        cases s1 <;> rfl
      · by_cases hN : (s2 = true ∨ (w.ctr x > 0 ∧ r.readyFlag x = false ∧ s1 = true ∧ w.cellCounter ≥ w.minNewReady))
        · simp only [if_neg hP, if_pos (And.intro hP hN)]
          cases s1 <;> exact if_pos hN
        · simp only [if_neg hP, if_neg (fun h : ¬ _ ∧ _ => hN h.2)]
          cases s1 <;> exact if_neg hN

/-- What holds after the cells `done` were checked. -/
structure CheckInv (w : World ι σ) (lastPos : Option Pos) (done : List ι) (r : Result ι σ) : Prop where
  waiting : ∀ x, x ∈ r.waiting ↔ x ∈ done ∧ LiveWaits w x
  ready : ∀ x, x ∈ r.ready ↔ x ∈ done ∧ NeedsRerun w x
  newReady : ∀ x ∈ r.newReady, x ∈ done ∧ NeedsRerun w x ∧ 0 < w.ctr x ∧
    (w.flowOrder = .inOrder → ∀ p, lastPos = some p → p < w.pos x)
  typeErr : ∀ x, x ∈ r.typeErr ↔ x ∈ done ∧ ∃ chk, w.check x = some chk ∧ chk.typechecks = false
  unsafeOrder : ∀ x u, u ∈ r.unsafeOrder x ↔ x ∈ done ∧ UsesFromBelow w x u
  waitingSyms : ∀ x s, s ∈ r.waitingSyms x ↔ x ∈ done ∧ w.schedule = .liveness ∧
    ∃ chk, w.check x = some chk ∧ s ∈ chk.waitingSyms
  killing : ∀ s x, x ∈ r.killing s ↔ x ∈ done ∧ ∃ chk, w.check x = some chk ∧ s ∈ chk.dead
  links : ∀ x, r.links x = ∅
  makers : ∀ x, r.makers x = ∅
  cascading : r.cascading = ∅

theorem checkInv_empty (w : World ι σ) (lastPos : Option Pos) (F : Finset ι) :
    CheckInv w lastPos [] { Result.empty w with forced := F } := by
  constructor <;> simp [Result.empty]

theorem checkOne_step {w : World ι σ} {lastPos : Option Pos} {done : List ι} {r r' : Result ι σ} {x : ι}
    (hinv : CheckInv w lastPos done r) (h : checkOne w lastPos r x = .ok r') :
    CheckInv w lastPos (done ++ [x]) r' := by
  unfold checkOne at h
  cases hchk : w.check x with
  | none =>
    rw [hchk] at h
    injection h with h
    subst h
    have hmem : ∀ (P : ι → Prop), ¬ P x → ∀ y, (y ∈ done ∧ P y ↔ y ∈ done ++ [x] ∧ P y) := by
      intro P hP y
      simp only [List.mem_append, List.mem_singleton]
      constructor
      · rintro ⟨a, b⟩; exact ⟨.inl a, b⟩
      · rintro ⟨a | rfl, b⟩
        · exact ⟨a, b⟩
        · exact absurd b hP
    constructor
    · intro y; rw [hinv.waiting, hmem (LiveWaits w)]; rintro ⟨_, chk, hc, _⟩; rw [hchk] at hc; cases hc
    · intro y; rw [hinv.ready, hmem (NeedsRerun w)]; rintro ⟨chk, hc, _⟩; rw [hchk] at hc; cases hc
    · intro y hy
      obtain ⟨a, b⟩ := hinv.newReady y hy
      exact ⟨by simp [a], b⟩
    · intro y; rw [hinv.typeErr]
      rw [hmem (fun y => ∃ chk, w.check y = some chk ∧ chk.typechecks = false)]
      rintro ⟨chk, hc, _⟩; rw [hchk] at hc; cases hc
    · intro y u; rw [hinv.unsafeOrder]
      rw [hmem (fun y => UsesFromBelow w y u)]
      rintro ⟨_, chk, _, hc, _⟩; rw [hchk] at hc; cases hc
    · intro y s; rw [hinv.waitingSyms]
      rw [hmem (fun y => w.schedule = .liveness ∧ ∃ chk, w.check y = some chk ∧ s ∈ chk.waitingSyms)]
      rintro ⟨_, chk, hc, _⟩; rw [hchk] at hc; cases hc
    · intro s y; rw [hinv.killing]
      rw [hmem (fun y => ∃ chk, w.check y = some chk ∧ s ∈ chk.dead)]
      rintro ⟨chk, hc, _⟩; rw [hchk] at hc; cases hc
    · exact hinv.links
    · exact hinv.makers
    · exact hinv.cascading
  | some chk =>
    rw [hchk] at h
    simp only at h
    -- the unsafe owners
    cases hbad : (if w.flowOrder = .inOrder then unsafeOwners w x chk.liveTimes else .ok ∅ : Except Err (Finset ι)) with
    | error e => unfold checkOneOk at h; simp only [hbad] at h; cases h
    | ok bad =>
      have hLW : waitsNow w chk ↔ LiveWaits w x := by
        unfold waitsNow LiveWaits
        constructor
        · rintro ⟨a, b⟩; exact ⟨a, chk, hchk, b⟩
        · rintro ⟨a, chk', hc, b⟩
          rw [hchk] at hc; injection hc with hc; subst hc; exact ⟨a, b⟩
      have hW : x ∈ (if waitsNow w chk then insert x r.waiting else r.waiting) ↔ LiveWaits w x := by
        by_cases hA : waitsNow w chk
        · simp [hA, hLW.1 hA]
        · simp only [if_neg hA]
          rw [hinv.waiting]
          constructor
          · intro h; exact h.2
          · intro h; exact absurd (hLW.2 h) hA
      obtain ⟨st, hst, hready, hnew, hctr⟩ := computeReadiness_spec hchk hW
      rw [checkOneOk_eq hbad hst] at h
      injection h with h
      subst h
      have hin : ∀ y, y ∈ done ++ [x] ↔ y ∈ done ∨ y = x := by simp
      constructor
      · intro y
        simp only [hin]
        by_cases hA : waitsNow w chk
        · simp only [if_pos hA, Finset.mem_insert, hinv.waiting]
          constructor
          · rintro (rfl | h)
            · exact ⟨.inr rfl, hLW.1 hA⟩
            · exact ⟨.inl h.1, h.2⟩
          · rintro ⟨h | rfl, h'⟩
            · exact .inr ⟨h, h'⟩
            · exact .inl rfl
        · simp only [if_neg hA, hinv.waiting]
          constructor
          · rintro h; exact ⟨.inl h.1, h.2⟩
          · rintro ⟨h | rfl, h'⟩
            · exact ⟨h, h'⟩
            · exact absurd (hLW.2 h') hA
      · intro y
        simp only [hin]
        by_cases hA : st.1 = true
        · simp only [if_pos hA, Finset.mem_insert, hinv.ready]
          constructor
          · rintro (rfl | h)
            · exact ⟨.inr rfl, hready.1 hA⟩
            · exact ⟨.inl h.1, h.2⟩
          · rintro ⟨h | rfl, h'⟩
            · exact .inr ⟨h, h'⟩
            · exact .inl rfl
        · simp only [if_neg hA, hinv.ready]
          constructor
          · rintro h; exact ⟨.inl h.1, h.2⟩
          · rintro ⟨h | rfl, h'⟩
            · exact ⟨h, h'⟩
            · exact absurd (hready.2 h') hA
      · intro y hy
        simp only [hin]
        have hold : y ∈ r.newReady → _ := fun hy => hinv.newReady y hy
        simp only at hy
        split_ifs at hy with hc
        · rcases Finset.mem_insert.1 hy with rfl | hy
          · have h1 : st.1 = true := by
              rcases hc.2 with h | h
              · exact hnew h
              · exact h.2.2.1
            have h2 : 0 < w.ctr y := by
              rcases hc.2 with h | h
              · exact hctr h
              · exact h.1
            refine ⟨.inr rfl, hready.1 h1, h2, ?_⟩
            intro hin p hp
            by_contra hle
            exact hc.1 ⟨hin, p, hp, not_lt.1 hle⟩
          · obtain ⟨a, b⟩ := hold hy; exact ⟨.inl a, b⟩
        · obtain ⟨a, b⟩ := hold hy; exact ⟨.inl a, b⟩
      · intro y
        simp only [hin]
        by_cases hT : chk.typechecks = true
        · simp only [if_pos hT, hinv.typeErr]
          constructor
          · rintro h; exact ⟨.inl h.1, h.2⟩
          · rintro ⟨h | rfl, h'⟩
            · exact ⟨h, h'⟩
            · obtain ⟨chk', hc, hf⟩ := h'
              rw [hchk] at hc; injection hc with hc; subst hc; rw [hT] at hf; cases hf
        · simp only [if_neg hT, Finset.mem_insert, hinv.typeErr]
          constructor
          · rintro (rfl | h)
            · exact ⟨.inr rfl, chk, hchk, by simpa using hT⟩
            · exact ⟨.inl h.1, h.2⟩
          · rintro ⟨h | rfl, h'⟩
            · exact .inr ⟨h, h'⟩
            · exact .inl rfl
      · intro y u
        simp only [hin]
        have hbadspec : u ∈ bad ↔ UsesFromBelow w x u := by
          by_cases ho : w.flowOrder = .inOrder
          · rw [if_pos ho] at hbad
            rw [unsafeOwners_spec hbad]
            unfold UsesFromBelow
            constructor
            · rintro ⟨t, h1, h2⟩; exact ⟨ho, chk, t, hchk, h1, h2⟩
            · rintro ⟨_, chk', t, hc, h⟩
              rw [hchk] at hc; injection hc with hc; subst hc; exact ⟨t, h⟩
          · rw [if_neg ho] at hbad
            injection hbad with hbad
            subst hbad
            simp [UsesFromBelow, ho]
        by_cases hy : y = x
        · subst hy
          simp only [Function.update_self, Finset.mem_union, hinv.unsafeOrder, hbadspec]
          tauto
        · simp only [Function.update_of_ne hy, hinv.unsafeOrder, hy, or_false]
      · intro y s
        simp only [hin]
        have hspec : (w.schedule = .liveness ∧ ∃ chk', w.check x = some chk' ∧ s ∈ chk'.waitingSyms) ↔
            (w.schedule = .liveness ∧ s ∈ chk.waitingSyms) := by simp [hchk]
        by_cases hB : w.schedule = .liveness ∧ chk.waitingSyms.Nonempty
        · simp only [if_pos hB]
          by_cases hy : y = x
          · subst hy
            simp [hchk, hB.1]
          · simp only [Function.update_of_ne hy, hinv.waitingSyms, hy, or_false]
        · simp only [if_neg hB, hinv.waitingSyms]
          by_cases hy : y = x
          · subst hy
            simp only [hspec, or_true, true_and]
            constructor
            · intro h; exact h.2
            · intro h; exact absurd ⟨h.1, s, h.2⟩ hB
          · simp only [hy, or_false]
      · intro s y
        simp only [hin]
        by_cases hd : s ∈ chk.dead
        · simp only [if_pos hd, Finset.mem_insert, hinv.killing]
          constructor
          · rintro (rfl | h)
            · exact ⟨.inr rfl, chk, hchk, hd⟩
            · exact ⟨.inl h.1, h.2⟩
          · rintro ⟨h | rfl, h'⟩
            · exact .inr ⟨h, h'⟩
            · exact .inl rfl
        · simp only [if_neg hd, hinv.killing]
          constructor
          · rintro h; exact ⟨.inl h.1, h.2⟩
          · rintro ⟨h | rfl, h'⟩
            · exact ⟨h, h'⟩
            · obtain ⟨chk', hc, hf⟩ := h'
              rw [hchk] at hc; injection hc with hc; subst hc; exact absurd hf hd
      · exact hinv.links
      · exact hinv.makers
      · exact hinv.cascading

theorem checkAll_inv {w : World ι σ} {lastPos : Option Pos} : ∀ {l done : List ι} {r r' : Result ι σ},
    CheckInv w lastPos done r → l.foldlM (checkOne w lastPos) r = .ok r' → CheckInv w lastPos (done ++ l) r' := by
  intro l
  induction l with
  | nil => intro done r r' h he; cases he; simpa using h
  | cons x l ih =>
    intro done r r' h he
    rw [List.foldlM_cons] at he
    cases h1 : checkOne w lastPos r x with
    | error e => rw [h1] at he; cases he
    | ok r1 =>
      rw [h1] at he
      have := ih (checkOne_step h h1) he
      simpa using this

theorem checkOne_total {w : World ι σ} {lastPos : Option Pos} {done : List ι} {r : Result ι σ} {x : ι}
    (hinv : CheckInv w lastPos done r) (hk : OwnersKnown w x) : ∃ r', checkOne w lastPos r x = .ok r' := by
  unfold checkOne
  cases hchk : w.check x with
  | none => exact ⟨r, rfl⟩
  | some chk =>
    simp only
    have hbad : ∃ bad, (if w.flowOrder = .inOrder then unsafeOwners w x chk.liveTimes else .ok ∅ :
        Except Err (Finset ι)) = .ok bad := by
      by_cases ho : w.flowOrder = .inOrder
      · rw [if_pos ho]; exact unsafeOwners_total (hk ho chk hchk)
      · rw [if_neg ho]; exact ⟨∅, rfl⟩
    obtain ⟨bad, hbad⟩ := hbad
    have hLW : waitsNow w chk ↔ LiveWaits w x := by
      unfold waitsNow LiveWaits
      constructor
      · rintro ⟨a, b⟩; exact ⟨a, chk, hchk, b⟩
      · rintro ⟨a, chk', hc, b⟩
        rw [hchk] at hc; injection hc with hc; subst hc; exact ⟨a, b⟩
    have hW : x ∈ (if waitsNow w chk then insert x r.waiting else r.waiting) ↔ LiveWaits w x := by
      by_cases hA : waitsNow w chk
      · simp [hA, hLW.1 hA]
      · simp only [if_neg hA]
        rw [hinv.waiting]
        constructor
        · intro h; exact h.2
        · intro h; exact absurd (hLW.2 h) hA
    obtain ⟨st, hst, _⟩ := computeReadiness_spec hchk hW
    exact ⟨_, checkOneOk_eq hbad hst⟩

theorem checkAll_total {w : World ι σ} {lastPos : Option Pos} : ∀ {l done : List ι} {r : Result ι σ},
    CheckInv w lastPos done r → (∀ x ∈ l, OwnersKnown w x) → ∃ r', l.foldlM (checkOne w lastPos) r = .ok r' := by
  intro l
  induction l with
  | nil => intro done r _ _; exact ⟨r, rfl⟩
  | cons x l ih =>
    intro done r h hk
    obtain ⟨r1, h1⟩ := checkOne_total h (hk x (by simp))
    obtain ⟨r2, h2⟩ := ih (checkOne_step h h1) (fun y hy => hk y (by simp [hy]))
    refine ⟨r2, ?_⟩
    rw [List.foldlM_cons, h1]
    exact h2

end Verif.Sched
