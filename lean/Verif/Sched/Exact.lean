import Verif.Sched.ExactSpec
import Verif.Sched.GraphProps

set_option linter.unusedSectionVars false

/-!
# Newly ready cells, forced cells and links are exact (C180, C181, C182)
-/

namespace Verif.Sched
open Verif Verif.Slice

variable {ι σ : Type} [DecidableEq ι] [DecidableEq σ]

/-! ## Helper lemmas -/

theorem readiness_new {w : World ι σ} {W : Finset ι} {x : ι} {chk : Check σ} {st : Bool × Bool} (hchk : w.check x = some chk)
    (hW : x ∈ W ↔ LiveWaits w x) (h : computeReadiness w W x chk = .ok st) :
    st.2 = true ↔ ¬ LiveWaits w x ∧ 0 < w.ctr x ∧ NewsFor w x := by
  unfold computeReadiness at h
  by_cases hx : x ∈ W
  · rw [if_pos hx] at h
    injection h with h
    subst h
    simp [hW.1 hx]
  · rw [if_neg hx] at h
    have hnl : ¬ LiveWaits w x := fun h => hx (hW.2 h)
    have hst : ∃ st0, (if w.dagLike then readinessDag w (latestParByTs w x) x w.ctxs (false, false)
        else (.ok (false, false) : Except Err (Bool × Bool))) = .ok st0 ∧
        (st0.2 = true ↔ w.schedule ≠ .liveness ∧ 0 < w.ctr x ∧ NewInput w x) := by
      by_cases hd : w.dagLike = true
      · rw [if_pos hd]
        obtain ⟨s, h, _, _, hb⟩ := readinessDag_spec (w := w) (x := x) w.ctxs (false, false) (fun _ h => h) (by simp)
        refine ⟨s, h, ?_⟩
        rw [hb]
        simp only [Bool.false_eq_true, false_or]
        constructor
        · rintro ⟨c, hc, p, S, he, a, b, d, e, f⟩
          exact ⟨dagLike_iff.1 hd, f, c, hc, p, S, he, a, b, d, e⟩
        · rintro ⟨_, f, c, hc, p, S, he, a, b, d, e⟩
          exact ⟨c, hc, p, S, he, a, b, d, e, f⟩
      · rw [if_neg hd]
        have : w.schedule = .liveness := by
          by_contra h; exact hd (dagLike_iff.2 h)
        exact ⟨_, rfl, by simp [this]⟩
    obtain ⟨s0, h0, h1⟩ := hst
    simp only [h0] at h
    have hkey : NewsFor w x ∧ 0 < w.ctr x ↔ s0.2 = true ∨ (0 < w.ctr x ∧
        (w.schedule = .liveness ∨ (w.schedule = .hybrid ∧ w.flowOrder = .inOrder)) ∧ StaleLive w x chk ∧ w.minNewReady ≤ chk.maxUsed) := by
      rw [h1]
      unfold NewsFor
      constructor
      · rintro ⟨⟨a, b⟩ | ⟨a, chk', hc, b⟩, hp⟩
        · exact .inl ⟨a, hp, b⟩
        · rw [hchk] at hc; injection hc with hc; subst hc
          exact .inr ⟨hp, a, b⟩
      · rintro (⟨a, b, d⟩ | ⟨a, b, d⟩)
        · exact ⟨.inl ⟨a, d⟩, b⟩
        · exact ⟨.inr ⟨b, chk, hchk, d⟩, a⟩
    rw [and_comm (a := 0 < w.ctr x), hkey]
    simp only [hnl, not_false_eq_true, true_and]
    by_cases hl : (!s0.2 && (w.schedule == .liveness || (w.schedule == .hybrid && w.flowOrder == .inOrder))) = true
    · rw [if_pos hl] at h
      simp only [Bool.and_eq_true, Bool.not_eq_true', Bool.or_eq_true, beq_iff_eq] at hl
      by_cases hm : chk.maxUsed > max (w.ctr x) w.minTimestamp
      · rw [if_pos hm] at h
        injection h with h
        subst h
        have hsl : StaleLive w x chk := ⟨lt_of_le_of_lt (le_max_left _ _) hm, lt_of_le_of_lt (le_max_right _ _) hm⟩
        simp only [Bool.or_eq_true, Bool.and_eq_true, decide_eq_true_eq, gt_iff_lt, ge_iff_le]
        constructor
        · rintro (a | ⟨a, b⟩)
          · exact .inl a
          · exact .inr ⟨a, hl.2, hsl, b⟩
        · rintro (a | ⟨a, _, _, b⟩)
          · exact .inl a
          · exact .inr ⟨a, b⟩
      · rw [if_neg hm] at h
        injection h with h
        subst h
        constructor
        · exact .inl
        · rintro (a | ⟨_, _, b, _⟩)
          · exact a
          · exact absurd (max_lt b.1 b.2) hm
    · rw [if_neg hl] at h
      injection h with h
      subst h
      constructor
      · exact .inl
      · rintro (a | ⟨_, b, _⟩)
        · exact a
        · by_contra hn
          apply hl
          simp only [Bool.and_eq_true, Bool.not_eq_true', Bool.or_eq_true, beq_iff_eq]
          exact ⟨by simpa using hn, b⟩

theorem waits_iff {w : World ι σ} {lastPos : Option Pos} {done : List ι} {r : Result ι σ} {x : ι} {chk : Check σ}
    (hinv : CheckInv w lastPos done r) (hchk : w.check x = some chk) :
    x ∈ (if waitsNow w chk then insert x r.waiting else r.waiting) ↔ LiveWaits w x := by
  have hLW : waitsNow w chk ↔ LiveWaits w x := by
    unfold waitsNow LiveWaits
    constructor
    · rintro ⟨a, b⟩; exact ⟨a, chk, hchk, b⟩
    · rintro ⟨a, chk', hc, b⟩
      rw [hchk] at hc; injection hc with hc; subst hc; exact ⟨a, b⟩
  by_cases hA : waitsNow w chk
  · simp [hA, hLW.1 hA]
  · simp only [if_neg hA]
    rw [hinv.waiting]
    exact ⟨fun h => h.2, fun h => absurd (hLW.2 h) hA⟩

/-- What holds about newly ready cells after the cells `done` were checked. -/
structure NewInv (w : World ι σ) (lastPos : Option Pos) (done : List ι) (r : Result ι σ) : Prop where
  newReady : ∀ x, x ∈ r.newReady ↔ x ∈ done ∧ NeedsRerun w x ∧ 0 < w.ctr x ∧ (w.flowOrder = .inOrder → ∀ p, lastPos = some p → p < w.pos x) ∧
    (NewsFor w x ∨ (w.wasReady x = false ∧ w.minNewReady ≤ w.cellCounter))
  flag : ∀ x, x ∉ done → r.readyFlag x = w.wasReady x

theorem newInv_step {w : World ι σ} {lastPos : Option Pos} {done : List ι} {r r' : Result ι σ} {x : ι}
    (hinv : CheckInv w lastPos done r) (hn : NewInv w lastPos done r) (hx : x ∉ done) (h : checkOne w lastPos r x = .ok r') :
    NewInv w lastPos (done ++ [x]) r' := by
  unfold checkOne at h
  cases hchk : w.check x with
  | none =>
    rw [hchk] at h
    injection h with h
    subst h
    refine ⟨fun y => ?_, fun y hy => hn.flag y (fun h => hy (by simp [h]))⟩
    rw [hn.newReady]
    simp only [List.mem_append, List.mem_singleton]
    constructor
    · rintro ⟨a, b⟩; exact ⟨.inl a, b⟩
    · rintro ⟨a | rfl, b⟩
      · exact ⟨a, b⟩
      · obtain ⟨⟨chk, hc, _⟩, _⟩ := b
        rw [hchk] at hc; cases hc
  | some chk =>
    rw [hchk] at h
    simp only at h
    cases hbad : (if w.flowOrder = .inOrder then unsafeOwners w x chk.liveTimes else .ok ∅ : Except Err (Finset ι)) with
    | error e => unfold checkOneOk at h; simp only [hbad] at h; cases h
    | ok bad =>
      have hW := waits_iff hinv hchk
      obtain ⟨st, hst, hready, hnew, hctr⟩ := computeReadiness_spec hchk hW
      have hN := readiness_new hchk hW hst
      rw [checkOneOk_eq hbad hst] at h
      injection h with h
      subst h
      refine ⟨fun y => ?_, fun y hy => ?_⟩
      · simp only [List.mem_append, List.mem_singleton]
        by_cases hy : y = x
        · subst hy
          have hold : y ∉ r.newReady := fun h => hx ((hn.newReady y).1 h).1
          rw [hn.flag y hx]
          have hiff : ((¬ (w.flowOrder = .inOrder ∧ (∃ p ∈ lastPos, w.pos y ≤ p)) ∧
              (st.2 = true ∨ (w.ctr y > 0 ∧ w.wasReady y = false ∧ st.1 = true ∧ w.cellCounter ≥ w.minNewReady))) ↔
              NeedsRerun w y ∧ 0 < w.ctr y ∧ (w.flowOrder = .inOrder → ∀ p, lastPos = some p → p < w.pos y) ∧
                (NewsFor w y ∨ (w.wasReady y = false ∧ w.minNewReady ≤ w.cellCounter))) := by
            have hb : ¬ (w.flowOrder = .inOrder ∧ (∃ p ∈ lastPos, w.pos y ≤ p)) ↔
                (w.flowOrder = .inOrder → ∀ p, lastPos = some p → p < w.pos y) := by
              constructor
              · intro a ho p hp
                by_contra hle
                exact a ⟨ho, p, hp, not_lt.1 hle⟩
              · rintro a ⟨ho, p, hp, hle⟩
                exact absurd (a ho p hp) (not_lt.2 hle)
            rw [hb]
            constructor
            · rintro ⟨a, b | ⟨c1, c2, c3, c4⟩⟩
              · exact ⟨hready.1 (hnew b), hctr b, a, .inl (hN.1 b).2.2⟩
              · exact ⟨hready.1 c3, c1, a, .inr ⟨c2, c4⟩⟩
            · rintro ⟨a, b, c, d | ⟨d1, d2⟩⟩
              · refine ⟨c, .inl (hN.2 ⟨?_, b, d⟩)⟩
                obtain ⟨_, _, hl, _⟩ := a
                exact hl
              · exact ⟨c, .inr ⟨b, d1, hready.2 a, d2⟩⟩
          simp only [or_true, true_and]
          rw [← hiff]
          split_ifs with hc
          · exact ⟨fun _ => hc, fun _ => Finset.mem_insert_self _ _⟩
          · exact ⟨fun h => absurd h hold, fun h => absurd h hc⟩
        · simp only [hy, or_false]
          rw [← hn.newReady]
          split_ifs with hc
          · simp [hy]
          · exact Iff.rfl
      · simp only [List.mem_append, List.mem_singleton, not_or] at hy
        simp only [Function.update_of_ne hy.2]
        exact hn.flag y hy.1

theorem newInv_all {w : World ι σ} {lastPos : Option Pos} : ∀ {l done : List ι} {r r' : Result ι σ},
    CheckInv w lastPos done r → NewInv w lastPos done r → (done ++ l).Nodup → l.foldlM (checkOne w lastPos) r = .ok r' →
    NewInv w lastPos (done ++ l) r' := by
  intro l
  induction l with
  | nil => intro done r r' _ hn _ he; cases he; simpa using hn
  | cons x l ih =>
    intro done r r' h hn hd he
    rw [List.foldlM_cons] at he
    cases h1 : checkOne w lastPos r x with
    | error e => rw [h1] at he; cases he
    | ok r1 =>
      rw [h1] at he
      have hx : x ∉ done := fun hm => (List.nodup_append.1 hd).2.2 x hm x (by simp) rfl
      have := ih (checkOne_step h h1) (newInv_step h hn hx h1) (by simpa using hd) he
      simpa using this

theorem forced_all {w : World ι σ} {lastPos : Option Pos} : ∀ {l done : List ι} {r r' : Result ι σ}, CheckInv w lastPos done r →
    l.foldlM (checkOne w lastPos) r = .ok r' → r'.forced = r.forced := by
  intro l
  induction l with
  | nil => intro done r r' _ he; cases he; rfl
  | cons x l ih =>
    intro done r r' hinv he
    rw [List.foldlM_cons] at he
    cases h1 : checkOne w lastPos r x with
    | error e => rw [h1] at he; cases he
    | ok r1 =>
      rw [h1] at he
      rw [ih (checkOne_step hinv h1) he]
      unfold checkOne at h1
      cases hchk : w.check x with
      | none => rw [hchk] at h1; injection h1 with h1; rw [h1]
      | some chk =>
        rw [hchk] at h1
        simp only at h1
        cases hbad : (if w.flowOrder = .inOrder then unsafeOwners w x chk.liveTimes else .ok ∅ : Except Err (Finset ι)) with
        | error e => unfold checkOneOk at h1; simp only [hbad] at h1; cases h1
        | ok bad =>
          obtain ⟨st, hst, _⟩ := computeReadiness_spec hchk (waits_iff hinv hchk)
          rw [checkOneOk_eq hbad hst] at h1
          injection h1 with h1
          rw [← h1]

/-- The steps of a finished computation. -/
theorem compute_parts {w : World ι σ} {cells : List ι} {F : Finset ι} {order : Finset ι → List ι} {fuel : Nat} {r : Result ι σ}
    (h : compute w cells F order fuel = .ok r) : ∃ r1 r2,
      (sortByPos w cells).foldlM (checkOne w (w.lastExecuted.map w.pos)) { Result.empty w with forced := F } = .ok r1 ∧
      dagWaiters w (sortByPos w cells) fuel r1 = .ok r2 ∧ r.ready = r2.ready ∧ r.waiting = r2.waiting ∧ r.newReady = r2.newReady ∧
      r.forced = (maybeReactiveCells w ((sortByPos w cells).filter fun x => (w.check x).isSome).toFinset (w.lastExecuted.map w.pos) r2).forced ∧
      r.cascading = (maybeReactiveCells w ((sortByPos w cells).filter fun x => (w.check x).isSome).toFinset (w.lastExecuted.map w.pos) r2).cascading := by
  unfold compute at h
  simp only at h
  cases h1 : (sortByPos w cells).foldlM (checkOne w (w.lastExecuted.map w.pos)) { Result.empty w with forced := F } with
  | error e => rw [h1] at h; cases h
  | ok r1 =>
    rw [h1] at h
    simp only at h
    cases h2 : dagWaiters w (sortByPos w cells) fuel r1 with
    | error e => rw [h2] at h; cases h
    | ok r2 =>
      rw [h2] at h
      simp only at h
      refine ⟨r1, r2, rfl, h2, ?_⟩
      have hm : ∀ (c : Finset ι) (p : Option Pos), (maybeReactiveCells w c p r2).ready = r2.ready ∧ (maybeReactiveCells w c p r2).waiting = r2.waiting ∧
          (maybeReactiveCells w c p r2).newReady = r2.newReady := by
        intro c p; cases p <;> exact ⟨rfl, rfl, rfl⟩
      generalize hc : ((sortByPos w cells).filter fun x => (w.check x).isSome).toFinset = c at h ⊢
      obtain ⟨m1, m2, m3⟩ := hm c (w.lastExecuted.map w.pos)
      unfold waiterLinks at h
      split at h
      · cases h
      · simp only [finishLinks] at h
        injection h with h
        rw [← h]
        exact ⟨m1, m2, m3, rfl, rfl⟩

theorem dagWaiters_parts {w : World ι σ} {cells : List ι} {fuel : Nat} {r1 r2 : Result ι σ} (h : dagWaiters w cells fuel r1 = .ok r2) :
    r2.forced = r1.forced ∧ r2.cascading = r1.cascading ∧
      ((w.schedule ≠ .liveness ∧ r2.newReady = r1.newReady \ r2.waiting) ∨ (w.schedule = .liveness ∧ r2 = r1)) := by
  unfold dagWaiters at h
  by_cases hd : w.dagLike = true
  · simp only [hd, Bool.not_true, Bool.false_eq_true, if_false] at h
    split at h
    · cases h
    · injection h with h
      subst h
      exact ⟨rfl, rfl, .inl ⟨dagLike_iff.1 hd, rfl⟩⟩
  · have hd' : w.dagLike = false := by simpa using hd
    simp only [hd', Bool.not_false, if_true] at h
    injection h with h
    subst h
    exact ⟨rfl, rfl, .inr ⟨by by_contra h; exact hd (dagLike_iff.2 h), rfl⟩⟩

theorem mem_reactive {w : World ι σ} {cells : List ι} {r2 : Result ι σ} (hr : ∀ x ∈ r2.ready, x ∈ cells) (x : ι) :
    let r := maybeReactiveCells w ((sortByPos w cells).filter fun x => (w.check x).isSome).toFinset (w.lastExecuted.map w.pos) r2
    (x ∈ r.forced ↔ x ∈ r2.forced ∨ (x ∈ r2.ready ∧ ForcedBy w Check.maxUsedReactive x)) ∧
    (x ∈ r.cascading ↔ x ∈ r2.cascading ∨ (x ∈ r2.ready ∧ ForcedBy w Check.maxUsedCascading x)) := by
  cases hl : w.lastExecuted with
  | none => simp [maybeReactiveCells, ForcedBy, hl]
  | some l =>
    have key : ∀ (f : Check σ → Int), (x ∈ ((r2.ready ∩ ((sortByPos w cells).filter fun x => (w.check x).isSome).toFinset).filter
        fun x => ¬ (w.flowOrder = .inOrder ∧ w.pos x < w.pos l)).filter (fun x => ∃ chk ∈ w.check x, f chk > max (w.ctr x) w.minForcedReactive)) ↔
        x ∈ r2.ready ∧ ForcedBy w f x := by
      intro f
      simp only [Finset.mem_filter, Finset.mem_inter, List.mem_toFinset, List.mem_filter, mem_sortByPos, ForcedBy, hl, Option.some.injEq,
        Option.mem_def, gt_iff_lt, max_lt_iff, not_and, not_lt]
      constructor
      · rintro ⟨⟨⟨a, b, d⟩, e⟩, chk, f1, f2, f3⟩
        exact ⟨a, l, chk, rfl, f1, e, f2, f3⟩
      · rintro ⟨a, _, chk, rfl, f1, e, f2, f3⟩
        exact ⟨⟨⟨a, hr x a, by rw [f1]; rfl⟩, e⟩, chk, f1, f2, f3⟩
    simp only [Option.map_some, maybeReactiveCells, reactiveCells, Finset.mem_union]
    exact ⟨or_congr Iff.rfl (key _), or_congr Iff.rfl (key _)⟩

theorem keepEntry_iff {w : World ι σ} {c : Ctx} (hc : c ∈ w.ctxs) {x : ι} {e : ι × Finset σ} (he : Entry w c x e.1 e.2) {b : Bool}
    (h : keepEntry w (latestParByTs w x) c x e = .ok b) :
    b = true ↔ (∃ s, Seen w x e.2 s) ∧
      (w.flowOrder = .inOrder → Seen w x e.2 w.fake ∨ ∃ s, Seen w x e.2 s ∧ IsLatest w x (w.shallowTs s) e.1) ∧
      ¬ Edited w x e.1 e.2 ∧ (w.ctr e.1 < 0 ∨ ∃ s, Seen w x e.2 s ∧ w.ctr e.1 ∈ w.updatedCells s) ∧ ¬ Overtaken w c x e.1 e.2 := by
  unfold keepEntry at h
  simp only at h
  generalize hS : (e.2 \ w.removed x).filter (fun s => w.implicitVirtual s = false) = S at h
  have hmem : ∀ s, s ∈ S ↔ Seen w x e.2 s := by
    intro s; rw [← hS]; simp [Seen, Counts, and_assoc]
  by_cases h0 : S = ∅
  · rw [if_pos h0] at h
    injection h with h
    subst h
    refine ⟨fun h => by simp at h, ?_⟩
    rintro ⟨⟨s, hs⟩, _⟩
    rw [← hmem, h0] at hs
    simp at hs
  · rw [if_neg h0] at h
    have hne : ∃ s, Seen w x e.2 s := by
      obtain ⟨s, hs⟩ := Finset.nonempty_iff_ne_empty.2 h0
      exact ⟨s, (hmem s).1 hs⟩
    have hnl : ∃ b, notLatest w (latestParByTs w x) e.1 S = .ok b ∧ (b = false ↔
        (w.flowOrder = .inOrder → Seen w x e.2 w.fake ∨ ∃ s, Seen w x e.2 s ∧ IsLatest w x (w.shallowTs s) e.1)) := by
      unfold notLatest
      cases hm : latestParByTs w x with
      | none =>
        refine ⟨false, rfl, ?_⟩
        simp only [true_iff]
        intro ho
        obtain ⟨m, h'⟩ := latestPar_some.2 ho
        rw [hm] at h'; cases h'
      | some m =>
        have ho : w.flowOrder = .inOrder := latestPar_some.1 ⟨m, hm⟩
        simp only
        by_cases hf : w.fake ∈ S
        · rw [if_pos hf]
          exact ⟨false, rfl, by simp [(hmem _).1 hf]⟩
        · rw [if_neg hf]
          have hno : ¬ ∃ s ∈ S, m (w.shallowTs s) = none := by
            rintro ⟨s, hs, hn⟩
            rw [latestPar_none_iff hm] at hn
            refine hn e (mem_allEntries.2 ⟨c, hc, he⟩) ⟨s, ((hmem s).1 hs).1, ?_, rfl⟩
            rintro rfl; exact hf hs
          unfold isLatestFor
          rw [if_neg hno]
          refine ⟨_, rfl, ?_⟩
          simp only [Bool.not_eq_false', decide_eq_true_eq, ho, forall_const, latestPar_iff hm, hmem]
          constructor
          · exact .inr
          · rintro (h | h)
            · exact absurd ((hmem _).2 h) hf
            · exact h
    obtain ⟨b', hb', hiff⟩ := hnl
    rw [hb'] at h
    cases b' with
    | true =>
      injection h with h
      subst h
      refine ⟨fun h => by simp at h, ?_⟩
      rintro ⟨_, h, _⟩
      exact absurd (hiff.2 h) (by simp)
    | false =>
      have hrel := hiff.1 rfl
      simp only at h
      have e1 : (∃ M ∈ w.lastModified e.1, S ⊆ w.staticWrites e.1 ∧ M ∩ S = ∅) ↔ Edited w x e.1 e.2 := by
        unfold Edited
        simp only [Option.mem_def]
        refine exists_congr fun M => and_congr Iff.rfl (and_congr ?_ ?_)
        · exact ⟨fun h s hs => h ((hmem s).2 hs), fun h s hs => h s ((hmem s).1 hs)⟩
        · rw [Finset.eq_empty_iff_forall_notMem]
          simp only [Finset.mem_inter, not_and, hmem]
          exact ⟨fun h s hs hM => h s hM hs, fun h s hM hs => h s hs hM⟩
      have e2 : (w.ctr e.1 ≥ 0 ∧ ¬ ∃ s ∈ S, w.ctr e.1 ∈ w.updatedCells s) ↔
          ¬ (w.ctr e.1 < 0 ∨ ∃ s, Seen w x e.2 s ∧ w.ctr e.1 ∈ w.updatedCells s) := by
        simp only [hmem, not_or, not_lt, ge_iff_le]
      have e3 : (w.flowOrder = .inOrder ∧ c = .static ∧ (∃ o ∈ w.directionalParents c x,
          ¬ (S = {w.fake} ∧ o.2 = {w.fake}) ∧ ¬ w.pos o.1 ≤ w.pos e.1 ∧ (S ⊆ o.2 ∨ w.fake ∈ o.2))) ↔ Overtaken w c x e.1 e.2 := by
        unfold Overtaken
        refine and_congr Iff.rfl (and_congr Iff.rfl ?_)
        have hsing : S = {w.fake} ↔ ∀ s, Seen w x e.2 s ↔ s = w.fake := by
          rw [Finset.ext_iff]
          exact forall_congr' fun s => by rw [hmem, Finset.mem_singleton]
        have hsub : ∀ T : Finset σ, S ⊆ T ↔ ∀ s, Seen w x e.2 s → s ∈ T := fun T =>
          ⟨fun h s hs => h ((hmem s).2 hs), fun h s hs => h s ((hmem s).1 hs)⟩
        simp only [mem_directional, hsing, hsub, not_le]
        constructor
        · rintro ⟨o, a, b, d, f⟩; exact ⟨o.1, o.2, a, d, b, f⟩
        · rintro ⟨q, T, a, d, b, f⟩; exact ⟨(q, T), a, b, d, f⟩
      by_cases c1 : (∃ M ∈ w.lastModified e.1, S ⊆ w.staticWrites e.1 ∧ M ∩ S = ∅)
      · rw [if_pos c1] at h
        injection h with h; subst h
        exact ⟨fun h => by simp at h, fun h => absurd (e1.1 c1) h.2.2.1⟩
      · rw [if_neg c1] at h
        by_cases c2 : (w.ctr e.1 ≥ 0 ∧ ¬ ∃ s ∈ S, w.ctr e.1 ∈ w.updatedCells s)
        · rw [if_pos c2] at h
          injection h with h; subst h
          exact ⟨fun h => by simp at h, fun h => absurd h.2.2.2.1 (e2.1 c2)⟩
        · rw [if_neg c2] at h
          have c2' := not_not.1 (fun h => c2 (e2.2 h))
          by_cases c3 : Overtaken w c x e.1 e.2
          · rw [if_pos (e3.2 c3)] at h
            injection h with h; subst h
            exact ⟨fun h => by simp at h, fun h => absurd c3 h.2.2.2.2⟩
          · rw [if_neg (fun h => c3 (e3.1 h))] at h
            injection h with h; subst h
            exact ⟨fun _ => ⟨hne, hrel, fun h => c1 (e1.2 h), c2', c3⟩, fun _ => rfl⟩

theorem keepAll_iff {w : World ι σ} {x : ι} : ∀ (l : List (Ctx × (ι × Finset σ))) (acc s : Finset ι),
    keepAll w (latestParByTs w x) x l acc = .ok s → ∀ p, p ∈ s ↔ p ∈ acc ∨ ∃ a ∈ l, a.2.1 = p ∧ keepEntry w (latestParByTs w x) a.1 x a.2 = .ok true := by
  intro l
  induction l with
  | nil => intro acc s h p; cases h; simp
  | cons a l ih =>
    obtain ⟨c, e⟩ := a
    intro acc s h p
    unfold keepAll at h
    cases hb : keepEntry w (latestParByTs w x) c x e with
    | error err => rw [hb] at h; cases h
    | ok b =>
      rw [hb] at h
      rw [ih _ _ h p]
      cases b with
      | true =>
        simp only [if_true, Finset.mem_insert]
        constructor
        · rintro ((rfl | h) | ⟨a, ha, h⟩)
          · exact .inr ⟨_, List.mem_cons_self .., rfl, hb⟩
          · exact .inl h
          · exact .inr ⟨a, List.mem_cons_of_mem _ ha, h⟩
        · rintro (h | ⟨a, ha, h⟩)
          · exact .inl (.inr h)
          · rcases List.mem_cons.1 ha with rfl | ha
            · exact .inl (.inl h.1.symm)
            · exact .inr ⟨a, ha, h⟩
      | false =>
        simp only [Bool.false_eq_true, if_false]
        constructor
        · rintro (h | ⟨a, ha, h⟩)
          · exact .inl h
          · exact .inr ⟨a, List.mem_cons_of_mem _ ha, h⟩
        · rintro (h | ⟨a, ha, h⟩)
          · exact .inl h
          · rcases List.mem_cons.1 ha with rfl | ha
            · rw [hb] at h; simp at h
            · exact .inr ⟨a, ha, h⟩

theorem filteredParents_iff {w : World ι σ} {x : ι} {s : Finset ι} (h : filteredParents w x = .ok s) (p : ι) : p ∈ s ↔ Linked w x p := by
  unfold filteredParents at h
  rw [keepAll_iff _ _ _ h p]
  simp only [Finset.notMem_empty, false_or, List.mem_flatMap, List.mem_map]
  constructor
  · rintro ⟨_, ⟨c, hc, e, he, rfl⟩, rfl, hk⟩
    exact ⟨c, hc, e.2, mem_directional.1 he, (keepEntry_iff hc (mem_directional.1 he) hk).1 rfl⟩
  · rintro ⟨c, hc, S, he, hk⟩
    refine ⟨(c, (p, S)), ⟨c, hc, (p, S), mem_directional.2 he, rfl⟩, rfl, ?_⟩
    obtain ⟨b, hb⟩ := keepEntry_total (e := (p, S)) hc he
    rw [(keepEntry_iff (e := (p, S)) hc he hb).2 hk] at hb
    exact hb

theorem newReady_iff {w : World ι σ} {cells : List ι} {F : Finset ι} {order : Finset ι → List ι} {fuel : Nat} {r : Result ι σ}
    (h : compute w cells F order fuel = .ok r) (hd : cells.Nodup) (x : ι) :
    x ∈ r.newReady ↔ x ∈ r.ready ∧ 0 < w.ctr x ∧ Below w x ∧ (NewsFor w x ∨ (w.wasReady x = false ∧ w.minNewReady ≤ w.cellCounter)) := by
  have f := compute_facts h
  obtain ⟨r1, r2, h1, h2, e1, e2, e3, _, _⟩ := compute_parts h
  have hn := newInv_all (checkInv_empty w (w.lastExecuted.map w.pos) F) ⟨by simp [Result.empty], fun _ _ => rfl⟩
    (by rw [List.nil_append]; exact (List.perm_insertionSort _ _).nodup_iff.2 hd) h1
  rw [List.nil_append] at hn
  have hbel : (w.flowOrder = .inOrder → ∀ p, w.lastExecuted.map w.pos = some p → p < w.pos x) ↔ Below w x := by
    unfold Below
    refine imp_congr Iff.rfl ?_
    cases w.lastExecuted <;> simp
  have h1' : x ∈ r1.newReady ↔ x ∈ cells ∧ NeedsRerun w x ∧ 0 < w.ctr x ∧ Below w x ∧
      (NewsFor w x ∨ (w.wasReady x = false ∧ w.minNewReady ≤ w.cellCounter)) := by
    rw [hn.newReady, mem_sortByPos, hbel]
  have hr : x ∈ r.newReady ↔ x ∈ r1.newReady ∧ x ∉ r.waiting := by
    rw [e3, e2]
    rcases (dagWaiters_parts h2).2.2 with ⟨_, a⟩ | ⟨a, b⟩
    · rw [a, Finset.mem_sdiff]
    · subst b
      constructor
      · intro hx
        refine ⟨hx, ?_⟩
        rw [← e2, f.waitingLive a]
        rintro ⟨_, hl⟩
        obtain ⟨_, ⟨_, _, hnl, _⟩, _⟩ := h1'.1 hx
        exact hnl hl
      · exact And.left
  rw [hr, h1', f.ready]
  constructor
  · rintro ⟨⟨a, b, c, d, e⟩, g⟩; exact ⟨⟨a, b, g⟩, c, d, e⟩
  · rintro ⟨⟨a, b, g⟩, c, d, e⟩; exact ⟨⟨a, b, c, d, e⟩, g⟩

/-! ## C180 -/

/-- The client is told that a cell is ready exactly if it was checked, needs to be run again and does not wait. -/
theorem ready_told {w : World ι σ} {cells : List ι} {F : Finset ι} {order : Finset ι → List ι} {fuel : Nat} {r : Result ι σ}
    (h : compute w cells F order fuel = .ok r) (x : ι) : x ∈ jsonReady r ↔ x ∈ cells ∧ NeedsRerun w x ∧ x ∉ r.waiting :=
  (compute_facts h).ready x

/-- The client is told that a cell is newly ready, if it is to be told at all, exactly if the cell is ready, has been run before, stands below the cell run last if the order
matters, and either was not ready in the schedule before or is outdated because of a run that belongs to what is going on. -/
theorem new_ready_exact {w : World ι σ} {cells : List ι} {F : Finset ι} {order : Finset ι → List ι} {fuel : Nat} {r : Result ι σ}
    (h : compute w cells F order fuel = .ok r) (hd : cells.Nodup) (allow : Bool) (x : ι) :
    x ∈ jsonNewReady allow r ↔ allow = true ∧ x ∈ jsonReady r ∧ 0 < w.ctr x ∧ Below w x ∧
      (NewsFor w x ∨ (w.wasReady x = false ∧ w.minNewReady ≤ w.cellCounter)) := by
  cases allow with
  | false => simp [jsonNewReady]
  | true => simpa [jsonNewReady, jsonReady] using newReady_iff h hd x

/-! ## C181 -/

/-- The cells that are run again without being asked for are exactly those that tags of the cell run last call for, and the ready cells that read, where reading counts as
reactive, something newer than their own last run; the cells that draw others along are the ready cells that do so where reading counts as cascading. -/
theorem forced_exact {w : World ι σ} {cells : List ι} {F : Finset ι} {order : Finset ι → List ι} {fuel : Nat} {r : Result ι σ}
    (h : compute w cells F order fuel = .ok r) (x : ι) :
    (x ∈ r.forced ↔ x ∈ F ∨ (x ∈ r.ready ∧ ForcedBy w Check.maxUsedReactive x)) ∧
    (x ∈ r.cascading ↔ x ∈ r.ready ∧ ForcedBy w Check.maxUsedCascading x) := by
  have f := compute_facts h
  obtain ⟨r1, r2, h1, h2, e1, _, _, e4, e5⟩ := compute_parts h
  obtain ⟨d1, d2, _⟩ := dagWaiters_parts h2
  have hinv := checkAll_inv (checkInv_empty w (w.lastExecuted.map w.pos) F) h1
  have hm := mem_reactive (w := w) (cells := cells) (r2 := r2) (fun y hy => ((f.ready y).1 (by rw [e1]; exact hy)).1) x
  rw [e4, e5, hm.1, hm.2, d1, d2, forced_all (checkInv_empty w _ F) h1, hinv.cascading, e1]
  simp

/-! ## C182 -/

/-- The parents reported for a cell are exactly the cells it is linked with. -/
theorem links_exact {w : World ι σ} {cells : List ι} {P C : ι → Option (Finset ι)} (h : filteredGraph w cells = .ok (P, C)) (x p : ι) :
    (Listed P x p ↔ x ∈ cells ∧ Linked w x p) ∧ (Listed C p x ↔ x ∈ cells ∧ Linked w x p) := by
  have hP : Listed P x p ↔ x ∈ cells ∧ Linked w x p := by
    obtain ⟨T, hT, hs⟩ := parentsTable_spec w cells (fun _ => none)
    unfold filteredGraph at h
    rw [hT] at h
    injection h with h
    injection h with hp _
    subst hp
    by_cases hx : x ∈ cells
    · obtain ⟨s, hs1, hs2⟩ := (hs x).1 hx
      simp [Listed, hs2, hx, filteredParents_iff hs1]
    · simp [Listed, (hs x).2 hx, hx]
  refine ⟨hP, ?_⟩
  obtain ⟨P', C', h', _, _, hi, _⟩ := reported_graph w cells
  rw [h] at h'
  injection h' with h'
  injection h' with a b
  subst a b
  rw [hi, hP]

end Verif.Sched
