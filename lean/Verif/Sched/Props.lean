import Verif.Sched.LinkLemmas

set_option linter.unusedSectionVars false

/-!
# Properties of the schedule (C01-C07, C09, C54)
-/

namespace Verif.Sched
open Verif Verif.Slice

variable {ι σ : Type} [DecidableEq ι] [DecidableEq σ]

/-- The iteration order of a set visits exactly its members. -/
def Enumerates (order : Finset ι → List ι) : Prop := ∀ W x, x ∈ order W ↔ x ∈ W

theorem mem_sortByPos {w : World ι σ} {cells : List ι} {x : ι} : x ∈ sortByPos w cells ↔ x ∈ cells :=
  (List.perm_insertionSort _ _).mem_iff

/-- Everything known about a finished computation. -/
structure Facts (w : World ι σ) (cells : List ι) (order : Finset ι → List ι) (r : Result ι σ) : Prop where
  waitingDag : w.schedule ≠ .liveness → ∀ x, x ∈ r.waiting ↔ Blocked w cells x
  waitingLive : w.schedule = .liveness → ∀ x, x ∈ r.waiting ↔ x ∈ cells ∧ LiveWaits w x
  ready : ∀ x, x ∈ r.ready ↔ x ∈ cells ∧ NeedsRerun w x ∧ x ∉ r.waiting
  newReady : ∀ x ∈ r.newReady, x ∈ r.ready ∧ 0 < w.ctr x ∧
    (w.flowOrder = .inOrder → ∀ l, w.lastExecuted = some l → w.pos l < w.pos x)
  typeErr : ∀ x, x ∈ r.typeErr ↔ x ∈ cells ∧ ∃ chk, w.check x = some chk ∧ chk.typechecks = false
  unsafeOrder : ∀ x u, u ∈ r.unsafeOrder x ↔ x ∈ cells ∧ UsesFromBelow w x u
  forced : r.cascading ⊆ r.ready
  links : ∃ n L L', (∀ x m, m ∈ L x ↔ x ∈ r.waiting ∧ MadeReadyBy w cells r.ready r.waiting x m) ∧
    linkLoop r.waiting (order r.waiting) n L = some L' ∧ (∀ x, r.links x = if x ∈ r.waiting then L' x \ r.waiting else L' x) ∧
    ∀ m, r.makers m = r.waiting.filter fun x => m ∈ r.links x

theorem readyMaking_iff {w : World ι σ} {cells : List ι} {r : Result ι σ}
    (hws : ∀ x s, s ∈ r.waitingSyms x ↔ x ∈ cells ∧ w.schedule = .liveness ∧
      ∃ chk, w.check x = some chk ∧ s ∈ chk.waitingSyms)
    (hk : ∀ s x, x ∈ r.killing s ↔ x ∈ cells ∧ ∃ chk, w.check x = some chk ∧ s ∈ chk.dead) (x m : ι) :
    m ∈ readyMaking w r x ↔ MadeReadyBy w cells r.ready r.waiting x m := by
  have hcand : m ∈ (if w.dagLike then w.parentIds x ∩ (r.ready ∪ r.waiting)
      else (r.waitingSyms x).biUnion r.killing) ↔
      ((w.schedule ≠ .liveness ∧ DependsOn w x m ∧ (m ∈ r.ready ∨ m ∈ r.waiting)) ∨
        (w.schedule = .liveness ∧ x ∈ cells ∧ m ∈ cells ∧ ∃ chk chk' s, w.check x = some chk ∧ s ∈ chk.waitingSyms ∧
          w.check m = some chk' ∧ s ∈ chk'.dead)) := by
    by_cases hd : w.dagLike = true
    · have hs := dagLike_iff.1 hd
      rw [if_pos hd, Finset.mem_inter, mem_parentIds, Finset.mem_union]
      simp [hs]
    · have hs : w.schedule = .liveness := by by_contra h; exact hd (dagLike_iff.2 h)
      rw [if_neg hd, Finset.mem_biUnion]
      simp only [hs, ne_eq, not_true, false_and, false_or, true_and]
      constructor
      · rintro ⟨s, h1, h2⟩
        obtain ⟨a, _, chk, b, c⟩ := (hws x s).1 h1
        obtain ⟨d, chk', e, f⟩ := (hk s m).1 h2
        exact ⟨a, d, chk, chk', s, b, c, e, f⟩
      · rintro ⟨a, d, chk, chk', s, b, c, e, f⟩
        exact ⟨s, (hws x s).2 ⟨a, hs, chk, b, c⟩, (hk s m).2 ⟨d, chk', e, f⟩⟩
  unfold readyMaking MadeReadyBy
  rw [← hcand]
  simp only
  cases hl : w.lastExecuted with
  | none =>
    by_cases ho : w.flowOrder = .inOrder
    · simp [ho]
    · simp [ho]
  | some l =>
    by_cases ho : w.flowOrder = .inOrder
    · simp only [ho, if_true, Finset.mem_erase, Finset.mem_filter, Option.some.injEq, ne_eq]
      constructor
      · rintro ⟨a, b, c⟩; exact ⟨b, fun _ => c, fun h => a h.symm⟩
      · rintro ⟨a, b, c⟩; exact ⟨fun h => c h.symm, a, b trivial⟩
    · simp only [ho, if_false, Finset.mem_erase, Option.some.injEq, ne_eq, false_implies, true_and]
      constructor
      · rintro ⟨a, b⟩; exact ⟨b, fun h => a h.symm⟩
      · rintro ⟨a, b⟩; exact ⟨fun h => b h.symm, a⟩

theorem compute_facts {w : World ι σ} {cells : List ι} {tagForced : Finset ι} {order : Finset ι → List ι} {fuel : Nat}
    {r : Result ι σ} (h : compute w cells tagForced order fuel = .ok r) : Facts w cells order r := by
  unfold compute at h
  simp only at h
  cases h1 : (sortByPos w cells).foldlM (checkOne w (w.lastExecuted.map w.pos))
      { Result.empty w with forced := tagForced } with
  | error e => rw [h1] at h; cases h
  | ok r1 =>
    rw [h1] at h
    simp only at h
    have hinv := checkAll_inv (checkInv_empty w (w.lastExecuted.map w.pos) tagForced) h1
    rw [List.nil_append] at hinv
    cases h2 : dagWaiters w (sortByPos w cells) fuel r1 with
    | error e => rw [h2] at h; cases h
    | ok r2 =>
      rw [h2] at h
      simp only at h
      -- facts about r2
      have key : (w.schedule ≠ .liveness → ∀ x, x ∈ r2.waiting ↔ Blocked w cells x) ∧
          (w.schedule = .liveness → ∀ x, x ∈ r2.waiting ↔ x ∈ cells ∧ LiveWaits w x) ∧
          (∀ x, x ∈ r2.ready ↔ x ∈ cells ∧ NeedsRerun w x ∧ x ∉ r2.waiting) ∧
          (∀ x, x ∈ r2.newReady → x ∈ r1.newReady ∧ x ∉ r2.waiting) ∧
          r2.typeErr = r1.typeErr ∧ r2.unsafeOrder = r1.unsafeOrder ∧ r2.waitingSyms = r1.waitingSyms ∧
          r2.killing = r1.killing ∧ r2.links = r1.links ∧ r2.makers = r1.makers ∧ r2.cascading = r1.cascading := by
        unfold dagWaiters at h2
        by_cases hd : w.dagLike = true
        · have hs := dagLike_iff.1 hd
          simp only [hd, Bool.not_true, Bool.false_eq_true, if_false] at h2
          cases hW : dagLoop w (sortByPos w cells) r1.ready fuel ∅ r1.waiting with
          | none => rw [hW] at h2; cases h2
          | some W =>
            rw [hW] at h2
            injection h2 with h2
            subst h2
            have hW0 : r1.waiting = ∅ := by
              rw [Finset.eq_empty_iff_forall_notMem]
              intro x hx
              exact hs ((hinv.waiting x).1 hx).2.1
            obtain ⟨g1, g2, g3⟩ := dagLoop_spec (.inr rfl) hW
            have hready : ∀ x, x ∈ r1.ready ↔ x ∈ cells ∧ NeedsRerun w x := by
              intro x; rw [hinv.ready, mem_sortByPos]
            refine ⟨fun _ x => ?_, fun h => absurd h hs, fun x => ?_, fun x hx => ?_, rfl, rfl, rfl, rfl, rfl, rfl, rfl⟩
            · simp only
              constructor
              · intro hx
                refine g3 (Blocked w cells) (by rw [hW0]; simp) ?_ x hx
                intro y hy p hp hor
                have hyc : y ∈ cells := mem_sortByPos.1 hy
                rcases hor with hr | ⟨s, hs', hn, ht⟩
                · obtain ⟨a, b⟩ := (hready p).1 hr
                  exact ⟨p, a, b, .single ⟨hyc, hp⟩⟩
                · exact ⟨s, hs', hn, ht.tail ⟨hyc, hp⟩⟩
              · rintro ⟨s, hs', hn, ht⟩
                have hsr : s ∈ r1.ready := (hready s).2 ⟨hs', hn⟩
                induction ht with
                | single hd' => exact g2 _ (mem_sortByPos.2 hd'.1) s hd'.2 (.inl hsr)
                | tail _ hd' ih => exact g2 _ (mem_sortByPos.2 hd'.1) _ hd'.2 (.inr ih)
            · simp only [Finset.mem_sdiff, hready, and_assoc]
            · simp only [Finset.mem_sdiff] at hx
              exact hx
        · have hs : w.schedule = .liveness := by by_contra h; exact hd (dagLike_iff.2 h)
          have hd' : w.dagLike = false := by simpa using hd
          simp only [hd', Bool.not_false, if_true] at h2
          injection h2 with h2
          subst h2
          have hwt : ∀ x, x ∈ r1.waiting ↔ x ∈ cells ∧ LiveWaits w x := by
            intro x; rw [hinv.waiting, mem_sortByPos]
          refine ⟨fun h => absurd hs h, fun _ => hwt, fun x => ?_, fun x hx => ⟨hx, ?_⟩, rfl, rfl, rfl, rfl, rfl, rfl, rfl⟩
          · rw [hinv.ready, mem_sortByPos, hwt]
            constructor
            · rintro ⟨a, b⟩
              refine ⟨a, b, ?_⟩
              rintro ⟨_, hl⟩
              obtain ⟨_, _, hn, _⟩ := b
              exact hn hl
            · rintro ⟨a, b, _⟩; exact ⟨a, b⟩
          · rw [hwt]
            obtain ⟨a, ⟨_, _, hn, _⟩, _⟩ := hinv.newReady x hx
            rintro ⟨_, hl⟩; exact hn hl
      obtain ⟨k1, k2, k3, k4, k5, k6, k7, k8, k9, k10, k11⟩ := key
      -- r3 changes only forced and cascading
      set r3 := maybeReactiveCells w ((sortByPos w cells).filter fun x => (w.check x).isSome).toFinset
        (w.lastExecuted.map w.pos) r2 with hr3
      have h3 : r3.waiting = r2.waiting ∧ r3.ready = r2.ready ∧ r3.newReady = r2.newReady ∧ r3.typeErr = r2.typeErr ∧
          r3.unsafeOrder = r2.unsafeOrder ∧ r3.waitingSyms = r2.waitingSyms ∧ r3.killing = r2.killing ∧
          r3.links = r2.links ∧ r3.makers = r2.makers ∧ r3.cascading ⊆ r2.cascading ∪ r2.ready := by
        cases hlp : w.lastExecuted.map w.pos with
        | none => rw [hlp] at hr3; simp only [maybeReactiveCells] at hr3; rw [hr3]; simp
        | some p =>
          rw [hlp] at hr3
          simp only [maybeReactiveCells] at hr3
          rw [hr3]
          refine ⟨rfl, rfl, rfl, rfl, rfl, rfl, rfl, rfl, rfl, ?_⟩
          unfold reactiveCells
          apply Finset.union_subset_union subset_rfl
          intro x hx
          simp only [Finset.mem_filter, Finset.mem_inter] at hx
          exact hx.1.1.1
      obtain ⟨j1, j2, j3, j4, j5, j6, j7, j8, j9, j10⟩ := h3
      unfold waiterLinks at h
      cases hL : linkLoop (computeReadyMaking w r3).waiting (order (computeReadyMaking w r3).waiting) fuel
          (computeReadyMaking w r3).links with
      | none => rw [hL] at h; cases h
      | some L' =>
        rw [hL] at h
        simp only [finishLinks] at h
        injection h with h
        have e1 : r.waiting = r2.waiting := by rw [← h]; exact j1
        have e2 : r.ready = r2.ready := by rw [← h]; exact j2
        have e3 : r.newReady = r2.newReady := by rw [← h]; exact j3
        refine ⟨by rw [e1]; exact k1, by rw [e1]; exact k2, by rw [e1, e2]; exact k3, ?_, ?_, ?_, ?_, ?_⟩
        · intro x hx
          rw [e3] at hx
          obtain ⟨a, b⟩ := k4 x hx
          obtain ⟨c1, c2, c3, c4⟩ := hinv.newReady x a
          refine ⟨?_, c3, fun ho l hl => c4 ho (w.pos l) (by rw [hl]; rfl)⟩
          rw [e2, k3]
          exact ⟨mem_sortByPos.1 c1, c2, b⟩
        · intro x
          have : r.typeErr = r1.typeErr := by rw [← h]; exact j4.trans k5
          rw [this, hinv.typeErr, mem_sortByPos]
        · intro x u
          have : r.unsafeOrder = r1.unsafeOrder := by rw [← h]; exact j5.trans k6
          rw [this, hinv.unsafeOrder, mem_sortByPos]
        · have : r.cascading = r3.cascading := by rw [← h]; rfl
          rw [this, e2]
          refine j10.trans ?_
          rw [k11]
          rw [hinv.cascading]; simp
        · refine ⟨fuel, (computeReadyMaking w r3).links, L', ?_, ?_, ?_, ?_⟩
          · intro x m
            rw [e1, e2]
            simp only [computeReadyMaking, j1]
            have hl0 : r3.links x = ∅ := by rw [j8, k9]; exact hinv.links x
            by_cases hx : x ∈ r2.waiting
            · rw [if_pos hx]
              have := readyMaking_iff (w := w) (cells := cells) (r := r3)
                (fun x s => by rw [j6, k7, hinv.waitingSyms, mem_sortByPos])
                (fun s x => by rw [j7, k8, hinv.killing, mem_sortByPos]) x m
              rw [this, j1, j2]
              simp [hx]
            · rw [if_neg hx, hl0]; simp [hx]
          · have : r.waiting = (computeReadyMaking w r3).waiting := by rw [e1]; exact j1.symm
            rw [this]; exact hL
          · intro x
            rw [← h]
          · intro m
            rw [← h]
            simp only [computeReadyMaking]
            rw [j9, k10, hinv.makers m, Finset.empty_union]

/-! ## C01 -/

/-- Ready and waiting are disjoint and every newly-ready cell is ready. -/
theorem ready_waiting_disjoint {w : World ι σ} {cells : List ι} {tagForced : Finset ι} {order : Finset ι → List ι}
    {fuel : Nat} {r : Result ι σ} (h : compute w cells tagForced order fuel = .ok r) :
    Disjoint r.ready r.waiting ∧ r.newReady ⊆ r.ready ∧ r.cascading ⊆ r.ready := by
  have f := compute_facts h
  refine ⟨?_, fun x hx => (f.newReady x hx).1, f.forced⟩
  rw [Finset.disjoint_left]
  intro x hx
  exact ((f.ready x).1 hx).2.2

/-! ## C02 -/

/-- Under the DAG-like schedules the waiting cells are exactly the checked cells one or more dependency steps below a
checked cell that needs re-running, and the ready cells are the other cells that need re-running. -/
theorem dag_waiting_exact {w : World ι σ} {cells : List ι} {tagForced : Finset ι} {order : Finset ι → List ι}
    {fuel : Nat} {r : Result ι σ} (h : compute w cells tagForced order fuel = .ok r) (hs : w.schedule ≠ .liveness)
    (x : ι) : (x ∈ r.waiting ↔ Blocked w cells x) ∧
      (x ∈ r.ready ↔ x ∈ cells ∧ NeedsRerun w x ∧ ¬ Blocked w cells x) := by
  have f := compute_facts h
  refine ⟨f.waitingDag hs x, ?_⟩
  rw [f.ready, f.waitingDag hs]

/-- The computation returns: with enough fuel it never runs out, and the only exception it can raise is an unknown owner
of a live timestamp (C02, C05, C09). -/
theorem compute_terminates {w : World ι σ} {cells : List ι} {order : Finset ι → List ι} (ho : Enumerates order)
    (hk : ∀ x ∈ cells, OwnersKnown w x) (tagForced : Finset ι) :
    ∃ N, ∀ fuel ≥ N, ∃ r, compute w cells tagForced order fuel = .ok r := by
  have hinv0 := checkInv_empty w (w.lastExecuted.map w.pos) tagForced
  obtain ⟨r1, h1⟩ := checkAll_total (l := sortByPos w cells) hinv0 (fun x hx => hk x (mem_sortByPos.1 hx))
  -- the DAG loop needs at most this much fuel and returns the same result for all larger fuel
  have hdag : ∃ N, ∀ fuel ≥ N, ∃ r2, dagWaiters w (sortByPos w cells) fuel r1 = .ok r2 ∧
      r2.waiting ⊆ r1.waiting ∪ (sortByPos w cells).toFinset ∧ r2.ready ⊆ r1.ready ∧ r2.waitingSyms = r1.waitingSyms ∧
      r2.killing = r1.killing ∧ r2.links = r1.links := by
    refine ⟨1 + ((sortByPos w cells).toFinset \ r1.waiting).card + 1, fun fuel hf => ?_⟩
    unfold dagWaiters
    by_cases hd : w.dagLike = true
    · simp only [hd, Bool.not_true, Bool.false_eq_true, if_false]
      obtain ⟨W, hW⟩ := dagLoop_total (w := w) (cells := sortByPos w cells) (ready := r1.ready) (n := fuel)
        (prev := ∅) (W := r1.waiting) (.inr rfl) (by split <;> omega)
      rw [hW]
      refine ⟨_, rfl, ?_, Finset.sdiff_subset, rfl, rfl, rfl⟩
      intro x hx
      obtain ⟨_, _, g3⟩ := dagLoop_spec (.inr rfl) hW
      have := g3 (fun x => x ∈ r1.waiting ∪ (sortByPos w cells).toFinset) (fun x hx => by simp [hx])
        (fun x hx _ _ _ => by simp [hx]) x hx
      exact this
    · have hd' : w.dagLike = false := by simpa using hd
      simp only [hd', Bool.not_false, if_true]
      exact ⟨r1, rfl, Finset.subset_union_left, subset_rfl, rfl, rfl, rfl⟩
  obtain ⟨N1, hN1⟩ := hdag
  -- a bound on the links, independent of the fuel
  let A : Finset ι := r1.waiting ∪ (sortByPos w cells).toFinset
  let U : Finset ι := A.biUnion (fun x => w.parentIds x ∪ (r1.waitingSyms x).biUnion r1.killing ∪ r1.links x)
  refine ⟨max N1 (A.card * U.card + 2), fun fuel hf => ?_⟩
  obtain ⟨r2, h2, hw2, hr2, hs2, hk2, hl2⟩ := hN1 fuel (le_trans (le_max_left _ _) hf)
  unfold compute
  simp only [h1, h2]
  set r3 := maybeReactiveCells w ((sortByPos w cells).filter fun x => (w.check x).isSome).toFinset
    (w.lastExecuted.map w.pos) r2 with hr3
  have h3 : r3.waiting = r2.waiting ∧ r3.ready = r2.ready ∧ r3.waitingSyms = r2.waitingSyms ∧
      r3.killing = r2.killing ∧ r3.links = r2.links := by
    cases hlp : w.lastExecuted.map w.pos with
    | none => rw [hlp] at hr3; simp only [maybeReactiveCells] at hr3; rw [hr3]; simp
    | some p => rw [hlp] at hr3; simp only [maybeReactiveCells] at hr3; rw [hr3]; exact ⟨rfl, rfl, rfl, rfl, rfl⟩
  obtain ⟨j1, j2, j3, j4, j5⟩ := h3
  unfold waiterLinks
  have hsub : (computeReadyMaking w r3).waiting.biUnion (computeReadyMaking w r3).links ⊆ U := by
    intro m hm
    rw [Finset.mem_biUnion] at hm
    obtain ⟨x, hx, hm⟩ := hm
    have hx' : x ∈ r2.waiting := by rw [← j1]; exact hx
    refine Finset.mem_biUnion.2 ⟨x, hw2 hx', ?_⟩
    simp only [computeReadyMaking] at hm hx
    rw [if_pos hx] at hm
    have hcand : m ∈ (if w.dagLike then w.parentIds x ∩ (r3.ready ∪ r3.waiting)
        else (r3.waitingSyms x).biUnion r3.killing) := by
      unfold readyMaking at hm
      simp only at hm
      by_cases hin : w.flowOrder = .inOrder
      · simp only [if_pos hin] at hm
        split at hm
        · exact (Finset.mem_filter.1 hm).1
        · exact (Finset.mem_filter.1 (Finset.mem_of_mem_erase hm)).1
      · simp only [if_neg hin] at hm
        split at hm
        · exact hm
        · exact Finset.mem_of_mem_erase hm
    split at hcand
    · simp [(Finset.mem_inter.1 hcand).1]
    · rw [j3, j4, hs2, hk2] at hcand
      exact Finset.mem_union_left _ (Finset.mem_union_right _ hcand)
  have hWA : (computeReadyMaking w r3).waiting.card ≤ A.card := by
    apply Finset.card_le_card
    intro x hx
    have hx' : x ∈ r2.waiting := by rw [← j1]; exact hx
    exact hw2 hx'
  obtain ⟨L', hL'⟩ := linkLoop_total (ho (computeReadyMaking w r3).waiting) (L := (computeReadyMaking w r3).links)
    (n := fuel) (by
      have := Nat.mul_le_mul hWA (Finset.card_le_card hsub)
      have h5 : A.card * U.card + 2 ≤ fuel := le_trans (le_max_right _ _) hf
      omega)
  rw [hL']
  exact ⟨_, rfl⟩

/-! ## C03 -/

theorem exists_min_pos (w : World ι σ) : ∀ (l : List ι), l ≠ [] → ∃ m ∈ l, ∀ x ∈ l, w.pos m ≤ w.pos x := by
  intro l
  induction l with
  | nil => intro h; exact absurd rfl h
  | cons a l ih =>
    intro _
    by_cases hl : l = []
    · subst hl; exact ⟨a, by simp, by simp⟩
    · obtain ⟨m, hm, hmin⟩ := ih hl
      by_cases hle : w.pos a ≤ w.pos m
      · refine ⟨a, by simp, ?_⟩
        intro x hx
        rcases List.mem_cons.1 hx with rfl | hx
        · exact le_refl _
        · exact hle.trans (hmin x hx)
      · refine ⟨m, by simp [hm], ?_⟩
        intro x hx
        rcases List.mem_cons.1 hx with rfl | hx
        · exact (lt_of_not_ge hle).le
        · exact hmin x hx

theorem downstream_pos {w : World ι σ} {cells : List ι} (ho : w.flowOrder = .inOrder) {p x : ι}
    (h : Relation.TransGen (Downstream w cells) p x) : w.pos p < w.pos x := by
  induction h with
  | single h => obtain ⟨_, _, _, _, _, h⟩ := h; exact h ho
  | tail _ h ih => obtain ⟨_, _, _, _, _, h⟩ := h; exact ih.trans (h ho)

/-- In order, if some checked cell needs re-running then a cell that needs re-running, lowest in position among them, is
offered as ready. -/
theorem in_order_progress {w : World ι σ} {cells : List ι} {tagForced : Finset ι} {order : Finset ι → List ι}
    {fuel : Nat} {r : Result ι σ} (h : compute w cells tagForced order fuel = .ok r) (ho : w.flowOrder = .inOrder)
    {x : ι} (hx : x ∈ cells) (hn : NeedsRerun w x) :
    ∃ m ∈ r.ready, w.pos m ≤ w.pos x ∧ ∀ y ∈ cells, NeedsRerun w y → w.pos m ≤ w.pos y := by
  classical
  have f := compute_facts h
  obtain ⟨m, hm, hmin⟩ := exists_min_pos w (cells.filter fun y => decide (NeedsRerun w y))
    (List.ne_nil_of_mem (List.mem_filter.2 ⟨hx, by simpa using hn⟩))
  rw [List.mem_filter, decide_eq_true_eq] at hm
  have hmin' : ∀ y ∈ cells, NeedsRerun w y → w.pos m ≤ w.pos y := fun y hy hny =>
    hmin y (List.mem_filter.2 ⟨hy, by simpa using hny⟩)
  refine ⟨m, ?_, hmin' x hx hn, hmin'⟩
  rw [f.ready]
  refine ⟨hm.1, hm.2, ?_⟩
  intro hw
  by_cases hs : w.schedule = .liveness
  · obtain ⟨_, hl⟩ := (f.waitingLive hs m).1 hw
    obtain ⟨_, _, hnl, _⟩ := hm.2
    exact hnl hl
  · obtain ⟨s, hsc, hsn, ht⟩ := (f.waitingDag hs m).1 hw
    exact absurd (downstream_pos ho ht) (not_lt.2 (hmin' s hsc hsn))

/-! ## C04 -/

/-- Newly-ready cells have run before, and in order they stand strictly below the last executed cell. -/
theorem new_ready_forward {w : World ι σ} {cells : List ι} {tagForced : Finset ι} {order : Finset ι → List ι}
    {fuel : Nat} {r : Result ι σ} (h : compute w cells tagForced order fuel = .ok r) {x : ι} (hx : x ∈ r.newReady) :
    0 < w.ctr x ∧ (w.flowOrder = .inOrder → ∀ l, w.lastExecuted = some l → w.pos l < w.pos x) :=
  ((compute_facts h).newReady x hx).2

/-! ## C05, C06, C07 -/

/-- No waiting cell counts as its own maker. Holds in order; holds under the DAG-like schedules when no cell depends on
itself; holds under liveness when no cell overwrites a stale symbol it reads. -/
def NoSelfMaker (w : World ι σ) : Prop :=
  w.flowOrder = .inOrder ∨ (w.schedule ≠ .liveness ∧ ∀ x, ¬ DependsOn w x x) ∨
    (w.schedule = .liveness ∧ ∀ x chk, w.check x = some chk → Disjoint chk.waitingSyms chk.dead)

theorem noSelf_of {w : World ι σ} {cells : List ι} {ready waiting : Finset ι} (h : NoSelfMaker w) (x : ι) :
    ¬ MadeReadyBy w cells ready waiting x x := by
  rintro ⟨hm, ho, _⟩
  rcases h with h | ⟨hs, h⟩ | ⟨hs, h⟩
  · exact lt_irrefl _ (ho h)
  · rcases hm with ⟨_, hd, _⟩ | ⟨hl, _⟩
    · exact h x hd
    · exact hs hl
  · rcases hm with ⟨hl, _⟩ | ⟨_, _, _, chk, chk', s, h1, h2, h3, h4⟩
    · exact hl hs
    · rw [h1] at h3; injection h3 with h3; subst h3
      exact Finset.disjoint_left.1 (h x chk h1) h2 h4

/-- Without self makers the waiter links of a waiting cell are exactly the non-waiting cells reachable from it through
waiting cells. (Partial: self makers are excluded; `waiter_links_violated` shows they break the claim.) -/
theorem waiter_links_exact_partial {w : World ι σ} {cells : List ι} {tagForced : Finset ι} {order : Finset ι → List ι}
    (hord : Enumerates order) {fuel : Nat} {r : Result ι σ} (h : compute w cells tagForced order fuel = .ok r)
    (hns : NoSelfMaker w) {x : ι} (hx : x ∈ r.waiting) (m : ι) :
    m ∈ r.links x ↔ m ∉ r.waiting ∧ LinkReach r.waiting (MadeReadyBy w cells r.ready r.waiting) x m := by
  obtain ⟨n, L, L', hL, hloop, hlinks, _⟩ := (compute_facts h).links
  rw [hlinks x, if_pos hx, Finset.mem_sdiff]
  have hself : NoSelf r.waiting L := by
    intro y _ hy
    exact noSelf_of hns y ((hL y y).1 hy).2
  constructor
  · rintro ⟨hm, hmw⟩
    refine ⟨hmw, ?_⟩
    exact linkLoop_sound (LinkReach r.waiting (MadeReadyBy w cells r.ready r.waiting))
      (fun x y r h1 hy h2 => h1.trans hy h2) (fun x r hr => .direct ((hL x r).1 hr).2) hloop x m hm
  · rintro ⟨hmw, hreach⟩
    refine ⟨?_, hmw⟩
    obtain ⟨hsub, hclosed⟩ := linkLoop_complete (hord r.waiting) hself hloop
    induction hreach with
    | direct hr => exact hsub _ ((hL _ _).2 ⟨hx, hr⟩)
    | @through x y r' hr hy _ ih =>
      refine hclosed x hx y (hsub x ((hL x y).2 ⟨hx, hr⟩)) hy r' (ih hy hmw) ?_
      rintro rfl; exact hmw hx

/-- In every case the links of a waiting cell are non-waiting cells that are reachable. -/
theorem waiter_links_sound {w : World ι σ} {cells : List ι} {tagForced : Finset ι} {order : Finset ι → List ι}
    {fuel : Nat} {r : Result ι σ} (h : compute w cells tagForced order fuel = .ok r)
    {x : ι} (hx : x ∈ r.waiting) {m : ι} (hm : m ∈ r.links x) :
    m ∉ r.waiting ∧ LinkReach r.waiting (MadeReadyBy w cells r.ready r.waiting) x m := by
  obtain ⟨n, L, L', hL, hloop, hlinks, _⟩ := (compute_facts h).links
  rw [hlinks x, if_pos hx, Finset.mem_sdiff] at hm
  refine ⟨hm.2, ?_⟩
  exact linkLoop_sound (LinkReach r.waiting (MadeReadyBy w cells r.ready r.waiting))
    (fun x y r h1 hy h2 => h1.trans hy h2) (fun x r hr => .direct ((hL x r).1 hr).2) hloop x m hm.1

/-- Only waiting cells have waiter links. -/
theorem waiter_links_only_waiting {w : World ι σ} {cells : List ι} {tagForced : Finset ι} {order : Finset ι → List ι}
    {fuel : Nat} {r : Result ι σ} (h : compute w cells tagForced order fuel = .ok r) {x : ι} (hx : x ∉ r.waiting) :
    r.links x = ∅ := by
  obtain ⟨n, L, L', hL, hloop, hlinks, _⟩ := (compute_facts h).links
  rw [hlinks x, if_neg hx, Finset.eq_empty_iff_forall_notMem]
  intro m hm
  have := linkLoop_sound (W := r.waiting) (fun x _ => x ∈ r.waiting) (fun x y r h _ _ => h)
    (fun x r hr => ((hL x r).1 hr).1) hloop x m hm
  exact hx this

/-- Ready-maker links are the exact inverse of waiter links, and list no waiting cell. -/
theorem ready_makers_inverse {w : World ι σ} {cells : List ι} {tagForced : Finset ι} {order : Finset ι → List ι}
    {fuel : Nat} {r : Result ι σ} (h : compute w cells tagForced order fuel = .ok r) (m x : ι) :
    (x ∈ r.makers m ↔ x ∈ r.waiting ∧ m ∈ r.links x) ∧ (m ∈ r.waiting → r.makers m = ∅) := by
  obtain ⟨n, L, L', hL, hloop, hlinks, hmk⟩ := (compute_facts h).links
  refine ⟨by rw [hmk m, Finset.mem_filter], ?_⟩
  intro hm
  rw [hmk m, Finset.filter_eq_empty_iff]
  intro y hy hmy
  rw [hlinks y, if_pos hy, Finset.mem_sdiff] at hmy
  exact hmy.2 hm

/-- In order every ready maker of `x` stands strictly above `x`; the last executed cell is never a ready maker. -/
theorem ready_makers_above {w : World ι σ} {cells : List ι} {tagForced : Finset ι} {order : Finset ι → List ι}
    {fuel : Nat} {r : Result ι σ} (h : compute w cells tagForced order fuel = .ok r) {x m : ι} (hx : x ∈ r.waiting)
    (hm : m ∈ r.links x) : (w.flowOrder = .inOrder → w.pos m < w.pos x) ∧ w.lastExecuted ≠ some m := by
  have hreach := (waiter_links_sound h hx hm).2
  clear hm
  constructor
  · intro ho
    induction hreach with
    | direct hr => exact hr.2.1 ho
    | through hr hy _ ih => exact (ih hy).trans (hr.2.1 ho)
  · induction hreach with
    | direct hr => exact hr.2.2
    | through hr hy _ ih => exact ih hy

/-! ## C09 -/

/-- The latest-parent table of an in-order notebook answers with the lowest parent that carries the timestamp, and answers
for every timestamp carried by some recorded parent. -/
theorem latest_parent_table {w : World ι σ} (ho : w.flowOrder = .inOrder) (x : ι) :
    ∃ m, latestParByTs w x = some m ∧
      (∀ t p, m t = some p ↔ IsLatest w x t p) ∧
      (∀ t, (∃ c ∈ w.ctxs, ∃ p S, Entry w c x p S ∧ Carries w x S t) → ∃ p, m t = some p ∧
        ∀ c ∈ w.ctxs, ∀ q S, Entry w c x q S → Carries w x S t → w.pos q ≤ w.pos p) := by
  obtain ⟨m, hm⟩ := latestPar_some.2 ho
  refine ⟨m, hm, fun t p => latestPar_iff hm t p, ?_⟩
  rintro t ⟨c, hc, p, S, hE, hC⟩
  cases ht : m t with
  | none => exact absurd hC ((latestPar_none_iff hm t).1 ht (p, S) (mem_allEntries.2 ⟨c, hc, hE⟩))
  | some q =>
    refine ⟨q, rfl, ?_⟩
    intro c' hc' q' S' hE' hC'
    obtain ⟨b, T, a, hl, _, hb, ha⟩ := (latestPar_iff hm t q).1 ht
    have hmem : (q', S') ∈ allEntries w x := mem_allEntries.2 ⟨c', hc', hE'⟩
    rw [hl] at hmem
    rcases List.mem_append.1 hmem with h | h
    · exact hb _ h hC'
    · rcases List.mem_cons.1 h with h | h
      · injection h with h1 h2; rw [h1]
      · exact (ha _ h hC').le

/-- Readiness never fails on the latest-parent table: `computeReadiness` always returns. -/
theorem readiness_never_raises (w : World ι σ) (W : Finset ι) (x : ι) (chk : Check σ) :
    ∃ st, computeReadiness w W x chk = .ok st := by
  unfold computeReadiness
  by_cases hx : x ∈ W
  · rw [if_pos hx]; exact ⟨_, rfl⟩
  · rw [if_neg hx]
    have hdag : ∃ st, (if w.dagLike then readinessDag w (latestParByTs w x) x w.ctxs (false, false)
        else (.ok (false, false) : Except Err (Bool × Bool))) = .ok st := by
      by_cases hd : w.dagLike = true
      · rw [if_pos hd]
        obtain ⟨st, hst', _⟩ := readinessDag_spec (w := w) (x := x) w.ctxs (false, false) (fun _ h => h) (by simp)
        exact ⟨st, hst'⟩
      · rw [if_neg hd]; exact ⟨_, rfl⟩
    obtain ⟨st, hst'⟩ := hdag
    rw [hst']
    simp only
    split
    · split <;> exact ⟨_, rfl⟩
    · exact ⟨_, rfl⟩

/-! ## C54 -/

/-- Unsafe-order warnings are exact. -/
theorem unsafe_order_exact {w : World ι σ} {cells : List ι} {tagForced : Finset ι} {order : Finset ι → List ι}
    {fuel : Nat} {r : Result ι σ} (h : compute w cells tagForced order fuel = .ok r) (x u : ι) :
    u ∈ r.unsafeOrder x ↔ x ∈ cells ∧ UsesFromBelow w x u :=
  (compute_facts h).unsafeOrder x u

end Verif.Sched
