import Verif.Slice.Lemmas

/-! # Properties of slices: C13, C14, C15, C16, C17 and termination/exception freedom of slicing -/

set_option linter.unusedSectionVars false

namespace Verif.Slice
open Verif
variable {ι ν : Type} [DecidableEq ν]

/-- **C13.** A slice contains what each seed denotes, and with every element, for every recorded parent id, the version
of that parent which was visible to the element. -/
theorem slice_dependency_closed (w : World ι ν) (ctxs : List Ctx) (fuel : Nat) (seeds : List (Seed ν)) (out : List ν)
    (h : makeMultiSlice w ctxs fuel seeds false = .ok out) :
    (∀ s ∈ seeds, ∃ x ∈ out, Denotes w s x) ∧
    (∀ x ∈ out, ∀ pid, RecordedParent w ctxs x pid → ∃ y ∈ out, SeenVersion w x pid y) := by
  obtain ⟨roots, hr, hm, _, hc⟩ := slice_mem_iff w ctxs fuel seeds out h
  constructor
  · intro s hs
    obtain ⟨x, hx⟩ := mapM_ok_total _ _ _ hr s hs
    have hd := (resolveSeed_ok_iff w s x).1 hx
    exact ⟨x, (hm x).2 ⟨x, (mem_roots w seeds roots hr x).2 ⟨s, hs, hd⟩, .refl⟩, hd⟩
  · intro x hx pid hp
    obtain ⟨ys, hs, hys⟩ := hc x hx
    obtain ⟨y, hy⟩ := resolvable_of_sliceSucc_ok w ctxs x ys hs pid hp
    exact ⟨y, hys y ((step_iff w ctxs x y ys hs).2 ⟨pid, hp, hy⟩), hy⟩

/-- **C13**, reading of "visible version": when version chains go back in time and nothing is an override, it is the
most recent version of the parent that is not newer than its user. -/
theorem slice_contains_latest_visible_version (w : World ι ν) (ctxs : List Ctx) (fuel : Nat) (seeds : List (Seed ν))
    (out : List ν) (h : makeMultiSlice w ctxs fuel seeds false = .ok out)
    (hchain : ∀ pid, (w.chain pid).Pairwise (fun a b => w.ts b < w.ts a)) (hov : ∀ x, w.override x = false)
    (x : ν) (hx : x ∈ out) (pid : ι) (hp : RecordedParent w ctxs x pid) :
    ∃ y ∈ out, y ∈ w.chain pid ∧ w.ts y ≤ w.ts x ∧ ∀ z ∈ w.chain pid, w.ts z ≤ w.ts x → w.ts z ≤ w.ts y := by
  obtain ⟨y, hy, newer, older, e, hle, hn⟩ := (slice_dependency_closed w ctxs fuel seeds out h).2 x hx pid hp
  refine ⟨y, hy, by simp [e], ?_, ?_⟩
  · rcases hle with hle | hle
    · exact hle
    · rw [hov] at hle; cases hle
  · intro z hz hzx
    rw [e] at hz
    rcases List.mem_append.1 hz with hz | hz
    · exact absurd hzx (not_le.2 (hn z hz).1)
    · rcases List.mem_cons.1 hz with rfl | hz
      · exact le_refl _
      · have := hchain pid
        rw [e, List.pairwise_append, List.pairwise_cons] at this
        exact le_of_lt (this.2.1.1 z hz)

/-- **C14.** Every element of a slice is reached from what a seed denotes through recorded dependencies only. -/
theorem slice_minimal (w : World ι ν) (ctxs : List Ctx) (fuel : Nat) (seeds : List (Seed ν)) (out : List ν)
    (h : makeMultiSlice w ctxs fuel seeds false = .ok out) (y : ν) (hy : y ∈ out) :
    ∃ s ∈ seeds, ∃ x, Denotes w s x ∧ DependsOnStar w ctxs x y :=
  (slice_mem_spec w ctxs fuel seeds out h y).1 hy

/-- **C15.** If no element of the slice was put in place by an override, nothing in the slice of one seed is newer than
that seed. -/
theorem slice_no_future (w : World ι ν) (ctxs : List Ctx) (fuel : Nat) (self : ν) (out : List ν)
    (h : makeSlice w ctxs fuel self = .ok out) (hov : ∀ y ∈ out, w.override y = false) (y : ν) (hy : y ∈ out) :
    w.ts y ≤ w.ts self := by
  have hmem := slice_mem_spec w ctxs fuel [.node self] out h
  obtain ⟨s, hs, x, hd, hr⟩ := (hmem y).1 hy
  simp only [List.mem_singleton] at hs
  subst hs
  simp only [Denotes] at hd
  subst hd
  clear hy
  induction hr with
  | refl => exact le_refl _
  | tail hpre hstep ih =>
    refine le_trans (dependsOn_le w ctxs _ _ hstep (hov _ ?_)) ih
    exact (hmem _).2 ⟨.node self, by simp, self, rfl, hpre.tail hstep⟩

/-- **C15**, several seeds: every element is not newer than some seed it was reached from. -/
theorem multi_slice_no_future (w : World ι ν) (ctxs : List Ctx) (fuel : Nat) (seeds : List (Seed ν)) (out : List ν)
    (h : makeMultiSlice w ctxs fuel seeds false = .ok out) (hov : ∀ y ∈ out, w.override y = false)
    (y : ν) (hy : y ∈ out) : ∃ s ∈ seeds, ∃ x, Denotes w s x ∧ w.ts y ≤ w.ts x := by
  have hmem := slice_mem_spec w ctxs fuel seeds out h
  obtain ⟨s, hs, x, hd, hr⟩ := (hmem y).1 hy
  refine ⟨s, hs, x, hd, ?_⟩
  clear hy
  induction hr with
  | refl => exact le_refl _
  | tail hpre hstep ih =>
    refine le_trans (dependsOn_le w ctxs _ _ hstep (hov _ ?_)) ih
    exact (hmem _).2 ⟨s, hs, x, hd, hpre.tail hstep⟩

/-- **C16.** The result is sorted by timestamp and has no duplicates, whether or not `seed_only` is set. -/
theorem slice_sorted_nodup (w : World ι ν) (ctxs : List Ctx) (fuel : Nat) (seeds : List (Seed ν)) (seedOnly : Bool)
    (out : List ν) (h : makeMultiSlice w ctxs fuel seeds seedOnly = .ok out) :
    out.Pairwise (fun a b => w.ts a ≤ w.ts b) ∧ out.Nodup := by
  have h' := h
  unfold makeMultiSlice at h
  cases hf : seeds.foldlM (addSeed w ctxs fuel seedOnly) [] with
  | error e => rw [hf] at h; simp at h
  | ok cl =>
    rw [hf] at h
    simp only [Except.ok.injEq] at h
    subst h
    refine ⟨sorted_sortByTime w cl, ?_⟩
    cases seedOnly with
    | true => exact nodup_sortByTime w cl (seedOnly_nodup w ctxs fuel seeds [] cl hf (by simp))
    | false =>
      obtain ⟨_, _, _, hn, _⟩ := slice_mem_iff w ctxs fuel seeds _ h'
      exact hn

/-- **C17.** The slice of two seed lists together has exactly the elements of the two slices. -/
theorem slice_union (w : World ι ν) (ctxs : List Ctx) (f₁ f₂ f₃ : Nat) (s₁ s₂ : List (Seed ν)) (o₁ o₂ o : List ν)
    (h₁ : makeMultiSlice w ctxs f₁ s₁ false = .ok o₁) (h₂ : makeMultiSlice w ctxs f₂ s₂ false = .ok o₂)
    (h : makeMultiSlice w ctxs f₃ (s₁ ++ s₂) false = .ok o) (y : ν) : y ∈ o ↔ y ∈ o₁ ∨ y ∈ o₂ := by
  rw [slice_mem_spec _ _ _ _ _ h₁, slice_mem_spec _ _ _ _ _ h₂, slice_mem_spec _ _ _ _ _ h]
  constructor
  · rintro ⟨s, hs, r⟩
    rcases List.mem_append.1 hs with hs | hs
    · exact .inl ⟨s, hs, r⟩
    · exact .inr ⟨s, hs, r⟩
  · rintro (⟨s, hs, r⟩ | ⟨s, hs, r⟩)
    · exact ⟨s, List.mem_append_left _ hs, r⟩
    · exact ⟨s, List.mem_append_right _ hs, r⟩

/-- **C17.** Order and repetition of seeds do not matter; when timestamps identify elements the result lists are even
equal. -/
theorem slice_seed_order_irrelevant (w : World ι ν) (ctxs : List Ctx) (f₁ f₂ : Nat) (s₁ s₂ : List (Seed ν))
    (o₁ o₂ : List ν) (hs : ∀ s, s ∈ s₁ ↔ s ∈ s₂)
    (h₁ : makeMultiSlice w ctxs f₁ s₁ false = .ok o₁) (h₂ : makeMultiSlice w ctxs f₂ s₂ false = .ok o₂) :
    (∀ y, y ∈ o₁ ↔ y ∈ o₂) ∧ ((∀ x ∈ o₁, ∀ y ∈ o₁, w.ts x = w.ts y → x = y) → o₁ = o₂) := by
  have hm : ∀ y, y ∈ o₁ ↔ y ∈ o₂ := by
    intro y
    rw [slice_mem_spec _ _ _ _ _ h₁, slice_mem_spec _ _ _ _ _ h₂]
    simp only [hs]
  refine ⟨hm, fun hinj => ?_⟩
  have a := slice_sorted_nodup _ _ _ _ _ _ h₁
  have b := slice_sorted_nodup _ _ _ _ _ _ h₂
  exact eq_of_sorted_same_mem w o₁ o₂ a.1 b.1 a.2 b.2 hm hinj

/-- **C17.** Slicing the elements of a slice adds nothing and loses nothing. -/
theorem slice_idempotent (w : World ι ν) (ctxs : List Ctx) (f₁ f₂ : Nat) (seeds : List (Seed ν)) (o₁ o₂ : List ν)
    (h₁ : makeMultiSlice w ctxs f₁ seeds false = .ok o₁)
    (h₂ : makeMultiSlice w ctxs f₂ (o₁.map .node) false = .ok o₂) (y : ν) : y ∈ o₂ ↔ y ∈ o₁ := by
  rw [slice_mem_spec _ _ _ _ _ h₂]
  constructor
  · rintro ⟨s, hs, x, hd, hr⟩
    obtain ⟨z, hz, rfl⟩ := List.mem_map.1 hs
    simp only [Denotes] at hd
    subst hd
    obtain ⟨s', hs', x', hd', hr'⟩ := (slice_mem_spec _ _ _ _ _ h₁ z).1 hz
    exact (slice_mem_spec _ _ _ _ _ h₁ y).2 ⟨s', hs', x', hd', hr'.trans hr⟩
  · intro hy
    exact ⟨.node y, List.mem_map.2 ⟨y, hy, rfl⟩, y, rfl, .refl⟩

/-- **C17.** With `seed_only` the result is exactly what the seeds denote. -/
theorem slice_seed_only (w : World ι ν) (ctxs : List Ctx) (fuel : Nat) (seeds : List (Seed ν)) (out : List ν)
    (h : makeMultiSlice w ctxs fuel seeds true = .ok out) (y : ν) : y ∈ out ↔ ∃ s ∈ seeds, Denotes w s y := by
  unfold makeMultiSlice at h
  cases hf : seeds.foldlM (addSeed w ctxs fuel true) [] with
  | error e => rw [hf] at h; simp at h
  | ok cl =>
    rw [hf] at h
    simp only [Except.ok.injEq] at h
    subst h
    rw [mem_sortByTime, seedOnly_fold w ctxs fuel seeds [] cl hf]
    simp

/-- **C55.** On a finite notebook slicing terminates (a recursion depth of one more than the number of sliceables is
enough), and it returns a slice exactly when every seed exists and every recorded parent reached has a version visible
to its user; otherwise it raises. -/
theorem slice_terminates_and_raises_iff (w : World ι ν) (ctxs : List Ctx) (U : Finset ν)
    (hU : ∀ x ∈ U, ∀ y, DependsOn w ctxs x y → y ∈ U) (seeds : List (Seed ν))
    (hsU : ∀ s ∈ seeds, ∀ x, Denotes w s x → x ∈ U) (fuel : Nat) (hf : U.card < fuel) :
    (∃ out, makeMultiSlice w ctxs fuel seeds false = .ok out) ↔
      (∀ s ∈ seeds, ∃ x, Denotes w s x ∧ ∀ y, DependsOnStar w ctxs x y → Resolvable w ctxs y) := by
  constructor
  · rintro ⟨out, h⟩ s hs
    obtain ⟨x, hx, hd⟩ := (slice_dependency_closed w ctxs fuel seeds out h).1 s hs
    refine ⟨x, hd, fun y hy pid hp => ?_⟩
    have hyo : y ∈ out := (slice_mem_spec _ _ _ _ _ h y).2 ⟨s, hs, x, hd, hy⟩
    obtain ⟨z, _, hz⟩ := (slice_dependency_closed w ctxs fuel seeds out h).2 y hyo pid hp
    exact ⟨z, hz⟩
  · intro hall
    have huniq : ∀ s x y, Denotes w s x → Denotes w s y → x = y := by
      intro s x y hx hy
      have hx := (resolveSeed_ok_iff w s x).2 hx
      rw [(resolveSeed_ok_iff w s y).2 hy] at hx
      cases hx; rfl
    obtain ⟨cl, hcl⟩ := seeds_ok w ctxs U hU fuel hf seeds
      (fun s hs => by obtain ⟨x, hd, _⟩ := hall s hs; exact ⟨x, hsU s hs x hd, hd⟩)
      (fun s hs x hd y hy => by
        obtain ⟨x', hd', hr⟩ := hall s hs
        obtain rfl := huniq s x x' hd hd'
        exact hr y hy) []
    exact ⟨sortByTime w cl, by unfold makeMultiSlice; rw [hcl]⟩

/-! ### A concrete case meeting the hypotheses

Three cell ids. Cell 0 ran at counters 1 and 4, cell 1 at 2 (using cell 0), cell 2 at 3 (using cells 0 and 1, the first
statically). The slice of cell 2 must use the version of cell 0 that ran at 1. -/

/-- Example world: nodes are (id, counter). -/
def demoWorld : World Nat (Nat × Nat) where
  ts x := ⟨x.2, -1⟩
  parents c x := match c, x with
    | .dynamic, (1, 2) => [0]
    | .dynamic, (2, 3) => [1]
    | .static, (2, 3) => [0]
    | _, _ => []
  chain
    | 0 => [(0, 4), (0, 1)]
    | 1 => [(1, 2)]
    | 2 => [(2, 3)]
    | _ => []
  override _ := false
  at' t := if t.cellNum = 3 then some (2, 3) else if t.cellNum = 4 then some (0, 4) else none

example : makeMultiSlice demoWorld [.dynamic, .static] 5 [.time ⟨3, -1⟩] false = .ok [(0, 1), (1, 2), (2, 3)] := by
  decide
example : makeMultiSlice demoWorld [.dynamic, .static] 5 [.node (0, 4), .node (1, 2)] false =
    .ok [(0, 1), (1, 2), (0, 4)] := by decide
example : makeMultiSlice demoWorld [.dynamic] 5 [.node (0, 4), .node (2, 3), .node (0, 4)] true =
    .ok [(2, 3), (0, 4)] := by decide
/-- the hypotheses of `slice_contains_latest_visible_version` hold in the example world -/
example : (∀ pid, (demoWorld.chain pid).Pairwise (fun a b => demoWorld.ts b < demoWorld.ts a)) ∧
    (∀ x, demoWorld.override x = false) := by
  refine ⟨fun pid => ?_, fun _ => rfl⟩
  match pid with
  | 0 => decide
  | 1 => decide
  | 2 => decide
  | _ + 3 => exact List.Pairwise.nil
/-- the finite-universe hypothesis of `slice_terminates_and_raises_iff` is met in the example world -/
example : ∃ U : Finset (Nat × Nat), (2, 3) ∈ U ∧ U.card < 5 ∧
    ∀ x ∈ U, ∀ y, DependsOn demoWorld [.dynamic, .static] x y → y ∈ U := by
  refine ⟨{(0, 4), (0, 1), (1, 2), (2, 3)}, by decide, by decide, ?_⟩
  rintro x hx y ⟨pid, _, newer, older, e, _, _⟩
  have hy : y ∈ demoWorld.chain pid := by rw [e]; simp
  match pid with
  | 0 => simp [demoWorld] at hy; rcases hy with rfl | rfl <;> decide
  | 1 => simp [demoWorld] at hy; subst hy; decide
  | 2 => simp [demoWorld] at hy; subst hy; decide
  | _ + 3 => simp [demoWorld] at hy

end Verif.Slice
