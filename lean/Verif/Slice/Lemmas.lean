import Verif.Slice.Spec
import Mathlib.Data.List.Sort

set_option linter.unusedSectionVars false

namespace Verif.Slice
open Verif
variable {ι ν : Type}

theorem walk_ok_iff (w : World ι ν) (x y : ν) (l : List ν) :
    walk w x l = .ok y ↔ ∃ newer older, l = newer ++ y :: older ∧ (w.ts y ≤ w.ts x ∨ w.override y = true) ∧
      ∀ z ∈ newer, w.ts x < w.ts z ∧ w.override z = false := by
  induction l with
  | nil => simp [walk]
  | cons p rest ih =>
    unfold walk
    by_cases h1 : w.ts p > w.ts x
    · by_cases h2 : w.override p = true
      · simp only [h1, h2, if_true, Except.ok.injEq]
        constructor
        · rintro rfl
          exact ⟨[], rest, rfl, .inr h2, by simp⟩
        · rintro ⟨newer, older, e, _, hn⟩
          cases newer with
          | nil => simp at e; exact e.1
          | cons a newer =>
            simp at e
            have := (hn a (by simp)).2
            rw [← e.1, h2] at this
            cases this
      · simp only [h1, if_true, h2]
        simp only [Bool.false_eq_true, if_false]
        rw [ih]
        constructor
        · rintro ⟨newer, older, e, hy, hn⟩
          refine ⟨p :: newer, older, by simp [e], hy, ?_⟩
          intro z hz
          rcases List.mem_cons.1 hz with rfl | hz
          · exact ⟨h1, by simpa using h2⟩
          · exact hn z hz
        · rintro ⟨newer, older, e, hy, hn⟩
          cases newer with
          | nil =>
            simp at e
            rw [e.1] at h1 h2
            rcases hy with hy | hy
            · exact absurd h1 (not_lt.2 hy)
            · exact absurd hy h2
          | cons a newer =>
            simp at e
            exact ⟨newer, older, e.2, hy, fun z hz => hn z (by simp [hz])⟩
    · simp only [h1, if_false, Except.ok.injEq]
      constructor
      · rintro rfl
        exact ⟨[], rest, rfl, .inl (not_lt.1 h1), by simp⟩
      · rintro ⟨newer, older, e, hy, hn⟩
        cases newer with
        | nil => simp at e; exact e.1
        | cons a newer =>
          simp at e
          have := (hn a (by simp)).1
          rw [← e.1] at this
          exact absurd this h1

theorem walk_ne_fuel (w : World ι ν) (x : ν) (l : List ν) : walk w x l ≠ .error .fuel := by
  induction l with
  | nil => simp [walk]
  | cons p rest ih =>
    unfold walk
    split
    · split
      · simp
      · exact ih
    · simp

theorem mapM_ok_iff {α β ε : Type} (f : α → Except ε β) (l : List α) (out : List β)
    (h : l.mapM f = .ok out) (y : β) : y ∈ out ↔ ∃ x ∈ l, f x = .ok y := by
  induction l generalizing out with
  | nil =>
    simp only [List.mapM_nil, pure, Except.pure, Except.ok.injEq] at h
    subst h; simp
  | cons a l ih =>
    rw [List.mapM_cons] at h
    cases ha : f a with
    | error e => rw [ha] at h; simp [bind, Except.bind] at h
    | ok b =>
      rw [ha] at h
      simp only [bind, Except.bind] at h
      cases hl : l.mapM f with
      | error e => rw [hl] at h; simp at h
      | ok bs =>
        rw [hl] at h
        simp only [pure, Except.pure, Except.ok.injEq] at h
        subst h
        have := ih bs hl
        simp only [List.mem_cons, this, exists_eq_or_imp, ha, Except.ok.injEq]
        constructor
        · rintro (rfl | h)
          · exact .inl rfl
          · exact .inr h
        · rintro (h | h)
          · exact .inl h.symm
          · exact .inr h

theorem mapM_ok_total {α β ε : Type} (f : α → Except ε β) (l : List α) (out : List β)
    (h : l.mapM f = .ok out) : ∀ x ∈ l, ∃ y, f x = .ok y := by
  induction l generalizing out with
  | nil => simp
  | cons a l ih =>
    rw [List.mapM_cons] at h
    cases ha : f a with
    | error e => rw [ha] at h; simp [bind, Except.bind] at h
    | ok b =>
      rw [ha] at h
      simp only [bind, Except.bind] at h
      cases hl : l.mapM f with
      | error e => rw [hl] at h; simp at h
      | ok bs =>
        intro x hx
        rcases List.mem_cons.1 hx with rfl | hx
        · exact ⟨b, ha⟩
        · exact ih bs hl x hx

theorem mapM_error {α β ε : Type} (f : α → Except ε β) (l : List α) (e : ε)
    (h : l.mapM f = .error e) : ∃ x ∈ l, f x = .error e := by
  induction l with
  | nil => simp [pure, Except.pure] at h
  | cons a l ih =>
    rw [List.mapM_cons] at h
    cases ha : f a with
    | error e' =>
      rw [ha] at h
      simp only [bind, Except.bind, Except.error.injEq] at h
      exact ⟨a, by simp, by rw [ha, h]⟩
    | ok b =>
      rw [ha] at h
      simp only [bind, Except.bind] at h
      cases hl : l.mapM f with
      | error e' =>
        rw [hl] at h
        simp only [Except.error.injEq] at h
        subst h
        obtain ⟨x, hx, he⟩ := ih hl
        exact ⟨x, by simp [hx], he⟩
      | ok bs => rw [hl] at h; simp [pure, Except.pure] at h

theorem sliceSucc_ne_fuel (w : World ι ν) (ctxs : List Ctx) (x : ν) : sliceSucc w ctxs x ≠ .error .fuel := by
  intro h
  obtain ⟨pid, _, he⟩ := mapM_error _ _ _ h
  exact walk_ne_fuel _ _ _ he

theorem mem_parents_iff (w : World ι ν) (ctxs : List Ctx) (x : ν) (pid : ι) :
    pid ∈ (ctxs.flatMap fun c => w.parents c x) ↔ RecordedParent w ctxs x pid := by
  simp [RecordedParent, List.mem_flatMap]

theorem step_iff (w : World ι ν) (ctxs : List Ctx) (x y : ν) (ys : List ν) (h : sliceSucc w ctxs x = .ok ys) :
    y ∈ ys ↔ DependsOn w ctxs x y := by
  rw [mapM_ok_iff _ _ _ h]
  constructor
  · rintro ⟨pid, hp, hw⟩
    exact ⟨pid, (mem_parents_iff ..).1 hp, (walk_ok_iff ..).1 hw⟩
  · rintro ⟨pid, hp, hw⟩
    exact ⟨pid, (mem_parents_iff ..).2 hp, (walk_ok_iff ..).2 hw⟩

theorem stepOf_imp (w : World ι ν) (ctxs : List Ctx) (x y : ν) (h : StepOf (sliceSucc w ctxs) x y) :
    DependsOn w ctxs x y := by
  obtain ⟨ys, hs, hm⟩ := h
  exact (step_iff w ctxs x y ys hs).1 hm

/-- `sliceSucc` raises exactly when some recorded parent has no visible version. -/
theorem sliceSucc_ok_of_resolvable (w : World ι ν) (ctxs : List Ctx) (x : ν) :
    Resolvable w ctxs x → ∃ ys, sliceSucc w ctxs x = .ok ys := by
  intro hr
  cases h : sliceSucc w ctxs x with
  | ok ys => exact ⟨ys, rfl⟩
  | error e =>
    obtain ⟨pid, hp, he⟩ := mapM_error _ _ _ h
    obtain ⟨y, hy⟩ := hr pid ((mem_parents_iff ..).1 hp)
    rw [(walk_ok_iff ..).2 hy] at he
    cases he

theorem resolvable_of_sliceSucc_ok (w : World ι ν) (ctxs : List Ctx) (x : ν) (ys : List ν)
    (h : sliceSucc w ctxs x = .ok ys) : Resolvable w ctxs x := by
  intro pid hp
  obtain ⟨y, hy⟩ := mapM_ok_total _ _ _ h pid ((mem_parents_iff ..).2 hp)
  exact ⟨y, (walk_ok_iff ..).1 hy⟩

variable [DecidableEq ν]

/-- The seed loop of `make_multi_slice` without `seed_only`. -/
theorem seeds_fold (w : World ι ν) (ctxs : List Ctx) (fuel : Nat) (seeds : List (Seed ν)) (acc out : List ν)
    (h : seeds.foldlM (addSeed w ctxs fuel false) acc = .ok out) :
    ∃ roots, seeds.mapM (resolveSeed w) = .ok roots ∧
      roots.foldlM (fun s y => dfs (sliceSucc w ctxs) fuel s y) acc = .ok out := by
  induction seeds generalizing acc with
  | nil => exact ⟨[], rfl, h⟩
  | cons s seeds ih =>
    rw [List.foldlM_cons] at h
    cases hs : resolveSeed w s with
    | error e => simp [addSeed, hs, bind, Except.bind] at h
    | ok x =>
      have e1 : addSeed w ctxs fuel false acc s = dfs (sliceSucc w ctxs) fuel acc x := by
        simp [addSeed, hs, makeSliceHelper]
      rw [e1] at h
      cases hd : dfs (sliceSucc w ctxs) fuel acc x with
      | error e => rw [hd] at h; simp [bind, Except.bind] at h
      | ok mid =>
        rw [hd] at h
        obtain ⟨roots, hr, hf⟩ := ih mid h
        refine ⟨x :: roots, ?_, ?_⟩
        · rw [List.mapM_cons, hs, hr]; rfl
        · rw [List.foldlM_cons, hd]; exact hf

theorem resolveSeed_ok_iff (w : World ι ν) (s : Seed ν) (x : ν) : resolveSeed w s = .ok x ↔ Denotes w s x := by
  cases s with
  | time t =>
    simp only [resolveSeed, Denotes]
    cases w.at' t <;> simp
  | node y => simp [resolveSeed, Denotes]

theorem mem_sortByTime (w : World ι ν) (l : List ν) (x : ν) : x ∈ sortByTime w l ↔ x ∈ l := by
  unfold sortByTime
  exact (List.perm_insertionSort _ l).mem_iff

theorem sorted_sortByTime (w : World ι ν) (l : List ν) :
    (sortByTime w l).Pairwise (fun a b => w.ts a ≤ w.ts b) := by
  unfold sortByTime
  have : Std.Total (fun a b : ν => w.ts a ≤ w.ts b) := ⟨fun a b => le_total _ _⟩
  have : IsTrans ν (fun a b : ν => w.ts a ≤ w.ts b) := ⟨fun a b c h1 h2 => le_trans h1 h2⟩
  exact List.pairwise_insertionSort _ l

theorem nodup_sortByTime (w : World ι ν) (l : List ν) (h : l.Nodup) : (sortByTime w l).Nodup :=
  (List.perm_insertionSort _ l).nodup_iff.2 h

/-- Membership in the result of a slice. -/
theorem slice_mem_iff (w : World ι ν) (ctxs : List Ctx) (fuel : Nat) (seeds : List (Seed ν)) (out : List ν)
    (h : makeMultiSlice w ctxs fuel seeds false = .ok out) :
    ∃ roots, seeds.mapM (resolveSeed w) = .ok roots ∧
      (∀ y, y ∈ out ↔ ∃ x ∈ roots, Relation.ReflTransGen (StepOf (sliceSucc w ctxs)) x y) ∧ out.Nodup ∧
      (∀ y ∈ out, ∃ ys, sliceSucc w ctxs y = .ok ys ∧ ∀ z ∈ ys, z ∈ out) := by
  unfold makeMultiSlice at h
  cases hf : seeds.foldlM (addSeed w ctxs fuel false) [] with
  | error e => rw [hf] at h; simp at h
  | ok cl =>
    rw [hf] at h
    simp only [Except.ok.injEq] at h
    subst h
    obtain ⟨roots, hr, hd⟩ := seeds_fold w ctxs fuel seeds [] cl hf
    have hp := foldl_post _ _ (dfs_post (sliceSucc w ctxs) fuel) roots [] cl hd
    refine ⟨roots, hr, ?_, nodup_sortByTime w cl (hp.nodup (by simp)), ?_⟩
    · intro y
      rw [mem_sortByTime]
      exact visit_exact _ _ _ _ hd y
    · intro y hy
      obtain ⟨ys, hs, hc⟩ := hp.closed y ((mem_sortByTime ..).1 hy) (by simp)
      exact ⟨ys, hs, fun z hz => (mem_sortByTime ..).2 (hc z hz)⟩

/-- Inside a slice, the steps taken are exactly the dependencies. -/
theorem star_in_slice (w : World ι ν) (ctxs : List Ctx) (x y : ν)
    (h : Relation.ReflTransGen (StepOf (sliceSucc w ctxs)) x y) : DependsOnStar w ctxs x y :=
  Relation.ReflTransGen.mono (fun a b => stepOf_imp w ctxs a b) _ _ h

theorem star_closed (w : World ι ν) (ctxs : List Ctx) (out : List ν)
    (hc : ∀ y ∈ out, ∃ ys, sliceSucc w ctxs y = .ok ys ∧ ∀ z ∈ ys, z ∈ out) (x y : ν)
    (hx : x ∈ out) (h : DependsOnStar w ctxs x y) : y ∈ out := by
  induction h with
  | refl => exact hx
  | tail _ hs ih =>
    obtain ⟨ys, hs', hm⟩ := hc _ ih
    exact hm _ ((step_iff w ctxs _ _ ys hs').2 hs)

theorem mem_roots (w : World ι ν) (seeds : List (Seed ν)) (roots : List ν) (h : seeds.mapM (resolveSeed w) = .ok roots)
    (x : ν) : x ∈ roots ↔ ∃ s ∈ seeds, Denotes w s x := by
  rw [mapM_ok_iff _ _ _ h]
  simp only [resolveSeed_ok_iff]

/-- Membership in a slice in terms of the specification. -/
theorem slice_mem_spec (w : World ι ν) (ctxs : List Ctx) (fuel : Nat) (seeds : List (Seed ν)) (out : List ν)
    (h : makeMultiSlice w ctxs fuel seeds false = .ok out) (y : ν) :
    y ∈ out ↔ ∃ s ∈ seeds, ∃ x, Denotes w s x ∧ DependsOnStar w ctxs x y := by
  obtain ⟨roots, hr, hm, _, hc⟩ := slice_mem_iff w ctxs fuel seeds out h
  constructor
  · intro hy
    obtain ⟨x, hx, hxy⟩ := (hm y).1 hy
    obtain ⟨s, hs, hd⟩ := (mem_roots w seeds roots hr x).1 hx
    exact ⟨s, hs, x, hd, star_in_slice _ _ _ _ hxy⟩
  · rintro ⟨s, hs, x, hd, hxy⟩
    have hx : x ∈ out := (hm x).2 ⟨x, (mem_roots w seeds roots hr x).2 ⟨s, hs, hd⟩, .refl⟩
    exact star_closed w ctxs out hc x y hx hxy

end Verif.Slice

namespace Verif.Slice
open Verif
variable {ι ν : Type} [DecidableEq ν]

/-- Without overrides a dependency is not newer than its user. -/
theorem dependsOn_le (w : World ι ν) (ctxs : List Ctx) (x y : ν) (h : DependsOn w ctxs x y)
    (ho : w.override y = false) : w.ts y ≤ w.ts x := by
  obtain ⟨pid, _, newer, older, _, hy, _⟩ := h
  rcases hy with hy | hy
  · exact hy
  · rw [ho] at hy; cases hy

/-- With enough fuel and only resolvable parents in reach, a visit returns normally. -/
theorem visit_ok (w : World ι ν) (ctxs : List Ctx) (U : Finset ν)
    (hU : ∀ x ∈ U, ∀ y, DependsOn w ctxs x y → y ∈ U) (fuel : Nat) (hf : U.card < fuel) (seen : List ν) (x : ν)
    (hx : x ∈ U) (hr : ∀ y, DependsOnStar w ctxs x y → Resolvable w ctxs y) :
    ∃ out, dfs (sliceSucc w ctxs) fuel seen x = .ok out := by
  cases h : dfs (sliceSucc w ctxs) fuel seen x with
  | ok out => exact ⟨out, rfl⟩
  | error e =>
    exfalso
    cases e with
    | fuel =>
      obtain ⟨n, rfl⟩ : ∃ n, fuel = n + 1 := ⟨fuel - 1, by omega⟩
      refine dfs_noFuel (sliceSucc w ctxs) U ?_ (sliceSucc_ne_fuel w ctxs) n seen x hx ?_ h
      · intro a ha ys hs b hb
        exact hU a ha b ((step_iff w ctxs a b ys hs).1 hb)
      · have := Finset.card_filter_le U (· ∉ seen)
        omega
    | crash =>
      obtain ⟨y, hxy, hy⟩ := dfs_crash _ _ _ _ h
      obtain ⟨ys, hs⟩ := sliceSucc_ok_of_resolvable w ctxs y (hr y (star_in_slice _ _ _ _ hxy))
      rw [hs] at hy
      cases hy

theorem seeds_ok (w : World ι ν) (ctxs : List Ctx) (U : Finset ν)
    (hU : ∀ x ∈ U, ∀ y, DependsOn w ctxs x y → y ∈ U) (fuel : Nat) (hf : U.card < fuel) (seeds : List (Seed ν))
    (hs : ∀ s ∈ seeds, ∃ x ∈ U, Denotes w s x)
    (hr : ∀ s ∈ seeds, ∀ x, Denotes w s x → ∀ y, DependsOnStar w ctxs x y → Resolvable w ctxs y) (acc : List ν) :
    ∃ out, seeds.foldlM (addSeed w ctxs fuel false) acc = .ok out := by
  induction seeds generalizing acc with
  | nil => exact ⟨acc, rfl⟩
  | cons s seeds ih =>
    obtain ⟨x, hxU, hd⟩ := hs s (by simp)
    obtain ⟨mid, hm⟩ := visit_ok w ctxs U hU fuel hf acc x hxU (hr s (by simp) x hd)
    obtain ⟨out, ho⟩ := ih (fun t ht => hs t (by simp [ht])) (fun t ht => hr t (by simp [ht])) mid
    refine ⟨out, ?_⟩
    rw [List.foldlM_cons]
    have : addSeed w ctxs fuel false acc s = .ok mid := by
      simp [addSeed, (resolveSeed_ok_iff w s x).2 hd, makeSliceHelper, hm]
    rw [this]
    exact ho

theorem seedOnly_fold (w : World ι ν) (ctxs : List Ctx) (fuel : Nat) (seeds : List (Seed ν)) (acc out : List ν)
    (h : seeds.foldlM (addSeed w ctxs fuel true) acc = .ok out) (y : ν) :
    y ∈ out ↔ y ∈ acc ∨ ∃ s ∈ seeds, Denotes w s y := by
  induction seeds generalizing acc with
  | nil =>
    simp only [List.foldlM_nil, pure, Except.pure, Except.ok.injEq] at h
    subst h; simp
  | cons s seeds ih =>
    rw [List.foldlM_cons] at h
    cases hs : resolveSeed w s with
    | error e => simp [addSeed, hs, bind, Except.bind] at h
    | ok x =>
      have e1 : addSeed w ctxs fuel true acc s = .ok (if x ∈ acc then acc else acc ++ [x]) := by
        simp [addSeed, hs]
      rw [e1] at h
      have := ih _ h
      rw [this]
      have hd := (resolveSeed_ok_iff w s x).1 hs
      have huniq : ∀ z, Denotes w s z ↔ z = x := by
        intro z
        rw [← resolveSeed_ok_iff, hs]
        simp [eq_comm]
      simp only [List.mem_cons, exists_eq_or_imp, huniq]
      by_cases hx : x ∈ acc
      · simp only [hx, if_true]
        constructor
        · rintro (h | h)
          · exact .inl h
          · exact .inr (.inr h)
        · rintro (h | rfl | h)
          · exact .inl h
          · exact .inl hx
          · exact .inr h
      · simp only [hx, if_false, List.mem_append, List.mem_singleton]
        tauto

theorem seedOnly_nodup (w : World ι ν) (ctxs : List Ctx) (fuel : Nat) (seeds : List (Seed ν)) (acc out : List ν)
    (h : seeds.foldlM (addSeed w ctxs fuel true) acc = .ok out) (hn : acc.Nodup) : out.Nodup := by
  induction seeds generalizing acc with
  | nil =>
    simp only [List.foldlM_nil, pure, Except.pure, Except.ok.injEq] at h
    subst h; exact hn
  | cons s seeds ih =>
    rw [List.foldlM_cons] at h
    cases hs : resolveSeed w s with
    | error e => simp [addSeed, hs, bind, Except.bind] at h
    | ok x =>
      have e1 : addSeed w ctxs fuel true acc s = .ok (if x ∈ acc then acc else acc ++ [x]) := by
        simp [addSeed, hs]
      rw [e1] at h
      refine ih _ h ?_
      by_cases hx : x ∈ acc
      · simpa [hx] using hn
      · simp only [hx, if_false]
        rw [List.nodup_append]
        exact ⟨hn, by simp, fun a ha b hb e => hx (by simp at hb; rw [← hb, ← e]; exact ha)⟩

/-- Two sorted duplicate-free lists with the same members and pairwise different timestamps are equal. -/
theorem eq_of_sorted_same_mem (w : World ι ν) (l₁ l₂ : List ν)
    (h₁ : l₁.Pairwise (fun a b => w.ts a ≤ w.ts b)) (h₂ : l₂.Pairwise (fun a b => w.ts a ≤ w.ts b))
    (n₁ : l₁.Nodup) (n₂ : l₂.Nodup) (hm : ∀ x, x ∈ l₁ ↔ x ∈ l₂)
    (hinj : ∀ x ∈ l₁, ∀ y ∈ l₁, w.ts x = w.ts y → x = y) : l₁ = l₂ := by
  have hp : l₁.Perm l₂ := (List.perm_ext_iff_of_nodup n₁ n₂).2 hm
  refine hp.eq_of_pairwise ?_ h₁ h₂
  intro a b ha hb hab hba
  exact hinj a ha b ((hm b).2 hb) (le_antisymm hab hba)

end Verif.Slice
