import Verif.Versions.Hist
import Mathlib.Data.Finset.Range

/-! # C134: the code of the versions of a variable -/

namespace Verif.Versions
open Verif

theorem stamp_le {a b : Nat} : stamp a ≤ stamp b ↔ a ≤ b := by
  rw [Timestamp.le_def]; simp only [stamp]; omega

theorem at_stamp (σ : State) (stat : Nat → List Nat) (t : Nat) (h : t < σ.time) : (world σ stat).at' (stamp t) = some t := by
  have h1 : ((t : Int) + 1) ≤ σ.time := by omega
  have h2 : (1 : Int) ≤ (t : Int) + 1 := by omega
  show (if (stamp t).stmtNum = 0 ∧ 1 ≤ (stamp t).cellNum ∧ (stamp t).cellNum ≤ σ.time then _ else _) = _
  rw [if_pos ⟨rfl, h2, h1⟩]
  simp [stamp]

theorem recorded_lt {h : List Stmt} {σ : State} (i : Inv h σ) {stat : Nat → List Nat} (he : Spec.Earlier stat) {x pid : Nat}
    (hr : Slice.RecordedParent (world σ stat) [.dynamic, .static] x pid) : pid < x := by
  obtain ⟨c, _, hp⟩ := hr
  cases c with
  | dynamic => exact i.edges x pid hp
  | static => exact he x pid hp

theorem slice_ok {h : List Stmt} {σ : State} (i : Inv h σ) {stat : Nat → List Nat} (he : Spec.Earlier stat) (T : List Nat)
    (hT : ∀ t ∈ T, t < σ.time) :
    ∃ C, Slice.makeMultiSlice (world σ stat) [.dynamic, .static] (σ.time + 1) ((T.map stamp).map .time) false = .ok C ∧
      (∀ t ∈ T, t ∈ C) ∧ Closed C σ.time σ ∧ C.Pairwise (· < ·) ∧ (∀ c ∈ C, c < σ.time) ∧ (∀ c ∈ C, ∃ t ∈ T, c ≤ t) := by
  have hden : ∀ s ∈ (T.map stamp).map Slice.Seed.time, ∀ x, Slice.Denotes (world σ stat) s x → x ∈ T := by
    intro s hs x hd
    obtain ⟨ts, hts, rfl⟩ := List.mem_map.1 hs
    obtain ⟨t, ht, rfl⟩ := List.mem_map.1 hts
    have : some t = some x := (at_stamp σ stat t (hT t ht)).symm.trans hd
    cases this; exact ht
  have hdep : ∀ x y, Slice.DependsOn (world σ stat) [.dynamic, .static] x y → y < x ∧ y < σ.time := by
    rintro x y ⟨pid, hr, newer, older, e, _⟩
    have hlt := recorded_lt i he hr
    have hc : (world σ stat).chain pid = if pid < σ.time then [pid] else [] := rfl
    rw [hc] at e
    split at e
    · have : y ∈ [pid] := by rw [e]; simp
      simp at this; subst this; exact ⟨hlt, by assumption⟩
    · simp at e
  have hstar : ∀ x y, x < σ.time → Slice.DependsOnStar (world σ stat) [.dynamic, .static] x y → y < σ.time := by
    intro x y hx hr
    induction hr with
    | refl => exact hx
    | tail _ hs _ => exact (hdep _ _ hs).2
  obtain ⟨C, hC⟩ := (Slice.slice_terminates_and_raises_iff (world σ stat) [.dynamic, .static] (Finset.range σ.time)
    (fun x _ y hd => Finset.mem_range.2 (hdep x y hd).2) ((T.map stamp).map .time)
    (fun s hs x hd => Finset.mem_range.2 (hT x (hden s hs x hd))) (σ.time + 1) (by simp)).2 (by
      intro s hs
      obtain ⟨ts, hts, rfl⟩ := List.mem_map.1 hs
      obtain ⟨t, ht, rfl⟩ := List.mem_map.1 hts
      refine ⟨t, at_stamp σ stat t (hT t ht), fun y hy pid hr => ?_⟩
      have hlt := recorded_lt i he hr
      have hy' := hstar t y (hT t ht) hy
      refine ⟨pid, [], [], ?_, .inl (stamp_le.2 (Nat.le_of_lt hlt)), fun z hz => by cases hz⟩
      show (if pid < σ.time then [pid] else []) = _
      rw [if_pos (by omega)]; rfl)
  have hclosed := Slice.slice_dependency_closed _ _ _ _ _ hC
  have hmin := Slice.slice_minimal _ _ _ _ _ hC
  have hsorted := Slice.slice_sorted_nodup _ _ _ _ _ _ hC
  have hfut := Slice.multi_slice_no_future _ _ _ _ _ hC (fun _ _ => rfl)
  refine ⟨C, hC, fun t ht => ?_, fun t htC _ u hu => ?_, ?_, fun c hc => ?_, fun c hc => ?_⟩
  · obtain ⟨x, hx, hd⟩ := hclosed.1 (.time (stamp t)) (List.mem_map.2 ⟨_, List.mem_map.2 ⟨t, ht, rfl⟩, rfl⟩)
    have : some t = some x := (at_stamp σ stat t (hT t ht)).symm.trans hd
    cases this; exact hx
  · obtain ⟨y, hy, newer, older, e, _⟩ := hclosed.2 t htC u ⟨.dynamic, by simp, hu⟩
    have hc : (world σ stat).chain u = if u < σ.time then [u] else [] := rfl
    rw [hc] at e
    split at e
    · have : y ∈ [u] := by rw [e]; simp
      simp at this; subst this; exact hy
    · simp at e
  · have := hsorted.1.and hsorted.2
    exact this.imp fun {a b} ⟨h1, h2⟩ => by
      have : a ≤ b := stamp_le.1 h1
      omega
  · obtain ⟨s, hs, x, hd, hr⟩ := hmin c hc
    exact hstar x c (hT x (hden s hs x hd)) hr
  · obtain ⟨s, hs, x, hd, hle⟩ := hfut c hc
    exact ⟨x, hden s hs x hd, stamp_le.1 hle⟩

theorem view_agree {C : List Nat} {h : List Stmt} {σ : State} {ρ : Py} (i : Inv h σ) (a : Agree C σ ρ) {x : Nat} {s : Tracked} {w : Spec.View}
    (hs : Assoc.get σ.syms x = some s) (hts : s.ts ∈ C) (hw : Spec.view σ.py x = some w)
    (hp : ∀ o ns k m, Assoc.get σ.py.env x = some (.ref o) → Assoc.get σ.nss o = some ns → Assoc.get ns.parts k = some m → m.ts ∈ C) :
    ∃ r, Spec.view ρ x = some r ∧ Spec.Same r w := by
  obtain ⟨h1, h2⟩ := a.name x s hs hts
  unfold Spec.view at hw ⊢
  rw [h1]
  cases e : Assoc.get σ.py.env x with
  | none => rw [e] at hw; cases hw
  | some v =>
    rw [e] at hw
    cases v with
    | num n => cases hw; exact ⟨_, rfl, rfl⟩
    | ref o =>
      dsimp only at hw ⊢
      obtain ⟨d, hd, rfl⟩ := Option.map_eq_some_iff.1 hw
      obtain ⟨d', hd', hk⟩ := a.heap o d hd (h2 o e)
      refine ⟨.dict d', by rw [hd']; rfl, fun k => ?_⟩
      cases ek : Assoc.get d k with
      | none => exact (hk k).1 ek
      | some n =>
        obtain ⟨ns, m, hns, hm⟩ := part_exists i hd ek
        rw [(hk k).2 ns m hns hm (hp o ns _ m e hns hm), ek]

theorem partsOf_mem {σ : State} {x o : Nat} {ns : Ns} {k : Option Nat} {m : Part} (hx : Assoc.get σ.py.env x = some (.ref o))
    (hns : Assoc.get σ.nss o = some ns) (hm : Assoc.get ns.parts k = some m) : m ∈ partsOf σ x := by
  simp only [partsOf, hx, hns]
  exact List.mem_map.2 ⟨_, Assoc.mem_of_get hm, rfl⟩

theorem partsOf_past {h : List Stmt} {σ : State} (i : Inv h σ) {x : Nat} {m : Part} (hm : m ∈ partsOf σ x) :
    m.ts < σ.time ∧ ∀ b ∈ m.snaps, b < σ.time := by
  unfold partsOf at hm
  split at hm
  · rename_i o e
    split at hm
    · rename_i ns en
      obtain ⟨d, hd⟩ := Option.isSome_iff_exists.1 (i.ref x o e)
      obtain ⟨_, ns', en', ok⟩ := i.heap o d hd
      rw [en] at en'; cases en'
      obtain ⟨p, hp, rfl⟩ := List.mem_map.1 hm
      exact ok.past p hp
    · cases hm
  · cases hm

theorem timestamp_lt {h : List Stmt} {σ : State} (i : Inv h σ) {x t : Nat} (ht : timestamp σ x = some t) : t < σ.time := by
  unfold timestamp at ht
  split at ht
  · cases ht
  · rename_i s hs
    have h1 := (i.sym x s hs).1
    split at ht
    · rename_i o e
      split at ht
      · rename_i ns en
        obtain ⟨d, hd⟩ := Option.isSome_iff_exists.1 (i.ref x o e)
        obtain ⟨_, ns', en', ok⟩ := i.heap o d hd
        rw [en] at en'; cases en'
        have := ok.desc
        cases ht; omega
      · cases ht; exact h1
    · cases ht; exact h1

theorem pyIndex_last {α : Type} (l : List α) : pyIndex l (-1) = l.getLast? := by
  cases l with
  | nil => simp [pyIndex]
  | cons a l =>
    have h1 : ¬ (0 : Int) ≤ -1 := by omega
    have h2 : -(-1 : Int) ≤ ((a :: l).length : Int) := by simp; omega
    unfold pyIndex
    rw [if_neg h1, if_pos h2, List.getLast?_eq_getElem?]
    congr 1
    simp only [List.length_cons]
    omega

theorem pyIndex_mem {α : Type} {l : List α} {v : Int} {a : α} (h : pyIndex l v = some a) : a ∈ l := by
  unfold pyIndex at h
  split at h
  · exact List.mem_of_getElem? h
  · split at h
    · exact List.mem_of_getElem? h
    · cases h

theorem forall₂_get {α β : Type} {R : α → β → Prop} {a : List α} {b : List β} (h : List.Forall₂ R a b) (n : Nat) :
    (a[n]? = none ∧ b[n]? = none) ∨ ∃ x y, a[n]? = some x ∧ b[n]? = some y ∧ R x y := by
  induction h generalizing n with
  | nil => left; simp
  | cons hr _ ih =>
    cases n with
    | zero => right; exact ⟨_, _, rfl, rfl, hr⟩
    | succ n => simpa using ih n

theorem forall₂_pyIndex {α β : Type} {R : α → β → Prop} {a : List α} {b : List β} (h : List.Forall₂ R a b) (v : Int) :
    (pyIndex a v = none ∧ pyIndex b v = none) ∨ ∃ x y, pyIndex a v = some x ∧ pyIndex b v = some y ∧ R x y := by
  unfold pyIndex
  rw [h.length_eq]
  split
  · exact forall₂_get h _
  · split
    · exact forall₂_get h _
    · left; exact ⟨rfl, rfl⟩

theorem lastLeqSym_le {snaps : List (Option Nat)} {b t : Nat} (h : t ∈ lastLeqSym snaps b) : t ≤ b ∧ some t ∈ snaps := by
  unfold lastLeqSym at h
  split at h
  · rename_i u e
    rw [List.mem_singleton] at h
    subst h
    have h1 := List.find?_some e
    have h2 := List.mem_of_find?_eq_some e
    exact ⟨by simpa using h1, by simpa using h2⟩
  · cases h

theorem lastLeq_le {snaps : List Nat} {b t : Nat} (h : t ∈ lastLeq snaps b) : t ≤ b ∧ t ∈ snaps := by
  unfold lastLeq at h
  rw [Option.mem_toList] at h
  have h1 := List.find?_some h
  have h2 := List.mem_of_find?_eq_some h
  exact ⟨by simpa using h1, by simpa using h2⟩

/-- The snapshots of a variable never go back in time. -/
theorem snaps_sorted {h : List Stmt} {σ : State} (ht : track h = some σ) {x : Nat} {s : Tracked} (hs : Assoc.get σ.syms x = some s) :
    s.snaps.Pairwise (fun a b => ∀ t u, a = some t → b = some u → t ≤ u) ∧ (s.snaps.tail.all Option.isSome = true) ∧ s.snaps ≠ [] := by
  induction h generalizing σ s with
  | nil => cases ht; simp [State.init] at hs
  | cons st h ih =>
    simp only [track, Option.bind_eq_some_iff] at ht
    obtain ⟨σ₀, h0, hst⟩ := ht
    have i := inv_track h0
    simp only [step, Option.bind_eq_some_iff, Option.some.injEq] at hst
    obtain ⟨p, hp, rfl⟩ := hst
    have app : ∀ (s₀ : Tracked) (n : Nat), Assoc.get σ₀.syms x = some s₀ → s₀.ts ≤ n →
        (s₀.snaps ++ [some n]).Pairwise (fun a b => ∀ t u, a = some t → b = some u → t ≤ u) ∧
        ((s₀.snaps ++ [some n]).tail.all Option.isSome = true) ∧ s₀.snaps ++ [some n] ≠ [] := by
      intro s₀ n h1 h2
      obtain ⟨a, b, c⟩ := ih h0 h1
      refine ⟨List.pairwise_append.2 ⟨a, List.pairwise_singleton _ _, ?_⟩, ?_, by simp⟩
      · intro a ha b hb t u e1 e2
        subst e1
        have := (i.sym x s₀ h1).2 t ha
        rw [List.mem_singleton] at hb
        rw [hb] at e2; cases e2; omega
      · rw [List.tail_append_of_ne_nil c]
        rw [List.all_append, b]; rfl
    have bind : ∀ y, Assoc.get (bindSym σ₀.time σ₀.syms y) x = some s →
        s.snaps.Pairwise (fun a b => ∀ t u, a = some t → b = some u → t ≤ u) ∧ (s.snaps.tail.all Option.isSome = true) ∧ s.snaps ≠ [] := by
      intro y h1
      rw [get_bindSym] at h1
      split at h1
      · rename_i e; subst e
        cases e2 : Assoc.get σ₀.syms x with
        | none => rw [e2] at h1; cases h1; exact ⟨List.pairwise_singleton _ _, rfl, by simp⟩
        | some s₀ => rw [e2] at h1; cases h1; exact app s₀ _ e2 (Nat.le_of_lt (i.sym x s₀ e2).1)
      · exact ih h0 h1
    have snap : ∀ o, Assoc.get (snapshotAll σ₀.py.env o σ₀.syms) x = some s →
        s.snaps.Pairwise (fun a b => ∀ t u, a = some t → b = some u → t ≤ u) ∧ (s.snaps.tail.all Option.isSome = true) ∧ s.snaps ≠ [] := by
      intro o h1
      rw [get_snapshotAll] at h1
      obtain ⟨s₀, e, h1⟩ := Option.map_eq_some_iff.1 h1
      split at h1
      · subst h1; exact app s₀ _ e (Nat.le_refl _)
      · subst h1; exact ih h0 e
    cases st with
    | num y ops c => exact bind y hs
    | dict y items => exact bind y hs
    | put y k ops c =>
      simp only [note] at hs
      split at hs
      · split at hs
        · exact snap _ hs
        · exact ih h0 hs
      · exact ih h0 hs
    | same y z =>
      simp only [note] at hs
      split at hs
      · split at hs
        · simp only [Assoc.get_set] at hs
          split at hs
          · cases hs; exact ⟨by simp, rfl, by simp⟩
          · exact snap _ hs
        · exact ih h0 hs
      · exact bind y hs

theorem lastLeqSym_of_mem {h : List Stmt} {σ : State} (ht : track h = some σ) {x b : Nat} {s : Tracked} (hs : Assoc.get σ.syms x = some s)
    (hb : some b ∈ s.snaps) : lastLeqSym s.snaps b = [b] := by
  obtain ⟨hp, hall, _⟩ := snaps_sorted ht hs
  -- split at the last occurrence
  unfold lastLeqSym
  have key : ∀ (l : List (Option Nat)), l.Pairwise (fun a b => ∀ t u, a = some t → b = some u → t ≤ u) → l.tail.all Option.isSome = true →
      some b ∈ l → l.reverse.find? (fun s => match s with | some t => decide (t ≤ b) | none => true) = some (some b) := by
    intro l
    induction l using List.reverseRecOn with
    | nil => intro _ _ h; cases h
    | append_singleton l a ih =>
      intro h1 h2 h3
      rw [List.reverse_append, List.reverse_singleton, List.singleton_append]
      have h1' := List.pairwise_append.1 h1
      cases a with
      | none =>
        cases l with
        | nil => simp at h3
        | cons c l => simp at h2
      | some u =>
        rcases List.mem_append.1 h3 with h3 | h3
        · have hle := h1'.2.2 _ h3 (some u) (by simp) b u rfl rfl
          by_cases e : u ≤ b
          · have : u = b := by omega
            subst this
            rw [List.find?_cons_of_pos (by simp)]
          · rw [List.find?_cons_of_neg (by simpa using e)]
            refine ih h1'.1 ?_ h3
            cases l with
            | nil => rfl
            | cons c l =>
              simp only [List.cons_append, List.tail_cons, List.all_append, Bool.and_eq_true] at h2 ⊢
              exact h2.1
        · have : b = u := by simpa using h3
          subst this
          rw [List.find?_cons_of_pos (by simp)]
  have hk := key s.snaps hp hall hb
  split
  · rename_i u e
    have := e.symm.trans hk
    simp at this; rw [this]
  · rename_i e
    exact absurd hk (e b)

theorem direct_append {l g : List Stmt} (hd : Spec.Direct (l ++ g)) : Spec.Direct g := by
  induction l with
  | nil => exact hd
  | cons s l ih => exact ih hd.1

/-- **C134**, the current version: `code(x)` gives a program which, run on its own, makes `x` what it is now, whatever static analysis adds. Partial:
dictionaries are compared with `==`, for which the order of the elements does not matter (`order_changed`), and elements must not be read through a
second name of a dictionary (`second_name_missing`). -/
theorem current_partial {h : List Stmt} {σ : State} (ht : track h = some σ) (hd : Spec.Direct h) {stat : Nat → List Nat}
    (he : Spec.Earlier stat) (x : Nat) (w : Spec.View) (hw : Spec.now h x = some w) :
    ∃ C ρ r, code σ stat x (-1) = .ok C ∧ runCode σ C ⟨[], []⟩ = some ρ ∧ Spec.view ρ x = some r ∧ Spec.Same r w := by
  have i := inv_track ht
  have hv : Spec.view σ.py x = some w := by simpa only [Spec.now, i.py, Option.bind_some] using hw
  have hx : (Assoc.get σ.py.env x).isSome = true := by
    cases e : Assoc.get σ.py.env x with
    | none => simp [Spec.view, e] at hv
    | some _ => rfl
  rw [← i.dom x] at hx
  obtain ⟨s, hs⟩ := Option.isSome_iff_exists.1 hx
  obtain ⟨_, _, hne⟩ := snaps_sorted ht hs
  obtain ⟨hf, w', _, hdef⟩ := (hist_track ht).known x s hs
  have hlast : ∃ t, pyIndex s.snaps (-1) = some (some t) := by
    rw [pyIndex_last]
    cases e : s.snaps.getLast? with
    | none => exact absurd (List.getLast?_eq_none_iff.1 e) hne
    | some a =>
      cases a with
      | some t => exact ⟨t, rfl⟩
      | none =>
        -- the last snapshot is initialised
        exfalso
        have h2 := (snaps_sorted ht hs).2.1
        have : ∀ (g : List Stmt) (τ : State) (s : Tracked), track g = some τ → Assoc.get τ.syms x = some s → s.snaps.getLast? ≠ some none := by
          intro g
          induction g with
          | nil => intro τ s h1 h2; cases h1; simp [State.init] at h2
          | cons st g ih =>
            intro τ s h1 h2
            simp only [track, Option.bind_eq_some_iff] at h1
            obtain ⟨σ₀, h0, hst⟩ := h1
            simp only [step, Option.bind_eq_some_iff, Option.some.injEq] at hst
            obtain ⟨p, hp, rfl⟩ := hst
            have bind : ∀ y, Assoc.get (bindSym σ₀.time σ₀.syms y) x = some s → s.snaps.getLast? ≠ some none := by
              intro y h1
              rw [get_bindSym] at h1
              split at h1
              · rename_i e; subst e
                cases e2 : Assoc.get σ₀.syms x with
                | none => rw [e2] at h1; cases h1; simp
                | some s₀ => rw [e2] at h1; cases h1; simp
              · exact ih σ₀ s h0 h1
            have snap : ∀ o, Assoc.get (snapshotAll σ₀.py.env o σ₀.syms) x = some s → s.snaps.getLast? ≠ some none := by
              intro o h1
              rw [get_snapshotAll] at h1
              obtain ⟨s₀, e, h1⟩ := Option.map_eq_some_iff.1 h1
              split at h1
              · subst h1; simp
              · subst h1; exact ih σ₀ s₀ h0 e
            cases st with
            | num y ops c => exact bind y h2
            | dict y items => exact bind y h2
            | put y k ops c =>
              simp only [note] at h2
              split at h2
              · split at h2
                · exact snap _ h2
                · exact ih σ₀ s h0 h2
              · exact ih σ₀ s h0 h2
            | same y z =>
              simp only [note] at h2
              split at h2
              · split at h2
                · simp only [Assoc.get_set] at h2
                  split at h2
                  · cases h2; simp
                  · exact snap _ h2
                · exact ih σ₀ s h0 h2
              · exact bind y h2
        exact this h σ s ht hs e
  obtain ⟨t, hlast⟩ := hlast
  let T := nsTimes σ x s none
  have hT : ∀ u ∈ T, u < σ.time := by
    intro u hu
    simp only [T, nsTimes, List.cons_append, List.mem_cons, List.mem_append, Option.mem_toList, List.mem_map] at hu
    rcases hu with rfl | hu | ⟨m, hm, rfl⟩
    · exact (i.sym x s hs).1
    · exact timestamp_lt i hu
    · exact (partsOf_past i hm).1
  obtain ⟨C, hC, hTC, hcl, hpw, hlt, _⟩ := slice_ok i he T hT
  have hlt' : ∀ c ∈ C, c < h.length := fun c hc => by rw [← i.time]; exact hlt c hc
  obtain ⟨ρ, hρ, a⟩ := agree_track ht hd (by rw [← i.time]; exact hcl)
  obtain ⟨r, hr, hsame⟩ := view_agree i a hs (hTC _ (by simp [T, nsTimes])) hv (by
    intro o ns k m h1 h2 h3
    refine hTC _ ?_
    simp only [T, nsTimes, List.cons_append, List.mem_cons, List.mem_append, List.mem_map]
    exact .inr (.inr ⟨m, partsOf_mem h1 h2 h3, rfl⟩))
  refine ⟨C, ρ, r, ?_, by rw [runCode_eq ht hpw hlt']; exact hρ, hr, hsame⟩
  simp only [code, hs, versionTimes, if_neg hne, hlast, if_true]
  exact hC

/-- **C134**, other versions: what is counted as a version, and what the code of each gives or that asking for it raises. -/
theorem version_exact {h : List Stmt} {σ : State} (ht : track h = some σ) (hd : Spec.Direct h) {stat : Nat → List Nat}
    (he : Spec.Earlier stat) (x : Nat) (v : Int) (hv : v ≠ -1) :
    (∀ w, pyIndex (Spec.versions x h) v = some (some w) →
      ∃ C ρ r, code σ stat x v = .ok C ∧ runCode σ C ⟨[], []⟩ = some ρ ∧ Spec.view ρ x = some r ∧ Spec.Same r w) ∧
    ((∀ w, pyIndex (Spec.versions x h) v ≠ some (some w)) → code σ stat x v = .error .crash) := by
  have i := inv_track ht
  have hh := hist_track ht
  cases hs : Assoc.get σ.syms x with
  | none =>
    rw [hh.unknown x hs]
    refine ⟨fun w hw => ?_, fun _ => by simp only [code, hs]⟩
    exact absurd (pyIndex_mem hw) (by simp)
  | some s =>
    obtain ⟨hf, _⟩ := hh.known x s hs
    have hne := (snaps_sorted ht hs).2.2
    rcases forall₂_pyIndex hf v with ⟨h1, h2⟩ | ⟨a, b, h1, h2, hab⟩
    · refine ⟨fun w hw => (by rw [h2] at hw; cases hw), fun _ => ?_⟩
      simp only [code, hs, versionTimes, if_neg hne, h1]
    · cases a with
      | none =>
        cases b with
        | some w => exact absurd hab (by simp [Ent])
        | none =>
          refine ⟨fun w hw => (by rw [h2] at hw; cases hw), fun _ => ?_⟩
          simp only [code, hs, versionTimes, if_neg hne, h1, List.map_cons, List.map_nil, Slice.makeMultiSlice, List.foldlM, Slice.addSeed,
            Slice.resolveSeed]
          rfl
      | some t =>
        cases b with
        | none => exact absurd hab (by simp [Ent])
        | some w =>
          refine ⟨fun w' hw => ?_, fun hno => absurd h2 (hno w)⟩
          rw [h2] at hw; cases hw
          obtain ⟨l, g, τ, s', rfl, hlen, htg, hview, hs', hts, hparts⟩ := (show Def h x t w from hab)
          have ig := inv_track htg
          obtain ⟨τ', htg', hsuf⟩ := track_append ht
          have : τ' = τ := by rw [htg] at htg'; exact (Option.some.inj htg').symm
          subst this
          have hmem : some t ∈ s.snaps := pyIndex_mem h1
          have hone := lastLeqSym_of_mem ht hs hmem
          let T := nsTimes σ x s (some t)
          have hTt : t ∈ T := by simp [T, nsTimes, hone]
          have hTle : ∀ u ∈ T, u ≤ t := by
            intro u hu
            simp only [T, nsTimes, List.mem_append, List.mem_flatMap] at hu
            rcases hu with hu | ⟨m, _, hu⟩
            · exact (lastLeqSym_le hu).1
            · exact (lastLeq_le hu).1
          have httime : t < σ.time := by
            rw [i.time, List.length_append]; omega
          obtain ⟨C, hC, hTC, hcl, hpw, hlt, hle⟩ := slice_ok i he T (fun u hu => by have := hTle u hu; omega)
          have hCle : ∀ c ∈ C, c < g.length := by
            intro c hc
            obtain ⟨u, hu, hcu⟩ := hle c hc
            have := hTle u hu
            omega
          have htC := hTC t hTt
          have hcl' : Closed C g.length τ' := by
            intro c hc hcg u hu
            refine hcl c hc (hlt c hc) u ?_
            rw [(hsuf c hcg).1]; exact hu
          have hdg : Spec.Direct g := direct_append hd
          obtain ⟨ρ, hρ, a⟩ := agree_track htg hdg hcl'
          obtain ⟨r, hr, hsame⟩ := view_agree ig a hs' (hts ▸ htC) hview (by
            intro o ns k m e1 e2 e3
            rcases hparts o ns k m e1 e2 e3 with e | e
            · exact e ▸ htC
            · exact hcl' t htC (by omega) _ e)
          have hlt' : ∀ c ∈ C, c < (l ++ g).length := fun c hc => by rw [← i.time]; exact hlt c hc
          refine ⟨C, ρ, r, ?_, by rw [runCode_eq ht hpw hlt', rerun_append C l g hCle]; exact hρ, hr, hsame⟩
          simp only [code, hs, versionTimes, if_neg hne, h1, if_neg hv]
          exact hC

end Verif.Versions
