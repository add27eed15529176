/-
What slices of cells by statements show, and when they raise.
-/
import Verif.Parts.Spec

namespace Verif.Parts
open Verif Verif.Slice

variable {ι σ κι κ : Type} [DecidableEq σ] [DecidableEq κ]

omit [DecidableEq σ] [DecidableEq κ] in
theorem mem_stamps (b : Book ι σ κι κ) (k : κ) (t : Timestamp) :
    t ∈ stamps b k ↔ t.cellNum = (b.cw.ts k).cellNum ∧ 0 ≤ t.stmtNum ∧ t.stmtNum < b.now k := by
  unfold stamps
  simp only [List.mem_map, List.mem_range]
  constructor
  · rintro ⟨i, hi, rfl⟩
    exact ⟨rfl, by dsimp only; omega, by dsimp only; omega⟩
  · rintro ⟨h1, h2, h3⟩
    refine ⟨t.stmtNum.toNat, by omega, ?_⟩
    ext
    · exact h1.symm
    · dsimp only; omega

omit [DecidableEq κ] in
theorem mem_computeStmts (b : Book ι σ κι κ) (ht : Tidy b) (ctxs : List Ctx) (fuel : Nat) (k : κ)
    (l : List σ) (h : computeStmts b ctxs fuel [k] = .ok l) (y : σ) :
    y ∈ l ↔ ∃ s, b.sw.ts s ∈ stamps b k ∧ DependsOnStar b.sw ctxs s y := by
  unfold computeStmts at h
  rw [slice_mem_spec _ _ _ _ _ h]
  constructor
  · rintro ⟨sd, hsd, x, hd, hxy⟩
    simp only [List.flatMap_cons, List.flatMap_nil, List.append_nil, List.mem_map] at hsd
    obtain ⟨t, hts, rfl⟩ := hsd
    have : b.sw.ts x = t := (ht.stmt t x).1 hd
    exact ⟨x, this ▸ hts, hxy⟩
  · rintro ⟨s, hs, hy⟩
    refine ⟨.time (b.sw.ts s), ?_, s, (ht.stmt _ _).2 rfl, hy⟩
    simpa using hs

omit [DecidableEq κ] in
theorem computeStmts_stamp (b : Book ι σ κι κ) (ht : Tidy b) (ctxs : List Ctx) (fuel : Nat) (k : κ)
    (l : List σ) (h : computeStmts b ctxs fuel [k] = .ok l) (t : Timestamp) (hts : t ∈ stamps b k) :
    ∃ s ∈ l, b.sw.ts s = t := by
  unfold computeStmts at h
  obtain ⟨x, hx, hd⟩ := (slice_dependency_closed _ _ _ _ _ h).1 (.time t) (by simpa using hts)
  exact ⟨x, hx, (ht.stmt t x).1 hd⟩

omit [DecidableEq σ] [DecidableEq κ] in
theorem chosen_some (b : Book ι σ κι κ) (ht : Tidy b) (counter : Int) (k : κ) :
    chosen b counter (some (b.cw.ts k).cellNum) = .ok (some [k]) := by
  unfold chosen
  have : b.cw.at' ⟨(b.cw.ts k).cellNum, 0⟩ = some k := (ht.cell _ _).2 rfl
  simp only [this]

/-- **C141, part.** After an execution that got to its end and was not edited since, the statements
shown are exactly its own and those that they depend on. -/
theorem magic_exact_partial (b : Book ι σ κι κ) (ht : Tidy b) (ctxs : List Ctx) (fuel : Nat)
    (counter : Int) (k : κ) (hr : Reached b k (b.now k)) (out : Out σ κ)
    (h : magic b ctxs fuel counter true (some (b.cw.ts k).cellNum) = .shows out) (t : Timestamp) :
    Displays b out t ↔ Wanted b ctxs k t := by
  unfold magic at h
  rw [chosen_some b ht] at h
  simp only [if_true] at h
  cases hc : computeStmts b ctxs fuel [k] with
  | error e => rw [hc] at h; simp at h
  | ok l =>
    rw [hc] at h
    simp only [Reply.shows.injEq] at h
    subst h
    have hm := mem_computeStmts b ht ctxs fuel k l hc
    constructor
    · rintro ⟨y, hy, rfl⟩
      obtain ⟨s, hs, hd⟩ := (hm y).1 hy
      exact ⟨s, y, ((mem_stamps b k _).1 hs).1, hd, rfl⟩
    · rintro ⟨s, y, hs, hd, rfl⟩
      refine ⟨y, (hm y).2 ⟨s, ?_, hd⟩, rfl⟩
      rw [mem_stamps]
      refine ⟨hs, (hr (b.sw.ts s).stmtNum).1 ⟨s, ?_⟩⟩
      ext
      · exact hs
      · rfl

/-- **C141, part.** Such a slice is given whenever the links recorded lead to statements that can be
found. -/
theorem magic_given_partial (b : Book ι σ κι κ) (ht : Tidy b) (ctxs : List Ctx) (U : Finset σ)
    (hU : ∀ s, s ∈ U) (fuel : Nat) (hf : U.card < fuel) (counter : Int) (k : κ)
    (hr : Reached b k (b.now k)) (hres : ∀ s, Resolvable b.sw ctxs s) :
    ∃ out, magic b ctxs fuel counter true (some (b.cw.ts k).cellNum) = .shows out := by
  have := (slice_terminates_and_raises_iff b.sw ctxs U (fun _ _ y _ => hU y)
    (([k].flatMap (stamps b)).map .time) (fun _ _ x _ => hU x) fuel hf).2 (by
      intro sd hsd
      simp only [List.flatMap_cons, List.flatMap_nil, List.append_nil, List.mem_map] at hsd
      obtain ⟨t, hts, rfl⟩ := hsd
      obtain ⟨h1, h2, h3⟩ := (mem_stamps b k t).1 hts
      obtain ⟨s, hs⟩ := (hr t.stmtNum).2 ⟨h2, h3⟩
      refine ⟨s, (ht.stmt t s).2 ?_, fun y _ => hres y⟩
      rw [hs, ← h1])
  obtain ⟨l, hl⟩ := this
  refine ⟨.stmts l, ?_⟩
  unfold magic
  rw [chosen_some b ht]
  simp only [if_true]
  have : computeStmts b ctxs fuel [k] = .ok l := hl
  rw [this]

omit [DecidableEq κ] in
theorem computeStmts_raises (b : Book ι σ κι κ) (ht : Tidy b) (ctxs : List Ctx) (fuel : Nat) (k : κ)
    (n : Nat) (hr : Reached b k n) (hn : n < b.now k) :
    ∃ e, computeStmts b ctxs fuel [k] = .error e := by
  cases hc : computeStmts b ctxs fuel [k] with
  | error e => exact ⟨e, rfl⟩
  | ok l =>
    obtain ⟨s, _, hs⟩ := computeStmts_stamp b ht ctxs fuel k l hc ⟨(b.cw.ts k).cellNum, (n : Int)⟩
      ((mem_stamps b k _).2 ⟨rfl, by dsimp only; omega, by dsimp only; omega⟩)
    have := (hr n).1 ⟨s, hs⟩
    omega

/-- **C141 fails.** A cell that did not reach its last statement, because one before it raised or
because statements were added since, has no slice by statements: each way to ask for it raises. -/
theorem unfinished_raises (b : Book ι σ κι κ) (ht : Tidy b) (ctxs : List Ctx) (fuel : Nat)
    (counter : Int) (k : κ) (n : Nat) (hr : Reached b k n) (hn : n < b.now k) (seedOnly : Bool) :
    (∃ e, magic b ctxs fuel counter true (some (b.cw.ts k).cellNum) = .raises e) ∧
    (∃ e, slice b ctxs fuel true seedOnly k = .error e) := by
  obtain ⟨e, he⟩ := computeStmts_raises b ht ctxs fuel k n hr hn
  constructor
  · refine ⟨e, ?_⟩
    unfold magic
    rw [chosen_some b ht]
    simp only [if_true, he]
  · refine ⟨e, ?_⟩
    unfold slice
    simp only [if_true, he]

/-- **C141 fails.** Once statements have been taken out of a cell in the editor, as many of those
that it ran last are missing from its slice, although nothing has been run since. -/
theorem shortened_missing (b : Book ι σ κι κ) (ht : Tidy b) (ctxs : List Ctx) (fuel : Nat)
    (counter : Int) (k : κ) (n : Nat) (hr : Reached b k n) (hov : ∀ s, b.sw.override s = false)
    (out : Out σ κ)
    (h : magic b ctxs fuel counter true (some (b.cw.ts k).cellNum) = .shows out) (i : Nat)
    (hi : b.now k ≤ i) (hin : i < n) :
    Wanted b ctxs k ⟨(b.cw.ts k).cellNum, i⟩ ∧ ¬ Displays b out ⟨(b.cw.ts k).cellNum, i⟩ := by
  constructor
  · obtain ⟨s, hs⟩ := (hr i).2 ⟨by omega, by omega⟩
    exact ⟨s, s, by rw [hs], .refl, hs⟩
  · unfold magic at h
    rw [chosen_some b ht] at h
    simp only [if_true] at h
    cases hc : computeStmts b ctxs fuel [k] with
    | error e => rw [hc] at h; simp at h
    | ok l =>
      rw [hc] at h
      simp only [Reply.shows.injEq] at h
      subst h
      rintro ⟨y, hy, hyt⟩
      unfold computeStmts at hc
      obtain ⟨sd, hsd, x, hd, hle⟩ := multi_slice_no_future _ _ _ _ _ hc (fun y _ => hov y) y hy
      simp only [List.flatMap_cons, List.flatMap_nil, List.append_nil, List.mem_map] at hsd
      obtain ⟨t, hts, rfl⟩ := hsd
      have hx : b.sw.ts x = t := (ht.stmt t x).1 hd
      obtain ⟨h1, h2, h3⟩ := (mem_stamps b k t).1 hts
      rw [hyt, hx, Timestamp.le_def] at hle
      dsimp only at hle
      omega

theorem slice_true_ok (b : Book ι σ κι κ) (ctxs : List Ctx) (fuel : Nat) (seedOnly : Bool) (k : κ)
    (out : Out σ κ) (h : slice b ctxs fuel true seedOnly k = .ok out) :
    ∃ l m, computeStmts b ctxs fuel [k] = .ok l ∧ out = .cells m ∧
      makeMultiSlice b.cw ctxs fuel ((l.map b.sw.ts).map .time) seedOnly = .ok m := by
  unfold slice formatCells at h
  simp only [if_true] at h
  cases hc : computeStmts b ctxs fuel [k] with
  | error e => rw [hc] at h; simp at h
  | ok l =>
    rw [hc] at h
    simp only at h
    cases hm : makeMultiSlice b.cw ctxs fuel ((l.map b.sw.ts).map .time) seedOnly with
    | error e => rw [hm] at h; simp at h
    | ok m =>
      rw [hm] at h
      simp only [Except.ok.injEq] at h
      exact ⟨l, m, rfl, h.symm, hm⟩

/-- **C141 fails.** `cell.slice(stmts=True)` and `cell.code(stmts=True)` show cells, not statements:
of every cell that has one statement in the slice, all statements are shown. -/
theorem whole_cells_shown (b : Book ι σ κι κ) (ht : Tidy b) (ctxs : List Ctx) (fuel : Nat)
    (seedOnly : Bool) (k : κ) (out : Out σ κ) (h : slice b ctxs fuel true seedOnly k = .ok out)
    (s s' : σ) (hs : Own b k s) (hd : DependsOnStar b.sw ctxs s s') (k' : κ)
    (hk : (b.cw.ts k').cellNum = (b.sw.ts s').cellNum) (i : Nat) (hi : i < b.now k') :
    Displays b out ⟨(b.cw.ts k').cellNum, i⟩ := by
  obtain ⟨l, m, hc, rfl, hm⟩ := slice_true_ok b ctxs fuel seedOnly k out h
  have hsl : s' ∈ l := (mem_computeStmts b ht ctxs fuel k l hc s').2
    ⟨s, (mem_stamps b k _).2 hs, hd⟩
  refine ⟨k', ?_, rfl, by dsimp only; omega, by dsimp only; omega⟩
  have hden : Denotes b.cw (.time (b.sw.ts s')) k' := (ht.cell _ _).2 hk
  have hmem : (Seed.time (b.sw.ts s') : Seed κ) ∈ (l.map b.sw.ts).map .time := by
    simp only [List.map_map, List.mem_map, Function.comp]
    exact ⟨s', hsl, rfl⟩
  cases seedOnly with
  | true => exact (slice_seed_only _ _ _ _ _ hm k').2 ⟨_, hmem, hden⟩
  | false => exact (slice_mem_spec _ _ _ _ _ hm k').2 ⟨_, hmem, k', hden, .refl⟩

/-- **C141 fails.** Indeed `cell.slice(stmts=True)` is `cell.slice()`, whenever links between
statements come with links between their cells. -/
theorem flag_without_effect (b : Book ι σ κι κ) (ht : Tidy b) (ctxs : List Ctx) (fuel : Nat)
    (hl : Linked b ctxs) (k : κ) (hk : 0 < b.now k) (out out' : Out σ κ)
    (h : slice b ctxs fuel true false k = .ok out) (h' : slice b ctxs fuel false false k = .ok out')
    : out = out' := by
  obtain ⟨l, m, hc, rfl, hm⟩ := slice_true_ok b ctxs fuel false k out h
  unfold slice formatCells at h'
  simp only [Bool.false_eq_true, if_false] at h'
  cases hm' : makeMultiSlice b.cw ctxs fuel ([b.cw.ts k].map .time) false with
  | error e => rw [hm'] at h'; simp at h'
  | ok m' =>
    rw [hm'] at h'
    simp only [Except.ok.injEq] at h'
    subst h'
    have hone : ∀ k' k'' : κ, (b.cw.ts k').cellNum = (b.cw.ts k'').cellNum → k' = k'' := by
      intro k' k'' he
      have h1 : b.cw.at' (b.cw.ts k'') = some k' := (ht.cell _ _).2 he
      have h2 : b.cw.at' (b.cw.ts k'') = some k'' := (ht.cell _ _).2 rfl
      rw [h1] at h2
      exact Option.some.inj h2
    have hstar : ∀ s s', DependsOnStar b.sw ctxs s s' → ∀ k', (b.cw.ts k').cellNum
        = (b.sw.ts s').cellNum → ∀ k₀, (b.cw.ts k₀).cellNum = (b.sw.ts s).cellNum →
        DependsOnStar b.cw ctxs k₀ k' := by
      intro s s' hss
      induction hss with
      | refl =>
        intro k' hk' k₀ hk₀
        rw [hone k₀ k' (by rw [hk', hk₀])]
        exact .refl
      | @tail c d _ hstep ih =>
        intro k' hk' k₀ hk₀
        obtain ⟨kb, hkb⟩ := ht.home c
        have h1 := ih kb hkb k₀ hk₀
        rcases hl _ _ kb k' hstep hkb hk' with rfl | h2
        · exact h1
        · exact h1.tail h2
    have hmem : ∀ x, x ∈ m ↔ x ∈ m' := by
      intro x
      rw [slice_mem_spec _ _ _ _ _ hm, slice_mem_spec _ _ _ _ _ hm']
      constructor
      · rintro ⟨sd, hsd, y, hden, hyx⟩
        simp only [List.map_map, List.mem_map, Function.comp] at hsd
        obtain ⟨s', hs', rfl⟩ := hsd
        obtain ⟨s, hs, hss⟩ := (mem_computeStmts b ht ctxs fuel k l hc s').1 hs'
        have hy : (b.cw.ts y).cellNum = (b.sw.ts s').cellNum := (ht.cell _ _).1 hden
        refine ⟨.time (b.cw.ts k), by simp, k, (ht.cell _ _).2 rfl, ?_⟩
        exact (hstar s s' hss y hy k ((mem_stamps b k _).1 hs).1.symm).trans hyx
      · rintro ⟨sd, hsd, y, hden, hyx⟩
        simp only [List.map_cons, List.map_nil, List.mem_singleton] at hsd
        subst hsd
        have hyk : y = k := hone y k ((ht.cell _ _).1 hden)
        subst hyk
        obtain ⟨s, hs, hst⟩ := computeStmts_stamp b ht ctxs fuel y l hc
          ⟨(b.cw.ts y).cellNum, 0⟩ ((mem_stamps b y _).2 ⟨rfl, by simp, by dsimp only; omega⟩)
        refine ⟨.time (b.sw.ts s), ?_, y, (ht.cell _ _).2 (by rw [hst]), hyx⟩
        simp only [List.map_map, List.mem_map, Function.comp]
        exact ⟨s, hs, rfl⟩
    obtain ⟨s1, n1⟩ := slice_sorted_nodup _ _ _ _ _ _ hm
    obtain ⟨s2, n2⟩ := slice_sorted_nodup _ _ _ _ _ _ hm'
    rw [eq_of_sorted_same_mem b.cw m m' s1 s2 n1 n2 hmem
      (fun x _ y _ hxy => hone x y (by rw [hxy]))]

/-- **C141 fails.** `cell.code()` is the cell alone, but `cell.code(stmts=True)` shows every cell
that a statement of it depends on as well. -/
theorem code_shows_others (b : Book ι σ κι κ) (ht : Tidy b) (ctxs : List Ctx) (fuel : Nat) (k : κ)
    (out : Out σ κ) (h : slice b ctxs fuel true true k = .ok out) (s s' : σ)
    (hs : Own b k s) (hd : DependsOn b.sw ctxs s s') (k' : κ) (hk' : k' ≠ k)
    (hk : (b.cw.ts k').cellNum = (b.sw.ts s').cellNum) (hn : 0 < b.now k') :
    Displays b out ⟨(b.cw.ts k').cellNum, 0⟩ ∧
      slice b ctxs fuel false true k = .ok (.cells [k]) ∧
      ¬ Displays b (.cells [k]) ⟨(b.cw.ts k').cellNum, 0⟩ := by
  have hat : b.cw.at' (b.cw.ts k) = some k := (ht.cell _ _).2 rfl
  refine ⟨whole_cells_shown b ht ctxs fuel true k out h s s' hs (.single hd) k' hk 0 hn, ?_, ?_⟩
  · unfold slice formatCells
    simp only [Bool.false_eq_true, if_false, List.map_cons, List.map_nil]
    have : makeMultiSlice b.cw ctxs fuel [Seed.time (b.cw.ts k)] true = .ok [k] := by
      simp [makeMultiSlice, addSeed, resolveSeed, hat, sortByTime, pure, Except.pure, bind,
        Except.bind]
    rw [this]
  · rintro ⟨x, hx, hxc, _⟩
    simp only [List.mem_singleton] at hx
    subst hx
    have h1 : b.cw.at' (b.cw.ts k') = some x := (ht.cell _ _).2 hxc
    have h2 : b.cw.at' (b.cw.ts k') = some k' := (ht.cell _ _).2 rfl
    rw [h1] at h2
    exact hk' (Option.some.inj h2).symm

/-- `%flow slice` never says that a cell has not yet been run: it raises. -/
theorem never_warns (b : Book ι σ κι κ) (ctxs : List Ctx) (fuel : Nat) (counter : Int) (stmt : Bool)
    (num : Option Int) :
    magic b ctxs fuel counter stmt num ≠ .warns ∧
    ((∀ k, (b.cw.ts k).cellNum ≠ (num.getD (counter - 1))) → Tidy b →
      magic b ctxs fuel counter stmt num = .raises .crash) := by
  constructor
  · unfold magic chosen
    cases num with
    | none =>
      cases hc : b.cw.at' ⟨counter - 1, 0⟩ with
      | none => simp
      | some k =>
        dsimp only
        split <;> split <;> simp
    | some n =>
      cases hc : b.cw.at' ⟨n, 0⟩ with
      | none => simp [hc]
      | some k =>
        simp only [hc]
        split <;> split <;> simp
  · intro hno ht
    have hnone : ∀ n, num.getD (counter - 1) = n → b.cw.at' ⟨n, 0⟩ = none := by
      intro n hn
      cases hc : b.cw.at' ⟨n, 0⟩ with
      | none => rfl
      | some k => exact (hno k (by rw [hn]; exact (ht.cell _ _).1 hc)).elim
    unfold magic chosen
    cases num with
    | none => simp only [hnone (counter - 1) rfl]
    | some n => simp only [hnone n rfl]

end Verif.Parts
