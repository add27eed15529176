import Verif.Ready.Model
import Mathlib.Order.Lattice
import Mathlib.Order.Defs.LinearOrder
import Mathlib.Order.MinMax
import Mathlib.Algebra.Order.Ring.Int

/-! # Which cells are ready: properties (C93, C94) -/

namespace Verif.Ready

variable {S C : Type} [DecidableEq S]

/-! ## Specification -/

/-- The executions that updated each symbol (or a part of it, if it is read as a whole). -/
abbrev History (S : Type) := Read S → List Int

/-- The history gives the version of what is read: the latest of its updates, if there are any. -/
def Latest (h : History S) (r : Read S) : Prop := (∀ u ∈ h r, 0 < u ∧ u ≤ r.ctr) ∧ (r.ctr ∈ h r ∨ (h r = [] ∧ r.ctr ≤ 0))

/-- The update was made at or above the cell; in any order every update counts. -/
def Above (w : World S C) (u : Int) : Prop := w.anyOrder = true ∨ ∃ c, w.cellAt u = some c ∧ w.posOf c ≤ w.posOf w.cell

/-- The cell reads something, without blocking, that was updated at or above it since execution `k`. -/
def Outdated (w : World S C) (h : History S) (p : Read S → Prop) (rs : List (Read S)) (k : Int) : Prop :=
  ∃ r ∈ rs, r.blocking = false ∧ p r ∧ ∃ u ∈ h r, k < u ∧ Above w u

/-- All executions mentioned are on record. -/
def OnRecord (w : World S C) (rs : List (Read S)) : Prop := ∀ r ∈ rs, 0 < r.ctr → (w.cellAt r.ctr).isSome

/-- Nothing that the cell reads was last updated by a cell below it. -/
def NoneBelow (w : World S C) (rs : List (Read S)) : Prop := ∀ r ∈ rs, 0 < r.ctr → Above w r.ctr

/-! ## Proofs -/

theorem addUsed_mem (used : S → List Int) (r : Read S) (s : S) (c : Int) :
    c ∈ addUsed used r s ↔ c ∈ used s ∨ (0 < r.ctr ∧ s = r.sym ∧ c = r.ctr) := by
  unfold addUsed
  by_cases h : r.ctr > 0
  · rw [if_pos h]
    show c ∈ (if s = r.sym ∧ r.ctr ∉ used s then r.ctr :: used s else used s) ↔ _
    by_cases h2 : s = r.sym ∧ r.ctr ∉ used s
    · rw [if_pos h2, List.mem_cons]
      constructor
      · rintro (h3 | h3)
        · exact .inr ⟨h, h2.1, h3⟩
        · exact .inl h3
      · rintro (h3 | h3)
        · exact .inr h3
        · exact .inl h3.2.2
    · rw [if_neg h2]
      constructor
      · exact .inl
      · rintro (h3 | ⟨_, h3, rfl⟩)
        · exact h3
        · by_contra h4
          exact h2 ⟨h3, h4⟩
  · rw [if_neg h]
    constructor
    · exact .inl
    · rintro (h3 | h3)
      · exact h3
      · exact absurd h3.1 h

theorem register_mem : ∀ (rs : List (Read S)) (used : S → List Int) (s : S) (c : Int),
    c ∈ register used rs s ↔ c ∈ used s ∨ ∃ r ∈ rs, 0 < r.ctr ∧ s = r.sym ∧ c = r.ctr := by
  intro rs
  induction rs with
  | nil => intro used s c; simp [register]
  | cons r rs ih =>
    intro used s c
    have : register used (r :: rs) = register (addUsed used r) rs := rfl
    rw [this, ih, addUsed_mem]
    simp only [List.mem_cons, exists_eq_or_imp, or_assoc]

/-- The counters on record are those of executions. -/
def Positive (used : S → List Int) : Prop := ∀ s, ∀ c ∈ used s, 0 < c

theorem used_iff {used : S → List Int} (hu : Positive used) {rs : List (Read S)} {r : Read S} (hr : r ∈ rs) :
    r.ctr ∈ register used rs r.sym ↔ 0 < r.ctr := by
  rw [register_mem]
  constructor
  · rintro (h | ⟨q, _, hq, _, he⟩)
    · exact hu _ _ h
    · rw [he]; exact hq
  · intro h
    exact .inr ⟨r, hr, h, rfl, rfl⟩

/-- The read counts. -/
def Counts (w : World S C) (sel : Sel) (r : Read S) : Prop :=
  selected sel r = true ∧ 0 < r.ctr ∧ ∃ c, w.cellAt r.ctr = some c ∧ position w c ≤ position w w.cell ∧ allowed w r.sym (position w c) = true

theorem fold_turn (w : World S C) (sel : Sel) (used : S → List Int) (k : Int) : ∀ (rs : List (Read S)) (m : Int),
    (∀ r ∈ rs, (r.ctr ∈ used r.sym ↔ 0 < r.ctr)) → OnRecord w rs →
    ∃ m', rs.foldlM (turn w sel used) m = .ok m' ∧
      (k < m' ↔ k < m ∨ ∃ r ∈ rs, Counts w sel r ∧ (k < r.ctr ∨ k < w.override r.sym)) := by
  intro rs
  induction rs with
  | nil => intro m _ _; exact ⟨m, rfl, by simp⟩
  | cons r rs ih =>
    intro m hu hrec
    have hstep : ∃ m1, turn w sel used m r = .ok m1 ∧ (k < m1 ↔ k < m ∨ (Counts w sel r ∧ (k < r.ctr ∨ k < w.override r.sym))) := by
      unfold turn
      by_cases hc : (selected sel r && decide (r.ctr ∈ used r.sym)) = true
      · rw [if_pos hc]
        simp only [Bool.and_eq_true, decide_eq_true_eq] at hc
        have hpos := (hu r (by simp)).1 hc.2
        cases hcell : w.cellAt r.ctr with
        | none => have := hrec r (by simp) hpos; rw [hcell] at this; simp at this
        | some c =>
          simp only
          by_cases hp : (decide (position w w.cell ≥ position w c) && allowed w r.sym (position w c)) = true
          · rw [if_pos hp]
            simp only [Bool.and_eq_true, decide_eq_true_eq] at hp
            refine ⟨_, rfl, ?_⟩
            have hcount : Counts w sel r := ⟨hc.1, hpos, c, hcell, hp.1, hp.2⟩
            rw [lt_max_iff, lt_max_iff]
            constructor
            · rintro (h | h)
              · exact .inl h
              · exact .inr ⟨hcount, h⟩
            · rintro (h | h)
              · exact .inl h
              · exact .inr h.2
          · rw [if_neg hp]
            refine ⟨_, rfl, ?_⟩
            constructor
            · exact .inl
            · rintro (h | ⟨⟨_, _, c', hc', h1, h2⟩, _⟩)
              · exact h
              · rw [hcell] at hc'
                cases hc'
                exact absurd (by simp [h1, h2]) hp
      · rw [if_neg hc]
        refine ⟨_, rfl, ?_⟩
        constructor
        · exact .inl
        · rintro (h | ⟨⟨h1, h2, _⟩, _⟩)
          · exact h
          · exact absurd (by simp [h1, (hu r (by simp)).2 h2]) hc
    obtain ⟨m1, h1, h2⟩ := hstep
    obtain ⟨m2, h3, h4⟩ := ih m1 (fun r hr => hu r (by simp [hr])) (fun r hr => hrec r (by simp [hr]))
    refine ⟨m2, ?_, ?_⟩
    · rw [List.foldlM_cons, h1]; exact h3
    · rw [h4, h2]
      simp only [List.mem_cons, exists_eq_or_imp, or_assoc]

theorem foldl_max_lt (k : Int) : ∀ (l : List Int) (m : Int), k < l.foldl max m ↔ k < m ∨ ∃ x ∈ l, k < x := by
  intro l
  induction l with
  | nil => intro m; simp
  | cons a l ih =>
    intro m
    rw [List.foldl_cons, ih, lt_max_iff]
    simp only [List.mem_cons, exists_eq_or_imp, or_assoc]

theorem maxUsed_spec (w : World S C) (sel : Sel) {used : S → List Int} (hu : Positive used) {rs : List (Read S)} (hrec : OnRecord w rs)
    (mods : List Int) : ∃ m, maxUsed w sel (register used rs) rs mods = .ok m ∧ ∀ k : Int, -1 ≤ k →
      (k < m ↔ (∃ r ∈ rs, Counts w sel r ∧ (k < r.ctr ∨ k < w.override r.sym)) ∨ ∃ x ∈ mods, k < x) := by
  obtain ⟨m0, h0, _⟩ := fold_turn w sel (register used rs) 0 rs (-1) (fun r hr => used_iff hu hr) hrec
  refine ⟨mods.foldl max m0, by unfold maxUsed; rw [h0], fun k hk => ?_⟩
  obtain ⟨m1, h1, h2⟩ := fold_turn w sel (register used rs) k rs (-1) (fun r hr => used_iff hu hr) hrec
  rw [h0] at h1
  cases h1
  rw [foldl_max_lt, h2]
  constructor
  · rintro ((h | h) | h)
    · omega
    · exact .inl h
    · exact .inr h
  · rintro (h | h)
    · exact .inl (.inr h)
    · exact .inr h

omit [DecidableEq S] in
theorem position_above {w : World S C} {u : Int} {c : C} (hc : w.cellAt u = some c) : position w c ≤ position w w.cell ↔ Above w u := by
  unfold position Above
  cases hw : w.anyOrder with
  | true => simp
  | false =>
    simp only [Bool.false_eq_true, if_false, false_or]
    constructor
    · exact fun h => ⟨c, hc, h⟩
    · rintro ⟨c', hc', h⟩
      rw [hc] at hc'
      cases hc'
      exact h

/-- The predicate that belongs to a selection. -/
def selP (sel : Sel) (r : Read S) : Prop :=
  match sel with
  | .all => True
  | .reactive => r.reactive = true
  | .cascading => r.cascading = true

omit [DecidableEq S] in
theorem selected_iff (sel : Sel) (r : Read S) : selected sel r = true ↔ r.blocking = false ∧ selP sel r := by
  unfold selected selP
  cases sel <;> cases r.blocking <;> simp

theorem counts_sound {w : World S C} {h : History S} {rs : List (Read S)} {sel : Sel} (hl : ∀ r ∈ rs, Latest h r) {k : Int}
    (hc : ∃ r ∈ rs, Counts w sel r ∧ k < r.ctr) : Outdated w h (selP sel) rs k := by
  obtain ⟨r, hr, ⟨h1, h2, c, hc, h3, _⟩, hk⟩ := hc
  rw [selected_iff] at h1
  refine ⟨r, hr, h1.1, h1.2, r.ctr, ?_, hk, (position_above hc).1 h3⟩
  rcases (hl r hr).2 with h4 | ⟨_, h4⟩
  · exact h4
  · omega

theorem counts_complete {w : World S C} {h : History S} {rs : List (Read S)} {sel : Sel} (hl : ∀ r ∈ rs, Latest h r) (hrec : OnRecord w rs)
    (hb : NoneBelow w rs) (hw : w.least = none) {k : Int} (ho : Outdated w h (selP sel) rs k) : ∃ r ∈ rs, Counts w sel r ∧ k < r.ctr := by
  obtain ⟨r, hr, h1, h2, u, hu, hk, _⟩ := ho
  obtain ⟨h3, h4⟩ := (hl r hr).1 u hu
  have hpos : 0 < r.ctr := by omega
  cases hc : w.cellAt r.ctr with
  | none => have := hrec r hr hpos; rw [hc] at this; simp at this
  | some c =>
    refine ⟨r, hr, ⟨(selected_iff sel r).2 ⟨h1, h2⟩, hpos, c, hc, (position_above hc).2 (hb r hr hpos), ?_⟩, by omega⟩
    unfold allowed
    rw [hw]

/-- C93, one half. Under any schedule that uses liveness, whatever is offered as ready reads something that was updated at or above it since it was run. -/
theorem ready_sound {w : World S C} {h : History S} {rs : List (Read S)} {used : S → List Int} {minTs minNew : Int} {b : Bool}
    (hu : Positive used) (hl : ∀ r ∈ rs, Latest h r) (hrec : OnRecord w rs) (hctr : -1 ≤ w.ctr) (hov : ∀ r ∈ rs, w.override r.sym = -1)
    (hr : ready w minTs minNew used rs [] = .ok (true, b)) : Outdated w h (fun _ => True) rs (max w.ctr minTs) := by
  obtain ⟨m, h1, h2⟩ := maxUsed_spec w .all hu hrec []
  unfold ready at hr
  rw [h1] at hr
  simp only [Except.ok.injEq, Prod.mk.injEq, decide_eq_true_eq] at hr
  have h3 := (h2 (max w.ctr minTs) (by omega)).1 hr.1
  rcases h3 with ⟨r, hr', hc, h4⟩ | ⟨x, hx, _⟩
  · refine counts_sound (sel := .all) hl ⟨r, hr', hc, ?_⟩
    rcases h4 with h4 | h4
    · exact h4
    · rw [hov r hr'] at h4; omega
  · simp at hx

/-- C93. If what the cell reads was not last updated from below it, then the cell is ready exactly if it reads something that was updated at or above it since
it was run; it is newly ready if moreover it was run before and one of these updates is as recent as asked for. -/
theorem ready_partial {w : World S C} {h : History S} {rs : List (Read S)} {used : S → List Int} {minTs minNew : Int}
    (hu : Positive used) (hl : ∀ r ∈ rs, Latest h r) (hrec : OnRecord w rs) (hctr : -1 ≤ w.ctr) (hov : ∀ r ∈ rs, w.override r.sym = -1)
    (hw : w.least = none) (hb : NoneBelow w rs) : ∃ a b, ready w minTs minNew used rs [] = .ok (a, b) ∧
      (a = true ↔ Outdated w h (fun _ => True) rs (max w.ctr minTs)) ∧
      (b = true ↔ 0 < w.ctr ∧ Outdated w h (fun _ => True) rs (max (max w.ctr minTs) (minNew - 1))) := by
  obtain ⟨m, h1, h2⟩ := maxUsed_spec w .all hu hrec []
  have h3 : ∀ k, -1 ≤ k → (k < m ↔ Outdated w h (fun _ => True) rs k) := by
    intro k hk
    rw [h2 k hk]
    constructor
    · rintro (⟨r, hr', hc, h4⟩ | ⟨x, hx, _⟩)
      · refine counts_sound (sel := .all) hl ⟨r, hr', hc, ?_⟩
        rcases h4 with h4 | h4
        · exact h4
        · rw [hov r hr'] at h4; omega
      · simp at hx
    · intro ho
      obtain ⟨r, hr', hc, h4⟩ := counts_complete (sel := .all) hl hrec hb hw ho
      exact .inl ⟨r, hr', hc, .inl h4⟩
  refine ⟨_, _, by unfold ready; rw [h1], ?_, ?_⟩
  · rw [decide_eq_true_eq]
    exact h3 _ (by omega)
  · simp only [Bool.and_eq_true, decide_eq_true_eq]
    rw [← h3 _ (by omega)]
    omega

/-- C93, in any order: no further condition. -/
theorem ready_any_order {w : World S C} {h : History S} {rs : List (Read S)} {used : S → List Int} {minTs minNew : Int}
    (hu : Positive used) (hl : ∀ r ∈ rs, Latest h r) (hrec : OnRecord w rs) (hctr : -1 ≤ w.ctr) (hov : ∀ r ∈ rs, w.override r.sym = -1)
    (hw : w.least = none) (ha : w.anyOrder = true) : ∃ a b, ready w minTs minNew used rs [] = .ok (a, b) ∧
      (a = true ↔ ∃ r ∈ rs, r.blocking = false ∧ ∃ u ∈ h r, w.ctr < u ∧ minTs < u) := by
  obtain ⟨a, b, h1, h2, _⟩ := ready_partial (minTs := minTs) (minNew := minNew) hu hl hrec hctr hov hw (fun r _ _ => .inl ha)
  refine ⟨a, b, h1, h2.trans ?_⟩
  constructor
  · rintro ⟨r, hr, hbk, _, u, hu', hk, _⟩
    exact ⟨r, hr, hbk, u, hu', by omega, by omega⟩
  · rintro ⟨r, hr, hbk, u, hu', hk⟩
    exact ⟨r, hr, hbk, trivial, u, hu', by omega, .inl ha⟩

/-- C94. Likewise for the cells that are run again by themselves: exactly those which read something marked as reactive (cascading) that was updated at or above since. -/
theorem forced_partial {w : World S C} {h : History S} {rs : List (Read S)} {used : S → List Int} {minForced : Int}
    (hu : Positive used) (hl : ∀ r ∈ rs, Latest h r) (hrec : OnRecord w rs) (hctr : -1 ≤ w.ctr) (hov : ∀ r ∈ rs, w.override r.sym = -1)
    (hw : w.least = none) (hb : NoneBelow w rs) : ∃ a b, forced w minForced used rs = .ok (a, b) ∧
      (a = true ↔ Outdated w h (fun r => r.reactive = true) rs (max w.ctr minForced)) ∧
      (b = true ↔ Outdated w h (fun r => r.cascading = true) rs (max w.ctr minForced)) := by
  have key : ∀ sel, ∃ m, maxUsed w sel (register used rs) rs [] = .ok m ∧ (max w.ctr minForced < m ↔ Outdated w h (selP sel) rs (max w.ctr minForced)) := by
    intro sel
    obtain ⟨m, h1, h2⟩ := maxUsed_spec w sel hu hrec []
    refine ⟨m, h1, ?_⟩
    rw [h2 _ (by omega)]
    constructor
    · rintro (⟨r, hr', hc, h4⟩ | ⟨x, hx, _⟩)
      · refine counts_sound hl ⟨r, hr', hc, ?_⟩
        rcases h4 with h4 | h4
        · exact h4
        · rw [hov r hr'] at h4; omega
      · simp at hx
    · intro ho
      obtain ⟨r, hr', hc, h4⟩ := counts_complete hl hrec hb hw ho
      exact .inl ⟨r, hr', hc, .inl h4⟩
  obtain ⟨m1, h1, h2⟩ := key .reactive
  obtain ⟨m2, h3, h4⟩ := key .cascading
  refine ⟨_, _, by unfold forced; rw [h1, h3], ?_, ?_⟩
  · rw [decide_eq_true_eq]; exact h2
  · rw [decide_eq_true_eq]; exact h4

/-- A cell that is run again by itself is ready. -/
theorem forced_ready {w : World S C} {rs : List (Read S)} {used : S → List Int} {minTs minNew minForced : Int} {a b a' b' : Bool}
    (hu : Positive used) (hrec : OnRecord w rs) (hctr : -1 ≤ w.ctr) (hm : minTs ≤ minForced)
    (hf : forced w minForced used rs = .ok (a, b)) (hr : ready w minTs minNew used rs [] = .ok (a', b')) (h : a = true ∨ b = true) : a' = true := by
  obtain ⟨m0, h0, h0'⟩ := maxUsed_spec w .all hu hrec []
  obtain ⟨m1, h1, h1'⟩ := maxUsed_spec w .reactive hu hrec []
  obtain ⟨m2, h2, h2'⟩ := maxUsed_spec w .cascading hu hrec []
  unfold forced at hf
  rw [h1, h2] at hf
  unfold ready at hr
  rw [h0] at hr
  simp only [Except.ok.injEq, Prod.mk.injEq] at hf hr
  obtain ⟨rfl, rfl⟩ := hf
  obtain ⟨rfl, _⟩ := hr
  simp only [decide_eq_true_eq] at h ⊢
  have hsel : ∀ sel r, Counts w sel r → Counts w .all r := by
    rintro sel r ⟨g1, g2⟩
    rw [selected_iff] at g1
    exact ⟨(selected_iff .all r).2 ⟨g1.1, trivial⟩, g2⟩
  have hall : max w.ctr minForced < m0 := by
    rw [h0' _ (by omega)]
    rcases h with h | h
    · rcases (h1' _ (by omega)).1 h with ⟨r, hr, hc, hk⟩ | ⟨x, hx, _⟩
      · exact .inl ⟨r, hr, hsel _ r hc, hk⟩
      · simp at hx
    · rcases (h2' _ (by omega)).1 h with ⟨r, hr, hc, hk⟩ | ⟨x, hx, _⟩
      · exact .inl ⟨r, hr, hsel _ r hc, hk⟩
      · simp at hx
  omega

/-- Cell 1 at position 1, which was run as execution 3, reads `x` (0). Cells 0 and 2 stand above and below it and were run as executions 4 and 5. -/
def exW (any : Bool) : World Nat Nat where
  cellAt := fun n => if n = 3 then some 1 else if n = 4 then some 0 else if n = 5 then some 2 else none
  posOf := fun c => c
  anyOrder := any
  cell := 1
  ctr := 3
  least := none
  override := fun _ => -1

/-- `x`, last updated in the execution given. -/
def exR (c : Int) : Read Nat := { sym := 0, blocking := false, cascading := false, reactive := true, ctr := c }

/-- Updated above it: ready. -/
example : ready (exW false) (-1) 4 (fun _ => []) [exR 4] [] = .ok (true, true) ∧ Latest (fun _ => [2, 4]) (exR 4) ∧ OnRecord (exW false) [exR 4] ∧
    NoneBelow (exW false) [exR 4] ∧ forced (exW false) (-1) (fun _ => []) [exR 4] = .ok (true, false) := by
  refine ⟨by decide, ⟨by decide, by decide⟩, ?_, ?_, by decide⟩
  · intro r hr _; rw [List.mem_singleton] at hr; subst hr; rfl
  · intro r hr _; rw [List.mem_singleton] at hr; subst hr; exact .inr ⟨0, rfl, by decide⟩

/-- In any order an update by the cell below counts. -/
example : ready (exW true) (-1) 4 (fun _ => []) [exR 5] [] = .ok (true, true) := by decide

/-- C93 fails: `x` was updated by the cell above (execution 4) after the cell had run, and then once more by a cell below (execution 5). The cell is not ready any
more. -/
theorem ready_violated : Latest (fun _ => [2, 4, 5]) (exR 5) ∧ OnRecord (exW false) [exR 5] ∧
    Outdated (exW false) (fun _ => [2, 4, 5]) (fun _ => True) [exR 5] (max (exW false).ctr (-1)) ∧
    ready (exW false) (-1) 4 (fun _ => []) [exR 5] [] = .ok (false, false) ∧ forced (exW false) (-1) (fun _ => []) [exR 5] = .ok (false, false) := by
  refine ⟨⟨by decide, by decide⟩, ?_, ?_, by decide, by decide⟩
  · intro r hr _; rw [List.mem_singleton] at hr; subst hr; rfl
  · exact ⟨exR 5, by simp, rfl, trivial, 4, by decide, by decide, .inr ⟨0, rfl, by decide⟩⟩

end Verif.Ready
