import Verif.Ready.Props
import Mathlib.Data.List.Basic

/-!
# Which cells are ready under the hybrid schedule

Models the computation of `min_allowed_cell_position_by_symbol`, `core/ipyflow/data_model/cell.py` 711-725. A parent is given by its position and the symbols that the
edge to it is labelled with; that each parent is a known cell is assumed. -/

namespace Verif.Ready

variable {S C : Type} [DecidableEq S]

/-- The body of the innermost loop, 722-725. -/
def noteSym (p : Int) (f : S → Option Int) (s : S) : S → Option Int :=
  fun q => if q = s then some (max ((f s).getD (-1)) p) else f q

/-- One parent, 720-725. -/
def noteParent (f : S → Option Int) (e : Int × List S) : S → Option Int := e.2.foldl (noteSym e.1) f

/-- Lines 718-725: for each slicing context, the directional parents. -/
def minAllowed (ctxs : List (List (Int × List S))) : S → Option Int := ctxs.foldl (fun f es => es.foldl noteParent f) (fun _ => none)

/-! ## Specification -/

/-- In some slicing context, a parent at position `p` provides `s`. -/
def Provides (ctxs : List (List (Int × List S))) (s : S) (p : Int) : Prop := ∃ es ∈ ctxs, ∃ e ∈ es, e.1 = p ∧ s ∈ e.2

/-- The update was made at or above the cell, but not above any parent that provides the symbol; and there is such a parent. -/
def Between (w : World S C) (ctxs : List (List (Int × List S))) (s : S) (u : Int) : Prop :=
  ∃ c, w.cellAt u = some c ∧ w.posOf c ≤ w.posOf w.cell ∧ (∃ p, Provides ctxs s p) ∧ ∀ p, Provides ctxs s p → p ≤ w.posOf c

/-! ## Proofs -/

/-- What a table says about the positions noted so far. -/
def Says (f : S → Option Int) (P : S → Int → Prop) : Prop :=
  ∀ s, (f s = none ↔ ∀ p, ¬ P s p) ∧ ∀ q, f s = some q → ∀ k, -1 ≤ k → (q ≤ k ↔ ∀ p, P s p → p ≤ k)

theorem noteSym_says {f : S → Option Int} {P : S → Int → Prop} (h : Says f P) (p : Int) (s : S) :
    Says (noteSym p f s) (fun q r => P q r ∨ (q = s ∧ r = p)) := by
  intro q
  unfold noteSym
  by_cases hq : q = s
  · subst hq
    rw [if_pos rfl]
    refine ⟨⟨fun h => by simp at h, fun h => absurd (.inr ⟨rfl, rfl⟩) (h p)⟩, ?_⟩
    intro m hm k hk
    rw [Option.some.injEq] at hm
    subst hm
    cases hf : f q with
    | none =>
      have h1 := (h q).1.1 hf
      simp only [Option.getD_none, max_le_iff, true_and]
      constructor
      · rintro ⟨_, h2⟩ r (hr | hr)
        · exact absurd hr (h1 r)
        · rw [hr]; exact h2
      · intro h2
        exact ⟨hk, h2 p (.inr rfl)⟩
    | some m =>
      have h1 := (h q).2 m hf k hk
      simp only [Option.getD_some, max_le_iff, true_and]
      rw [h1]
      constructor
      · rintro ⟨h2, h3⟩ r (hr | hr)
        · exact h2 r hr
        · rw [hr]; exact h3
      · intro h2
        exact ⟨fun r hr => h2 r (.inl hr), h2 p (.inr rfl)⟩
  · rw [if_neg hq]
    simp only [hq, false_and, or_false]
    exact h q

theorem says_congr {f : S → Option Int} {P Q : S → Int → Prop} (h : ∀ s p, P s p ↔ Q s p) (hf : Says f P) : Says f Q := by
  have : P = Q := by funext s p; exact propext (h s p)
  exact this ▸ hf

theorem noteSyms_says (p : Int) : ∀ (l : List S) {f : S → Option Int} {P : S → Int → Prop}, Says f P →
    Says (l.foldl (noteSym p) f) (fun q r => P q r ∨ (q ∈ l ∧ r = p)) := by
  intro l
  induction l with
  | nil => intro f P h; exact says_congr (by simp) h
  | cons a l ih =>
    intro f P h
    refine says_congr ?_ (ih (noteSym_says h p a))
    intro s r
    simp only [List.mem_cons, or_assoc, or_and_right]

theorem noteParents_says : ∀ (es : List (Int × List S)) {f : S → Option Int} {P : S → Int → Prop}, Says f P →
    Says (es.foldl noteParent f) (fun q r => P q r ∨ ∃ e ∈ es, e.1 = r ∧ q ∈ e.2) := by
  intro es
  induction es with
  | nil => intro f P h; exact says_congr (by simp) h
  | cons e es ih =>
    intro f P h
    refine says_congr ?_ (ih (noteSyms_says e.1 e.2 h))
    intro s r
    simp only [List.mem_cons, exists_eq_or_imp, or_assoc]
    constructor
    · rintro (h | ⟨h1, h2⟩ | h)
      · exact .inl h
      · exact .inr (.inl ⟨h2.symm, h1⟩)
      · exact .inr (.inr h)
    · rintro (h | ⟨h1, h2⟩ | h)
      · exact .inl h
      · exact .inr (.inl ⟨h2, h1.symm⟩)
      · exact .inr (.inr h)

theorem minAllowed_says (ctxs : List (List (Int × List S))) : Says (minAllowed ctxs) (Provides ctxs) := by
  have key : ∀ (ctxs : List (List (Int × List S))) {f : S → Option Int} {P : S → Int → Prop}, Says f P →
      Says (ctxs.foldl (fun f es => es.foldl noteParent f) f) (fun q r => P q r ∨ Provides ctxs q r) := by
    intro ctxs
    induction ctxs with
    | nil => intro f P h; exact says_congr (by simp [Provides]) h
    | cons es ctxs ih =>
      intro f P h
      refine says_congr ?_ (ih (noteParents_says es h))
      intro s r
      simp only [Provides, List.mem_cons, exists_eq_or_imp, or_assoc]
  refine says_congr ?_ (key ctxs (f := fun _ => none) (P := fun _ _ => False) ?_)
  · intro s p; simp
  · intro s; simp

/-- C93, hybrid schedule in order: the cell is ready exactly if the last update of something that it reads was made at or above it, but not above any cell that it got
the symbol from, after it was run. -/
theorem ready_hybrid_partial {w : World S C} {ctxs : List (List (Int × List S))} {rs : List (Read S)} {used : S → List Int} {minTs minNew : Int}
    (hu : Positive used) (hrec : OnRecord w rs) (hctr : -1 ≤ w.ctr) (hov : ∀ r ∈ rs, w.override r.sym = -1) (ha : w.anyOrder = false)
    (hpos : ∀ c, -1 ≤ w.posOf c) (hw : w.least = some (minAllowed ctxs)) :
    ∃ a b, ready w minTs minNew used rs [] = .ok (a, b) ∧
      (a = true ↔ ∃ r ∈ rs, r.blocking = false ∧ 0 < r.ctr ∧ max w.ctr minTs < r.ctr ∧ Between w ctxs r.sym r.ctr) := by
  obtain ⟨m, h1, h2⟩ := maxUsed_spec w .all hu hrec []
  refine ⟨_, _, by unfold ready; rw [h1], ?_⟩
  rw [decide_eq_true_eq]
  show max w.ctr minTs < m ↔ _
  rw [h2 _ (by omega)]
  have hp : ∀ c, position w c = w.posOf c := by intro c; unfold position; rw [ha]; rfl
  have hal : ∀ s c, allowed w s (w.posOf c) = true ↔ (∃ p, Provides ctxs s p) ∧ ∀ p, Provides ctxs s p → p ≤ w.posOf c := by
    intro s c
    have hs := minAllowed_says ctxs s
    unfold allowed
    rw [hw]
    simp only
    cases hm : minAllowed ctxs s with
    | none =>
      have h3 := hs.1.1 hm
      simp only [Bool.false_eq_true, false_iff]
      rintro ⟨⟨p, hp⟩, _⟩
      exact h3 p hp
    | some q =>
      simp only [decide_eq_true_eq]
      have h3 := hs.2 q hm (w.posOf c) (hpos c)
      constructor
      · intro h4
        refine ⟨?_, h3.1 h4⟩
        by_contra hne
        have h5 := hs.1.2 (fun p hp => hne ⟨p, hp⟩)
        rw [hm] at h5
        simp at h5
      · exact fun h4 => h3.2 h4.2
  constructor
  · rintro (⟨r, hr, ⟨g1, g2, c, g3, g4, g5⟩, hk⟩ | ⟨x, hx, _⟩)
    · rw [hp, hp] at g4
      rw [hp, hal] at g5
      refine ⟨r, hr, ((selected_iff .all r).1 g1).1, g2, ?_, c, g3, g4, g5⟩
      rcases hk with hk | hk
      · exact hk
      · rw [hov r hr] at hk; omega
    · simp at hx
  · rintro ⟨r, hr, g1, g2, hk, c, g3, g4, g5⟩
    refine .inl ⟨r, hr, ⟨(selected_iff .all r).2 ⟨g1, trivial⟩, g2, c, g3, ?_, ?_⟩, .inl hk⟩
    · rw [hp, hp]; exact g4
    · rw [hp, hal]; exact g5

/-- The cell above that gave `x` was run again: ready. -/
example : ready { exW false with least := some (minAllowed [[], [(0, [0, 7])]]) } (-1) 4 (fun _ => []) [exR 4] [] = .ok (true, true) := by decide

/-- The hybrid schedule leaves cells out that are outdated: the cell reads `x`, which was updated above it by a cell it did not get `x` from before, because it was run before `x` was
defined, say, or after it was edited. It is not ready by liveness. -/
example : Latest (fun _ => [4]) (exR 4) ∧ OnRecord (exW false) [exR 4] ∧
    Outdated (exW false) (fun _ => [4]) (fun _ => True) [exR 4] (max (exW false).ctr (-1)) ∧
    ready { exW false with least := some (minAllowed []) } (-1) 4 (fun _ => []) [exR 4] [] = .ok (false, false) := by
  refine ⟨⟨by decide, by decide⟩, ?_, ?_, by decide⟩
  · intro r hr _; rw [List.mem_singleton] at hr; subst hr; rfl
  · exact ⟨exR 4, by simp, rfl, trivial, 4, by decide, by decide, .inr ⟨0, rfl, by decide⟩⟩

end Verif.Ready
