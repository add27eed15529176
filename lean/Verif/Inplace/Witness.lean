import Verif.Inplace.Props

/-! Concrete notebooks. Variables: 0 is `x`, 1 is `y`, 2 is `z`, 3 is `w`. -/

namespace Verif.Inplace
open Verif

/-- `x = set()`, `x.add(3)`, `y = x`, `y.add(sum(x) + 1)`, `z = sum(x)`: a name is given after the first change. -/
def late : List Stmt := [.num 2 [.sum 0] 0, .change 1 true [.sum 0] 1, .same 1 0, .change 0 true [] 3, .fresh 0]

/-- `x = set()`, `y = x`, `x.add(3)`, `z = sum(y)`. -/
def lost : List Stmt := [.num 2 [.sum 1] 0, .change 0 true [] 3, .same 1 0, .fresh 0]

/-- `x = set()`, `w = 8`, `y = x`, `y.add(3)`, `z = sum(x) + sum(y)`: the change is made through the last name, and nothing is lost. -/
def chain : List Stmt := [.num 2 [.sum 0, .sum 1] 0, .change 1 true [] 3, .same 1 0, .num 3 [] 8, .fresh 0]

example : ((track late).map fun σ => (code σ 2, code σ 0, code σ 1)) = some (.ok [0, 1, 2, 3, 4], .ok [0, 1, 2, 3], .ok [0, 1, 2, 3]) := by decide

example : ((Spec.run late).map fun p => (Spec.view p 0, Spec.view p 1, Spec.view p 2)) =
    some (some (.set [3, 4]), some (.set [3, 4]), some (.num 7)) := by decide

/-- `late` gives a name only after a change. -/
theorem late_late : Spec.Late late := by
  refine ⟨⟨⟨⟨⟨trivial, ?_⟩, ?_⟩, ?_⟩, ?_⟩, ?_⟩
  · intro y x o e; cases e
  · intro y x o e; cases e
  · intro y x o e ho
    cases e
    exact .inr ⟨0, true, [], 3, rfl, ho⟩
  · intro y x o e; cases e
  · intro y x o e; cases e

example : ∃ σ C q, track late = some σ ∧ code σ 2 = .ok C ∧ runCode σ C Spec.empty = some q ∧ Spec.view q 2 = some (.num 7) := by
  obtain ⟨p, hp⟩ : ∃ p, Spec.run late = some p := Option.isSome_iff_exists.1 (by decide)
  refine code_makes_late hp late_late ?_
  have : (Spec.run late).map (fun p => Spec.view p 2) = some (some (.num 7)) := by decide
  rw [hp] at this
  exact Option.some.inj this

example : ((track chain).map fun σ => (code σ 2, code σ 1)) = some (.ok [0, 2, 3, 4], .ok [0, 2, 3]) := by decide

/-- Nothing is lost in `chain`: `x` was passed on to `y`, through which the change is made. -/
theorem chain_not_lost (n : Nat) : ¬ Spec.Lost n (chain.drop 2) := by
  rintro ⟨_, (⟨_, (⟨_, h | ⟨_, _, _, _, _, e, _⟩⟩ | ⟨_, _, _, _, _, e, _⟩)⟩ | ⟨_, _, _, _, _, e, _⟩)⟩
  · exact h
  · cases e
  · cases e
  · cases e

theorem chain_not_lost' (n : Nat) : ¬ Spec.Lost n (chain.drop 1) := by
  rintro ⟨_, h | ⟨x, put, ops, c, o, e, hx, hn, _, hf⟩⟩
  · exact chain_not_lost n h
  · cases e
    by_cases h1 : n = 1
    · subst h1; exact hf (.inl rfl)
    · by_cases h0 : n = 0
      · subst h0
        exact hf (.inr ⟨by decide, 0, rfl, .inl rfl⟩)
      · by_cases h3 : n = 3
        · subst h3; revert hn; simp [Spec.obj, Spec.run, exec, evalSum, upd, Spec.empty]
        · revert hn; simp [Spec.obj, Spec.run, exec, evalSum, upd, h0, h1, h3, Spec.empty]

theorem chain_fine : Spec.Fine chain := by
  refine ⟨⟨⟨⟨⟨trivial, ?_⟩, ?_⟩, ?_⟩, ?_⟩, ?_⟩
  · intro n h; cases h
  · intro n h; cases h
  · intro n h
    rintro ⟨_, (⟨_, h | ⟨_, _, _, _, _, e, _⟩⟩ | ⟨_, _, _, _, _, e, _⟩)⟩
    · exact h
    · cases e
    · cases e
  · intro n _; exact chain_not_lost n
  · intro n _; exact chain_not_lost' n

example : ∃ σ C q, track chain = some σ ∧ code σ 2 = .ok C ∧ runCode σ C Spec.empty = some q ∧ Spec.view q 2 = some (.num 6) := by
  obtain ⟨p, hp⟩ : ∃ p, Spec.run chain = some p := Option.isSome_iff_exists.1 (by decide)
  refine code_makes_partial hp chain_fine ?_ ?_
  · have : (Spec.run chain).map (fun p => Spec.view p 2) = some (some (.num 6)) := by decide
    rw [hp] at this
    exact Option.some.inj this
  · rintro ⟨h, _⟩; exact h rfl

/-- The notebook runs, and `z` is 3. -/
example : ((Spec.run lost).map fun p => Spec.view p 2) = some (some (.num 3)) := by decide

/-- `y = x` is statement 1. -/
example : ((track lost).map fun σ => (code σ 2, code σ 1)) = some (.ok [0, 2, 3], .ok [0, 2]) := by decide

example : ∃ σ C, track lost = some σ ∧ code σ 2 = .ok C ∧ runCode σ C Spec.empty = none := by
  obtain ⟨σ, hσ⟩ : ∃ σ, track lost = some σ := Option.isSome_iff_exists.1 (by decide)
  obtain ⟨C, h⟩ := alias_lost (h := []) (x := 0) (y := 1) (z := 2) hσ (by decide) (by decide)
  exact ⟨σ, C, hσ, h⟩

example : ∃ σ C q, track lost.tail = some σ ∧ code σ 1 = .ok C ∧ runCode σ C Spec.empty = some q ∧ q.env 1 = none := by
  obtain ⟨σ, hσ⟩ : ∃ σ, track lost.tail = some σ := Option.isSome_iff_exists.1 (by decide)
  have hC : code σ 1 = .ok [0, 2] := by
    have : (track lost.tail).map (fun σ => code σ 1) = some (.ok [0, 2]) := by decide
    rw [hσ] at this
    exact Option.some.inj this
  have hq : (runCode σ [0, 2] Spec.empty).isSome := by
    have : (track lost.tail).map (fun σ => (runCode σ [0, 2] Spec.empty).isSome) = some true := by decide
    rw [hσ] at this
    exact Option.some.inj this
  obtain ⟨q, hq⟩ := Option.isSome_iff_exists.1 hq
  exact ⟨σ, _, q, hσ, hC, hq, alias_undefined (l := []) (h := []) hσ (by decide) (by intro s hs; cases hs) hC hq⟩

example : ∃ σ C, track lost = some σ ∧ code σ 0 = .ok C ∧ 1 ∉ C := by
  obtain ⟨σ, hσ⟩ : ∃ σ, track lost = some σ := Option.isSome_iff_exists.1 (by decide)
  have hC : code σ 0 = .ok [0, 2] := by
    have : (track lost).map (fun σ => code σ 0) = some (.ok [0, 2]) := by decide
    rw [hσ] at this
    exact Option.some.inj this
  exact ⟨σ, _, hσ, hC, alias_never_in_code (l := [.num 2 [.sum 1] 0]) (h := []) hσ (by decide) hC⟩

/-- `x = set()`, `x.add(3)`, `y = x`: the code of `x` ends in `y = x`. -/
example : ∃ σ C, track (late.drop 2) = some σ ∧ code σ 0 = .ok C ∧ 2 ∈ C := by
  obtain ⟨σ, hσ⟩ : ∃ σ, track (late.drop 2) = some σ := Option.isSome_iff_exists.1 (by decide)
  obtain ⟨C, h⟩ := alias_kept (h := late.drop 3) (x := 0) (y := 1) (o := 0) (n := 0) hσ (by decide) (.inr ⟨0, true, [], 3, rfl, by decide⟩) (by decide)
  exact ⟨σ, C, hσ, h⟩

end Verif.Inplace
