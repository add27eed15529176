import Verif.Watch.Props

/-! Examples and counterexamples. -/

namespace Verif.Watch.Witness
open Verif.Watch Spec

/-- `x > 2` -/
def big : Pred := some (fun v => some (decide (2 < v)))
/-- `10 / x > 2`, say: raises for 0. -/
def frac : Pred := some (fun v => if v = 0 then none else some (decide (2 < 10 / v)))

/-- `x = 0`; `watchpoints(x).add(x > 2)`; then a cell `x = 1`, `y = 7`, `x = 5`. -/
def plain : List (List Ev) :=
  [[⟨0, .assign [(0, 0)], true⟩], [⟨0, .watch 0 big, true⟩], [⟨0, .assign [(0, 1)], true⟩, ⟨1, .assign [(1, 7)], true⟩, ⟨2, .assign [(0, 5)], true⟩]]

/-- The hypotheses of `stops_exact` and `stops_partial` are met and the program stops after `x = 5`. -/
example : Safe plain ∧ Once plain ∧ (∀ l x, x ∈ (id : List Nat → List Nat) l ↔ x ∈ l) ∧ (run id plain).hits = [4] := by
  refine ⟨?_, ?_, fun _ _ => Iff.rfl, by decide⟩
  · intro e he x f hf v
    simp [plain, flat] at he
    rcases he with rfl | rfl | rfl | rfl | rfl <;> simp [big] at hf
    rw [← hf.2]; simp
  · intro c hc
    simp [plain] at hc
    rcases hc with rfl | rfl | rfl <;> decide

/-- The same with a loop `for x in (1, 5)`-like cell: statement 1 is executed twice. -/
def loop : List (List Ev) :=
  [[⟨0, .assign [(0, 0)], true⟩], [⟨0, .watch 0 big, true⟩], [⟨1, .assign [(0, 1)], true⟩, ⟨1, .assign [(0, 5)], false⟩]]

/-- In a loop the program does not stop where it should. -/
theorem loop_missed : Safe loop ∧ ShouldStop loop 3 ∧ (run id loop).hits = [] := by
  refine ⟨?_, ?_, by decide⟩
  · intro e he x f hf v
    simp [loop, flat] at he
    rcases he with rfl | rfl | rfl | rfl <;> simp [big] at hf
    rw [← hf.2]; simp
  · refine ⟨[(0, ⟨0, .assign [(0, 0)], true⟩), (1, ⟨0, .watch 0 big, true⟩), (2, ⟨1, .assign [(0, 1)], true⟩)], (2, ⟨1, .assign [(0, 5)], false⟩), [], rfl, rfl, ?_⟩
    exact ⟨0, 5, by decide, .inr ⟨_, List.mem_singleton.mpr rfl, by decide⟩⟩

/-- The same when a function that does `x = 1` and `x = 5` is called a second time with tracing on. -/
theorem second_call_missed : (run id [[⟨0, .assign [(0, 0)], true⟩], [⟨0, .watch 0 big, true⟩], [⟨1, .assign [(0, 1)], true⟩, ⟨1, .assign [(0, 5)], true⟩]]).hits = [] := by
  decide

/-- `x` has a predicate that raises for 0 and `y` a watchpoint that always passes; one cell `x = 0`, `y = 1`, `z = 2`, `x = 9`. -/
def raising : List (List Ev) :=
  [[⟨0, .watch 0 frac, true⟩, ⟨1, .watch 1 none, true⟩],
   [⟨0, .assign [(0, 0)], true⟩, ⟨1, .assign [(1, 1)], true⟩, ⟨2, .assign [(2, 2)], true⟩, ⟨3, .assign [(0, 9)], true⟩]]

/-- It should stop after `y = 1` and nowhere else; it stops after `x = 9`, for which no watchpoint passes. -/
theorem raising_late : ShouldStop raising 3 ∧ ¬ ShouldStop raising 5 ∧ (run id raising).hits = [5] := by
  refine ⟨?_, ?_, by decide⟩
  · exact ⟨[(0, ⟨0, .watch 0 frac, true⟩), (0, ⟨1, .watch 1 none, true⟩), (1, ⟨0, .assign [(0, 0)], true⟩)], (1, ⟨1, .assign [(1, 1)], true⟩), _, rfl, rfl,
      1, 1, by decide, .inl (List.mem_singleton.mpr rfl)⟩
  · rintro ⟨p, e, q, h1, h2, h3⟩
    have : flat 0 raising = [(0, ⟨0, .watch 0 frac, true⟩), (0, ⟨1, .watch 1 none, true⟩), (1, ⟨0, .assign [(0, 0)], true⟩),
      (1, ⟨1, .assign [(1, 1)], true⟩), (1, ⟨2, .assign [(2, 2)], true⟩)] ++ (1, ⟨3, .assign [(0, 9)], true⟩) :: [] := rfl
    rw [this] at h1
    obtain ⟨rfl, h4⟩ := List.append_inj h1 (by rw [h2]; rfl)
    injection h4 with h4 _
    subst h4
    obtain ⟨x, v, h5, h6⟩ := h3
    by_cases hx : x = 0
    · subst hx
      have : v = 9 := by
        have h : some (9 : Int) = some v := h5
        injection h with h
        exact h.symm
      subst this
      rcases h6 with h6 | ⟨f, h6, h7⟩
      · have h6 : none ∈ [frac] := h6
        simp [frac] at h6
      · have h6 : some f ∈ [frac] := h6
        simp [frac] at h6
        subst h6
        exact absurd h7 (by decide)
    · have h : final [(0, (9 : Int))] x = some v := h5
      have hx' : ¬ 0 = x := fun h => hx h.symm
      simp [final, hx'] at h

/-- The hypotheses of `raise_disables` are met with the statement `x = 0` of that cell (what follows up to `x = 9`): nothing stops. -/
example : ∃ (f : Int → Option Bool), f 0 = none ∧
    some f ∈ watched (fun _ => []) (flat 0 ([[⟨0, .watch 0 frac, true⟩, ⟨1, .watch 1 none, true⟩]] ++ [[]])) 0 ∧
    final [(0, (0 : Int))] 0 = some 0 ∧
    (run id ([[⟨0, .watch 0 frac, true⟩, ⟨1, .watch 1 none, true⟩]] ++
      [[] ++ ⟨0, .assign [(0, 0)], true⟩ :: [⟨1, .assign [(1, 1)], true⟩, ⟨2, .assign [(2, 2)], true⟩]])).hits = [] :=
  ⟨fun v => if v = 0 then none else some (decide (2 < 10 / v)), rfl, List.mem_singleton.mpr rfl, by decide, by decide⟩

/-- Without the predicate of `x` the program stops after `y = 1`. -/
example : (run id [[⟨0, .watch 1 none, true⟩], [⟨0, .assign [(0, 0)], true⟩, ⟨1, .assign [(1, 1)], true⟩, ⟨2, .assign [(2, 2)], true⟩]]).hits = [2] := by decide

end Verif.Watch.Witness
