import Verif.Hover.Props

/-!
# Cases that meet the hypotheses, and violations -/

namespace Verif.Hover

/-- Cell 3 waits for cells 1 and 2; cell 2 waits as well, and cell 1 would make it ready. -/
def sample : Data :=
  ⟨fun i => i = 2 || i = 3, fun _ => false, fun i => if i = 3 then some [1, 2] else none, fun i => if i = 2 then some [1] else none, false, true⟩

/-- Three cells that are rendered before the schedule arrives. -/
def sampleHistory : List Event :=
  [.schedule sample true, .render 3, .render 2, .render 1, .insert 3 true, .insert 2 true, .insert 1 true]

example : Undisturbed sampleHistory ∧ (run sampleHistory).pointer = none := ⟨Or.inl rfl, by decide⟩

example : upToRefresh sampleHistory = sampleHistory := rfl

theorem sample_there (i : Nat) (h : i = 1 ∨ i = 2 ∨ i = 3) : ThereSince (run sampleHistory) (run sampleHistory) i := by
  rcases h with rfl | rfl | rfl
  · exact ⟨⟨1, 0, true⟩, by decide, by decide, rfl, rfl, by decide⟩
  · exact ⟨⟨2, 1, true⟩, by decide, by decide, rfl, rfl, by decide⟩
  · exact ⟨⟨3, 2, true⟩, by decide, by decide, rfl, rfl, by decide⟩

theorem sample_links {i j : Nat} (h : Linked sample i j) : j = 1 ∨ j = 2 ∨ j = 3 := by
  rcases h with ⟨ls, h1, h2⟩ | ⟨ls, h1, h2⟩
  · simp only [sample] at h1
    split at h1
    · cases h1; simp at h2; omega
    · simp at h1
  · simp only [sample] at h1
    split at h1
    · cases h1; simp at h2; omega
    · simp at h1

/-- The hypotheses of `pointed_partial` hold of cell 3, and it lights cell 1 and cell 2 in different colours. -/
example : (∀ p j q c, Lights (run (.over 3 p :: sampleHistory)) j q c ↔ Shows sample 3 p j q c) ∧
    Lights (run (.over 3 .output :: sampleHistory)) 1 .input .readyMaker ∧ Lights (run (.over 3 .output :: sampleHistory)) 2 .input .waiting ∧
    ¬ Lights (run (.over 3 .output :: sampleHistory)) 2 .output .waiting :=
  ⟨fun p j q c => pointed_partial (h := sampleHistory) (Or.inl rfl) (by decide) rfl (sample_there 3 (by decide))
      (fun j hj => sample_there j (sample_links hj)) p j q c,
    by unfold Lights; decide, by unfold Lights; decide, by unfold Lights; decide⟩

/-- The hypotheses of `pointed_sound` and of `leaving_darkens`: while the pointer is on a bar a cell is removed and another one rendered. -/
example : Undisturbed (.delete 1 :: .render 4 :: .insert 4 true :: .over 3 .input :: sampleHistory) ∧
    Lights (run (.delete 1 :: .render 4 :: .insert 4 true :: .over 3 .input :: sampleHistory)) 2 .input .waiting ∧
    ¬ Lights (run (.out :: .delete 1 :: .render 4 :: .insert 4 true :: .over 3 .input :: sampleHistory)) 2 .input .waiting := by
  have hu : Undisturbed (.delete 1 :: .render 4 :: .insert 4 true :: .over 3 .input :: sampleHistory) := by
    refine ⟨?_, Or.inl rfl⟩
    rintro ⟨v, hv, h1, p, h2⟩
    have hw : (run (.render 4 :: .insert 4 true :: .over 3 .input :: sampleHistory)).widgets =
      [⟨1, 0, true⟩, ⟨2, 1, true⟩, ⟨3, 2, true⟩, ⟨4, 3, true⟩] := by decide
    have hp : (run (.render 4 :: .insert 4 true :: .over 3 .input :: sampleHistory)).pointer = some (2, .input) := by decide
    rw [hw] at hv
    rw [hp] at h2
    have h3 : (2 : Nat) = v.node := (Prod.mk.inj (Option.some.inj h2)).1
    simp at hv
    rcases hv with rfl | rfl | rfl | rfl
    · simp at h3
    · simp at h1
    · simp at h1
    · simp at h1
  exact ⟨hu, by unfold Lights; decide, leaving_darkens hu 2 .input .waiting⟩

/-- C152 is violated: cell 3 is removed from under the pointer, and cells 1 and 2 stay lit. -/
example : ∃ h : List Event, (run h).pointer = none ∧ Lights (run h) 1 .input .readyMaker ∧ Lights (run h) 2 .input .waiting := by
  refine ⟨.delete 3 :: .over 3 .input :: sampleHistory, by decide, ?_, ?_⟩
  · unfold Lights; decide
  · unfold Lights; decide

/-- The hypotheses of `deleted_leaves` and `refresh_goes_dark`. -/
example : PointsAt (run (.over 3 .input :: sampleHistory)) 3 ∧ Lights (run (.over 3 .input :: sampleHistory)) 2 .input .waiting :=
  ⟨⟨⟨3, 2, true⟩, by decide, rfl, .input, by decide⟩, by unfold Lights; decide⟩

/-- C151 is violated: cell 4, rendered after the schedule has been shown, lights nothing though the schedule links it with cell 1. -/
def late : Data := { sample with waiters := fun i => if i = 4 then some [1] else none }

example : Shows late 4 .input 1 .input .readyMaker ∧
    ∀ p j q c, ¬ Lights (run (.over 4 p :: .render 4 :: .schedule late true :: .insert 4 true :: sampleHistory)) j q c := by
  refine ⟨Shows.waiter _ _ _ _ [1] rfl rfl rfl (by decide) (Or.inr ⟨rfl, rfl⟩), fun p j q c => ?_⟩
  refine late_cell_silent (h := .render 4 :: .schedule late true :: .insert 4 true :: sampleHistory) (Or.inl rfl) (by decide) ?_ p j q c
  intro v hv h1
  have hw : (run (upToRefresh (.render 4 :: .schedule late true :: .insert 4 true :: sampleHistory))).widgets =
    [⟨1, 0, true⟩, ⟨2, 1, true⟩, ⟨3, 2, true⟩, ⟨4, 3, true⟩] := by decide
  rw [hw] at hv
  simp at hv
  rcases hv with rfl | rfl | rfl | rfl
  · simp at h1
  · simp at h1
  · simp at h1
  · intro p; cases p <;> decide

/-- C151 is violated: cell 1 has been removed, so that pointing at cell 3 does not light cell 2 either, for which it waits as well. -/
example : Shows sample 3 .input 2 .input .waiting ∧
    ∀ j c, j ≠ 3 → ¬ Lights (run (.over 3 .input :: .select :: .delete 1 :: sampleHistory)) j .input c := by
  refine ⟨Shows.waiter _ _ _ _ [1, 2] rfl rfl rfl (by decide) (Or.inl ⟨rfl, rfl⟩), fun j c hj => ?_⟩
  refine stops_at_missing (h := .select :: .delete 1 :: sampleHistory) True.intro (by decide) (l := 1) (ls := [2]) rfl ?_ rfl j c hj
  intro v hv
  have hw : (run (upToRefresh (.select :: .delete 1 :: sampleHistory))).widgets = [⟨2, 1, true⟩, ⟨3, 2, true⟩] := by decide
  rw [hw] at hv
  simp at hv
  rcases hv with rfl | rfl <;> simp

/-- C151 is violated: a schedule that is not followed by a refresh. Nothing waits any more, and still cell 2 is lit as waiting. -/
example : (∀ i p j q c, ¬ Shows Data.init i p j q c) ∧ Lights (run (.over 3 .input :: .schedule .init false :: sampleHistory)) 2 .input .waiting := by
  refine ⟨?_, by unfold Lights; decide⟩
  intro i p j q c h
  cases h with
  | output _ h => rcases h with h | h <;> simp [Data.init] at h
  | waits _ h => simp [Data.init] at h
  | ready _ _ h => simp [Data.init] at h
  | waiter _ _ h => simp [Data.init] at *
  | maker _ _ h => simp [Data.init] at *

end Verif.Hover
