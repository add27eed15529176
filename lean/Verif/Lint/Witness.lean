import Verif.Lint.Props

/-!
# Cases that meet the hypotheses, and violations -/

namespace Verif.Lint
open Verif

/-- Cell 2 sets variable 7; cell 1, which stands above, uses it at place 40 and then at place 41 of the next statement; cell 2 is run again, and uses what
cell 1 has set. -/
def sample : List Event :=
  [.order [1, 2, 3], .run 2 [⟨[(8, 50)], some 7⟩], .run 1 [⟨[(7, 40)], some 8⟩, ⟨[(7, 41), (8, 42)], none⟩], .run 2 [⟨[], some 7⟩], .order [1, 2]]

theorem sample_distinct : Distinct sample := by
  intro ids h
  simp [sample] at h
  rcases h with rfl | rfl <;> decide

theorem sample_placed : AllPlaced sample := by
  intro e he
  have h1 : ∀ e ∈ execs sample, e.id = 1 ∨ e.id = 2 := by
    intro e he
    simp only [execs, sample, replay, List.mem_cons, List.not_mem_nil, or_false] at he
    rcases he with rfl | rfl | rfl <;> simp
  rcases h1 e he with h | h <;> rw [h] <;> decide

theorem sample_once : ReadsOnce sample := by
  intro id code h
  simp [sample] at h
  rcases h with ⟨-, rfl⟩ | ⟨-, rfl⟩ | ⟨-, rfl⟩ <;> decide

/-- Cell 1 is listed with its two uses of variable 7, set in the first execution; its use of 8, and the use in cell 2, are not. -/
theorem sample_list : lint (run sample) = .ok [⟨1, 7, 40, 1⟩, ⟨1, 7, 41, 1⟩] := by decide

/-- The hypotheses of `lint_sound`, `lint_some` and `lint_partial` hold. -/
example : ∀ v, v ∈ [(⟨1, 7, 40, 1⟩ : Entry), ⟨1, 7, 41, 1⟩] ↔ Flagged sample v := lint_partial sample_distinct sample_placed sample_once sample_list

example : Flagged sample ⟨1, 7, 41, 1⟩ := lint_sound sample_distinct sample_placed sample_list (by decide)

example : ∃ p, ⟨1, 7, p, 1⟩ ∈ [(⟨1, 7, 40, 1⟩ : Entry), ⟨1, 7, 41, 1⟩] :=
  lint_some sample_distinct sample_placed sample_list (lint_sound sample_distinct sample_placed sample_list (v := ⟨1, 7, 41, 1⟩) (by decide))

example : ∃ l, lint (run sample) = .ok l := lint_total sample

/-- Cell 2 has set variable 7, and stands below cell 1. -/
def above : List Event := [.run 2 [⟨[], some 7⟩], .order [1, 2]]

/-- A statement of cell 1 uses variable 7 at places 40 and 41: `x + x`. -/
theorem twice_list : lint (run (.run 1 [⟨[(7, 40), (7, 41)], none⟩] :: above)) = .ok [⟨1, 7, 41, 1⟩] := by decide

example : (41 : Nat) = 41 := second_lost (h := above) (s := 1) none twice_list (by decide)

/-- The use at place 40 is one that should be listed. -/
example : Flagged (.run 1 [⟨[(7, 40), (7, 41)], none⟩] :: above) ⟨1, 7, 40, 1⟩ := by
  refine ⟨_, ⟨List.mem_cons_self, ?_⟩, rfl, ⟨0, by decide⟩, _, List.mem_cons_of_mem _ List.mem_cons_self, rfl, [], [], [], rfl⟩
  intro e' he' _
  simp only [execs, above, replay, List.mem_cons, List.not_mem_nil, or_false] at he'
  rcases he' with rfl | rfl <;> simp [above, replay]

/-- Cell 1, in the order of the notebook or in any order, sets variable 7, and cell 2 below uses it. -/
def chain (b : Bool) : List Event := [.run 2 [⟨[(7, 40)], none⟩], .run 1 [⟨[], some 7⟩], .order [1, 2], .direction b]

theorem chain_used (b : Bool) : UsedOf (chain b) 2 7 1 1 := by
  refine ⟨_, ⟨List.mem_cons_self, ?_⟩, rfl, ⟨0, 40, by cases b <;> decide⟩, _, List.mem_cons_of_mem _ List.mem_cons_self, rfl, rfl⟩
  intro e' he' _
  simp only [execs, chain, replay, List.mem_cons, List.not_mem_nil, or_false] at he'
  rcases he' with rfl | rfl <;> simp [replay]

/-- Cell 1 is removed from a notebook that is run in order: the use in cell 2 is listed. -/
example : lint (run (chain true)) = .ok [] ∧ lint (run (.order [2] :: chain true)) = .ok [⟨2, 7, 40, 1⟩] := by decide

example : ∃ p, ⟨2, 7, p, 1⟩ ∈ [(⟨2, 7, 40, 1⟩ : Entry)] :=
  removed_listed (h := chain true) (ids := [2]) (d := 1) rfl (by decide) (by decide) (by decide) (chain_used true) (by decide)

/-- In any order it is not. -/
example : lint (run (.order [2] :: chain false)) = .ok [] := by decide

/-- A cell that has been removed has used a value that a cell still there has set: it is listed, whatever the order was. -/
example : ∃ p, ⟨2, 7, p, 1⟩ ∈ [(⟨2, 7, 40, 1⟩ : Entry)] :=
  gone_listed (h := chain false) (ids := [1]) (d := 1) (by simp [chain, InOrder]) (by decide) (by decide) (chain_used false) (by decide)

/-- Cell 3 stands below cell 2 and has set variable 9; cell 1, which set variable 7, has been removed: only the use of 9 is listed. -/
def removed : List Event :=
  [.run 2 [⟨[(7, 40), (9, 41)], none⟩], .run 3 [⟨[], some 9⟩], .run 1 [⟨[], some 7⟩], .order [1, 2, 3]]

theorem removed_list : lint (run (.order [2, 3] :: removed)) = .ok [⟨2, 9, 41, 2⟩] := by decide

example : (⟨2, 9, 41, 2⟩ : Entry).setter ≠ 1 :=
  removed_silent (h := removed) (ids := [2, 3]) (d := ⟨1, 1, []⟩) (by simp [removed, InOrder])
    (List.mem_cons_of_mem _ (List.mem_cons_of_mem _ List.mem_cons_self)) (by decide) removed_list (by decide)

end Verif.Lint
