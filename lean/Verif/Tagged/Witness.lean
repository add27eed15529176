import Verif.Tagged.Props

/-!
# Sessions in which the hypotheses hold
-/

namespace Verif.Tagged

/-- Cell 1 is tagged 7 in the notebook, cell 2 shows the slice of 7, cell 3 that of 8, cell 4 is
tagged 8 with a command; then cell 1 loses the tag by a command and is run again. -/
def demo : List Ev :=
  [.run 1 [], .untag none 7, .run 1 [7], .tag none 8, .run 4 [], .slice none 8 true, .run 3 [],
    .slice none 7 true, .run 2 [], .run 1 [7]]

/-- Cells 2 and 3 are listed as they should be: cell 2 after the runs of 1 with the tag, cell 3 after
those of 4. -/
example : ask (state demo) (some 1) = .said [] ∧ ask (state demo) (some 4) = .said [3] ∧
    ask (state (demo.drop 2)) (some 1) = .said [2, 2] ∧ ask (state demo) (some 9) = .raised ∧
    ask (state (.mention 9 :: demo)) (some 9) = .said [] := by decide

/-- The hypotheses of `listed_partial`. -/
example : seen demo 1 = some true ∧ Faithful demo 1 := by
  refine ⟨by decide, fun t ht => ?_⟩
  simp [demo, Had, About, latest, count] at ht
  exact absurd ht.1.symm ht.2

example : seen demo 4 = some true ∧ Faithful demo 4 ∧ Carries demo 4 8 ∧ Shows demo 3 8 := by
  refine ⟨by decide, fun t ht => ?_, ?_, ?_⟩
  · simp [demo, Had] at ht
  · right; simp [demo, PutOn, About, latest, count]
  · simp [demo, Shows, About, latest, count]

/-- Cell 1 with a tag in the notebook, for which `Faithful` holds since it still has it. -/
example : Faithful (demo.drop 2) 1 ∧ Carries (demo.drop 2) 1 7 ∧ Shows (demo.drop 2) 2 7 := by
  refine ⟨fun t ht => ?_, ?_, ?_⟩
  · left
    simp [demo, Had] at ht
    simp [demo, InBook, ht]
  · left; simp [demo, InBook]
  · simp [demo, Shows, About, latest, count]

/-- The hypotheses of `taken_away_wrong`. -/
example : InBook (demo.drop 2) 1 7 ∧ ¬ PutOn (demo.drop 2) 1 7 ∧ Shows (demo.drop 2) 2 7 ∧
    ask (state (.run 1 [] :: demo.drop 2)) (some 1) = .said [2, 2] := by
  refine ⟨?_, ?_, ?_, by decide⟩
  · simp [demo, InBook]
  · simp [demo, PutOn, About, latest, count]
  · simp [demo, Shows, About, latest, count]

/-- The hypotheses of `old_number_ignored`: number 1 was the first run of cell 1. -/
example : (∀ d, latest demo d ≠ some 1) ∧ seen demo 1 = some true ∧
    ask (state (.tag (some 1) 7 :: demo)) (some 1) = .said [] ∧
    ask (state (.tag (some 6) 7 :: demo)) (some 1) = .said [2] := by
  refine ⟨fun d => ?_, by decide, by decide, by decide⟩
  simp only [demo, latest, count]
  repeat' split
  all_goals simp

/-- The hypotheses of `renamed_fails`; the mark is taken over by the new id. -/
example : Renames [.slice none 7 true, .run 100 [7]] 100 1 ∧
    lastRun [.slice none 7 true, .run 100 [7]] = some 100 ∧
    ask (state [.rename 100 1, .slice none 7 true, .run 100 [7]]) none = .raised ∧
    ask (state [.rename 100 1, .slice none 7 true, .run 100 [7]]) (some 1) = .said [1] := by decide

end Verif.Tagged
