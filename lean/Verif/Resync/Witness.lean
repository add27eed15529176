import Verif.Resync.Props

/-!
# Concrete cases
-/

namespace Verif.Resync
open Verif

/-- `for v in [a, b]: x = v; lst.append(x)`, of which the first iteration was seen.  Symbol 0 is
`x`, 1 is `lst`, 2 is `lst[0]`.  Object 10 is `a`, 11 is `b`, 20 is the list. -/
def looped : St where
  sym k := if k = 0 then ⟨0, true, 10, some 10, false, none, 0, 5⟩
    else if k = 1 then ⟨1, true, 20, some 20, false, none, 0, 5⟩
    else ⟨9, false, 10, some 10, false, some 20, 0, 5⟩
  names o := if o = 10 then [0, 2] else if o = 20 then [1] else []
  sub h k := if h = 20 ∧ k = 0 then some 2 else none

/-- The program after the loop. -/
def after : World where
  var n := if n = 0 then some 11 else if n = 1 then some 20 else none
  elems o := if o = 20 then some [10, 11] else none
  grown o := o == 20

/-- The known symbols. -/
def three (s : Nat) : Prop := s < 3

theorem looped_wf : Wf looped three := by
  constructor
  · intro s h; simp only [looped] at h ⊢; split
    · rfl
    · split
      · rfl
      · simp_all
  · intro s _; simp only [looped]; split
    · rfl
    · split <;> rfl

theorem looped_listed : Listed looped three := by
  intro s o
  simp only [looped, three]
  by_cases h0 : s = 0
  · subst h0
    by_cases h1 : o = 10
    · subst h1; simp
    · by_cases h2 : o = 20
      · subst h2; simp
      · simp [h1, h2, Ne.symm h1]
  · by_cases h1 : s = 1
    · subst h1
      by_cases h2 : o = 10
      · subst h2; simp
      · by_cases h3 : o = 20
        · subst h3; simp
        · simp [h2, h3, Ne.symm h3]
    · by_cases h2 : o = 10
      · subst h2; simp [h0, h1]; omega
      · by_cases h3 : o = 20
        · subst h3; simp [h0, h1]
        · simp [h0, h1, h2, h3, Ne.symm h2]

theorem looped_placed : Placed looped := by
  intro h k s hs
  simp only [looped] at hs
  split at hs
  · rename_i hk; cases hs; simp [looped, hk]
  · cases hs

theorem looped_ok : ∃ st', afterRun after 5 [0, 1, 2] looped = .ok st' :=
  succeeds_partial after 5 [0, 1, 2] looped three looped_wf looped_listed
    (by intro s hs; simp at hs; simp [three]; omega) (by
      intro a h _ _ he
      simp only [after] at he
      split at he <;> simp at he)

example : ∃ st', afterRun after 5 [0, 1, 2] looped = .ok st' ∧ (st'.sym 0).obj = 11 ∧
    Listed st' three ∧ Placed st' := by
  obtain ⟨st', h⟩ := looped_ok
  exact ⟨st', h,
    synced after 5 _ looped st' three looped_wf h 0 11 (by simp) rfl rfl rfl,
    listed after 5 _ looped st' three looped_wf looped_listed
      (by intro s hs; simp at hs; simp [three]; omega) h,
    (elements_right after 5 _ looped st' three looped_wf looped_placed h).1⟩

/-- The symbol that stood for `lst[0]` now stands for `lst[1]`, and nothing is known about
`lst[0]` any more, which is what it was. -/
theorem element_lost : ∃ st', afterRun after 5 [0, 1, 2] looped = .ok st' ∧
    looped.sub 20 0 = some 2 ∧ Right after looped 20 0 2 ∧
    st'.sub 20 0 = none ∧ st'.sub 20 1 = some 2 ∧ (st'.sym 2).obj = 11 :=
  ⟨_, rfl, rfl, ⟨[10, 11], rfl, rfl⟩, rfl, rfl, rfl⟩

/-- The same program, but at the end the list is cleared. -/
def cleared : World := { after with elems := fun o => if o = 20 then some [] else none }

/-- What follows the run of the cell fails. -/
theorem empty_fails : afterRun cleared 5 [0, 1, 2] looped = .error .crash := rfl

/-- In a later cell `x` is assigned by code that is not seen. -/
example : ∃ st', afterRun after 6 [0, 1, 2] looped = .ok st' ∧ (st'.sym 0).obj = 10 ∧
    after.var 0 = some 11 := by
  refine ⟨looped, rfl, ?_, rfl⟩
  rw [others_kept after 6 [0, 1, 2] looped looped three looped_wf rfl 0 rfl (by decide)]
  rfl

end Verif.Resync
