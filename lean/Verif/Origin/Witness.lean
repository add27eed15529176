import Verif.Origin.Props

namespace Verif.Origin.Witness
open Verif.Origin Spec

/-- Text 7 is `x = 1`, an empty line, `def f`; text 8 defines `g` in its first line; all others have one statement. -/
def code : Nat → List (Option Stmt)
  | 7 => [some (.other 1), none, some (.fn 5)]
  | 8 => [some (.fn 6)]
  | _ => [some (.other 0)]

/-- A cell with text 7, one with text 8, one that calls. -/
def usual : List Run := [⟨2, 3, none⟩, ⟨1, 8, none⟩, ⟨0, 7, none⟩]

/-- After it the first two are run again and skipped. -/
def again : List Run := ⟨2, 3, none⟩ :: ⟨1, 8, some (.shows 2)⟩ :: ⟨0, 7, some .quiet⟩ :: usual

theorem last7 : Last again 7 4 := by
  refine ⟨⟨_, rfl, rfl⟩, ?_⟩
  intro m r hm ht
  simp only [again, usual, ran, List.length_cons, List.length_nil] at hm
  by_cases h6 : m = 6
  · subst h6; simp at hm; subst hm; simp at ht
  by_cases h5 : m = 5
  · subst h5; simp at hm; subst hm; simp at ht
  have := (ran_le (h := [⟨0, 7, some .quiet⟩, ⟨2, 3, none⟩, ⟨1, 8, none⟩, ⟨0, 7, none⟩]) (n := m) (r := r) (by
    simpa [ran, h6, h5] using hm)).1
  simpa using this

theorem usual7 : Last usual 7 1 := by
  refine ⟨⟨_, rfl, rfl⟩, ?_⟩
  intro m r hm ht
  simp only [usual, ran, List.length_cons, List.length_nil] at hm
  by_cases h3 : m = 3
  · subst h3; simp at hm; subst hm; simp at ht
  by_cases h2 : m = 2
  · subst h2; simp at hm; subst hm; simp at ht
  by_cases h1 : m = 1
  · omega
  · simp [h3, h2, h1] at hm

example : Defines code usual 1 2 5 ∧ Defines code again 1 2 5 ∧ Defines code again 2 0 6 := ⟨⟨_, rfl, rfl, rfl⟩, ⟨_, rfl, rfl, rfl⟩, ⟨_, rfl, rfl, rfl⟩⟩

/-- `texts_partial` is met before anything is skipped. -/
example : seenAs (after .byText code usual) (.text 7) 2 = some (.fn 5) :=
  (texts_partial code usual 1 1 2 5 _ _ ⟨_, rfl, rfl, rfl⟩ rfl usual7 rfl rfl).2

/-- With the numbers in the names both functions are found after it, too. -/
example : seenAs (after .byNumber code again) (.num 1) 2 = some (.fn 5) ∧ seenAs (after .byNumber code again) (.num 2) 0 = some (.fn 6) :=
  ⟨(numbered code again 1 2 5 ⟨_, rfl, rfl, rfl⟩).2, (numbered code again 2 0 6 ⟨_, rfl, rfl, rfl⟩).2⟩

/-- Without them `f` is not found, and `g` is taken to be `Out.get(2)`. -/
example : seenAs (after .byText code again) (.text 7) 2 = none ∧ seenAs (after .byText code again) (.text 8) 0 = some (.out 2) :=
  ⟨skipped_lost code again 4 2 7 _ .quiet last7 rfl rfl, rfl⟩

/-- Another cell with the text of the first is run: the position moves to it, the statement is still the definition. -/
example : position (after .byText code (⟨9, 7, none⟩ :: usual)) (.text 7) = 4 ∧ seenAs (after .byText code (⟨9, 7, none⟩ :: usual)) (.text 7) 2 = some (.fn 5) := ⟨rfl, rfl⟩

/-- **C190** (violated): that a function is always seen as its definition when it is called is false where the names have only the texts. -/
theorem origin_claim_false : ¬ ∀ (code : Nat → List (Option Stmt)) (h : List Run) (n line f : Nat) (r : Run), Defines code h n line f → ran h n = some r →
    seenAs (after .byText code h) (.text r.text) line = some (.fn f) := by
  intro q
  have h1 := q code again 1 2 5 _ ⟨_, rfl, rfl, rfl⟩ rfl
  have h2 := skipped_lost code again 4 2 7 _ .quiet last7 rfl rfl
  rw [h1] at h2
  cases h2

end Verif.Origin.Witness
