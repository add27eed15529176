import Verif.Waiters.Props

/-!
# The command that lists waiting variables: cases -/

namespace Verif.Waiters.Witness
open Verif Verif.Waiters

/-- Variables 0, 1, 2 of a notebook, of which 0 and 2 wait; 3 is an element of 0, 4 an element of something without a name, both wait; 3 is known under two objects. -/
def w : World Nat := ⟨[0, 1, 2], [[0, 3], [1], [2, 4], [3]], fun s => .ok (s != 1), fun _ => false, fun s => if s = 3 then [false] else if s = 4 then [false, true] else []⟩

/-- The meaning of waiting there. -/
def waits (s : Nat) : Prop := s ≠ 1

theorem w_judged (s : Nat) : ∃ b, w.judge s = .ok b ∧ (b = true ↔ waits s) := ⟨s != 1, rfl, by simp [waits]⟩

/-- A word with others after it. -/
theorem begins_space (word rest : List Char) (h : word ≠ []) (hw : ∀ c ∈ word, isSpace c = false) : Begins word (word ++ ' ' :: rest) :=
  ⟨h, hw, [], ' ' :: rest, by simp, fun _ h => (by cases h), Or.inr ⟨' ', rest, rfl, rfl⟩⟩

example : (∀ x ∈ "  ".toList, isSpace x = true) ∧ (∀ s ∈ w.globals, ∃ b, w.judge s = .ok b ∧ (b = true ↔ waits s)) := ⟨by decide, fun s _ => w_judged s⟩

example : showWaiting w "  ".toList = .ok (.waiting [0, 2]) := by decide

example : Begins "all".toList "all of them".toList ∧ (∀ l ∈ w.aliases, ∀ s ∈ l, ∃ b, w.judge s = .ok b ∧ (b = true ↔ waits s)) :=
  ⟨begins_space "all".toList "of them".toList (by decide) (by decide), fun _ _ s _ => w_judged s⟩

example : showWaiting w "all of them".toList = .ok (.waiting [0, 3, 2]) := by decide

example : Begins "local".toList "local x".toList ∧ "local".toList ≠ "global".toList ∧ "local".toList ≠ "all".toList :=
  ⟨begins_space "local".toList "x".toList (by decide) (by decide), by decide, by decide⟩

/-- The variable 1, of no name, cannot be judged. -/
def bad : World Nat := ⟨[0, 1], [], fun s => if s = 1 then .error .crash else .ok true, fun s => s = 1, fun _ => []⟩

example : (1 : Nat) ∈ bad.globals ∧ bad.judge 1 = .error .crash ∧ ¬HasName bad 1 := ⟨by decide, rfl, fun h => absurd h.1 (by decide)⟩

/-- The whole claim fails: words after the first are not refused. -/
theorem show_claim_false : ¬ShowClaim := by
  intro h
  have h1 := (h Nat inferInstance w waits (fun s b hb => by
    obtain ⟨b', h1, h2⟩ := w_judged s
    rw [hb] at h1
    injection h1 with h1
    rw [h1]; exact h2)).2.2 "all".toList "of them".toList 'o' ⟨by decide, by decide, [], [], by simp, fun _ h => (by cases h), Or.inl rfl⟩ (by decide) (by decide)
  rw [show showWaiting w ("all".toList ++ ' ' :: "of them".toList) = .ok (.waiting [0, 3, 2]) from by decide] at h1
  cases h1

end Verif.Waiters.Witness
