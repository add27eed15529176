import Verif.Rounds.Props

/-!
# Examples: cells that are run together -/

namespace Verif.Rounds
open Spec

/-- Cells below 10 are code cells. -/
def small (c : Nat) : Bool := decide (c < 10)

/-- Cells 1 and 2 are run together; both end. -/
def both : List Event := [.reply 1 false, .reply 0 false, .batch [1, 2]]

example : (run small both).asked = [0] ∧ (run small both.tail).asked = [] ∧ (run small both).executed = [2, 1] := by decide

example : rounds [] ∈ (run small ([.reply 1 true, .reply 0 true] ++ .batch [1, 2] :: [])).asked :=
  (asked_partial (code := small) [] [1, 2] (by decide) (by decide) (by decide) (fun _ => true) 2).2 (by decide)

example : AllEnded small both 0 := (asked_iff both 0).1 (by decide)

/-- Two rounds that overlap: the second ends first. -/
def interleaved : List Event := [.reply 1 false, .reply 3 false, .reply 2 true, .reply 0 false, .batch [3, 4], .batch [1, 2]]

example : (run small interleaved).asked = [1, 0] ∧ (run small interleaved).executed = [2, 4, 1] := by decide

/-- Cell 2 is both forced and drawn along: it is run twice. -/
def overlap : List Nat := lazyBatch [1, 2] [2, 3] [1] [1, 2, 3]

example : overlap = [2, 2, 3] := by decide

/-- All that the kernel is asked to run, it replies to. -/
example : (run small [.reply 2 false, .reply 1 false, .reply 0 false, .batch overlap]).asked = [] := by decide

example : ∀ es, 0 ∉ (run small (es ++ .batch overlap :: [])).asked := fun es =>
  overlap_never_asked [] es [1, 2] [2, 3] [1] [1, 2, 3] 2 (by decide) (by decide) (by decide) (by decide)

/-- A text cell was selected together with code cells. -/
example : ∀ es, 0 ∉ (run small (es ++ .batch [1, 12, 3] :: [])).asked := fun es => text_never_asked [] es [1, 12, 3] 12 (by decide) (by decide)

/-- The user runs cell 2 again while it is still in the queue. -/
example : ∀ es, 0 ∉ (run small (es ++ .rerun 2 :: [.reply 0 false, .batch [1, 2]])).asked := fun es =>
  rerun_never_asked [.reply 0 false, .batch [1, 2]] es 1 0 2 (by decide) ⟨Or.inr ⟨1, 2, rfl, rfl, rfl, by decide⟩, by decide⟩

/-- The client asks for the next schedule when the kernel has replied to all that it was asked to run in a round. -/
def AskedClaim : Prop :=
  ∀ (code : Nat → Bool) (h : List Event) (b : Nat), b < rounds h → (∀ k c, (started h)[k]? = some (b, c) → ∃ s, Event.reply k s ∈ h) → b ∈ (run code h).asked

theorem asked_claim_false : ¬ AskedClaim := by
  intro hc
  have := hc small [.reply 2 false, .reply 1 false, .reply 0 false, .batch overlap] 0 (by decide) (by
    intro k c hk
    have hk3 : k < 3 := (List.getElem?_eq_some_iff.1 hk).1
    match k, hk3 with
    | 0, _ => exact ⟨false, by simp⟩
    | 1, _ => exact ⟨false, by simp⟩
    | 2, _ => exact ⟨false, by simp⟩)
  exact absurd this (by decide)

end Verif.Rounds
