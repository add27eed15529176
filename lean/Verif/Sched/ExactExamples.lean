import Verif.Sched.Exact
import Verif.Sched.Examples

/-!
# Concrete notebooks for `Verif.Sched.Exact`
-/

namespace Verif.Sched
open Verif Verif.Slice

/-- `demo` again: cell 1 is newly ready because it was not ready before. -/
example : ∃ r, compute demo [2, 0, 3, 1] ∅ smallOrder 20 = .ok r ∧ 1 ∈ jsonNewReady true r ∧ 2 ∉ jsonNewReady true r := by
  obtain ⟨r, hr, hv⟩ := viewOk_some (c := compute demo [2, 0, 3, 1] ∅ smallOrder 20)
    (v := ({1}, {2, 3}, {1}, [[∅, ∅, {1}, {1}], [∅, {2, 3}, ∅, ∅], [{2}, ∅, ∅, ∅]])) (by decide)
  have h1 : 1 ∈ r.ready := by rw [show r.ready = {1} from congrArg (·.1) hv]; decide
  have h2 : 2 ∉ r.ready := by rw [show r.ready = {1} from congrArg (·.1) hv]; decide
  refine ⟨r, hr, (new_ready_exact hr (by decide) true 1).2 ⟨rfl, h1, by decide, ?_, .inr ⟨rfl, by decide⟩⟩, ?_⟩
  · intro _ l hl
    cases hl
    decide
  · exact fun h => h2 ((new_ready_exact hr (by decide) true 2).1 h).2.1

/-- As `demo`, but cell 1 was ready before and reads symbol 0 where reading counts as reactive. -/
def marked : World Nat Nat :=
  { demo with
    wasReady := fun i => i == 1
    check := fun i => if i = 1 then some { quiet with maxUsedReactive := 4, maxUsedCascading := 2 } else if i < 4 then some quiet else none }

/-- Cell 1 is newly ready because of run 4, it is run again without being asked for, and it draws no others along. -/
example : ∃ r, compute marked [0, 1, 2, 3] {3} smallOrder 20 = .ok r ∧ 1 ∈ jsonNewReady true r ∧ 1 ∈ r.forced ∧ 3 ∈ r.forced ∧ 0 ∉ r.forced ∧ 1 ∉ r.cascading := by
  obtain ⟨r, hr, hv⟩ := viewOk_some (c := compute marked [0, 1, 2, 3] {3} smallOrder 20)
    (v := ({1}, {2, 3}, {1}, [[∅, ∅, {1}, {1}], [∅, {2, 3}, ∅, ∅], [∅, ∅, ∅, ∅]])) (by decide)
  have hd : r.ready = {1} := congrArg (·.1) hv
  have h1 : 1 ∈ r.ready := by rw [hd]; decide
  refine ⟨r, hr, (new_ready_exact hr (by decide) true 1).2 ⟨rfl, h1, by decide, ?_, .inl (.inl ⟨by decide, .dynamic, by decide, 0, {0}, ⟨by decide, fun _ => by decide⟩, ?_, ?_, ?_,
    by decide⟩)⟩, (forced_exact hr 1).1.2 (.inr ⟨h1, 0, _, rfl, rfl, fun _ => by decide, by decide, by decide⟩), (forced_exact hr 3).1.2 (.inl (by decide)), ?_, ?_⟩
  · intro _ l hl
    cases hl
    decide
  · intro _
    refine .inr ⟨0, ⟨by decide, by decide⟩, [], {0}, [], by decide, ⟨0, ⟨by decide, by decide⟩, by decide, rfl⟩, ?_, ?_⟩ <;> simp
  · exact .inl ⟨by decide, by decide, .inr ⟨0, ⟨by decide, by decide⟩, by decide⟩⟩
  · rintro ⟨_, h, _⟩; cases h
  · intro h
    rcases (forced_exact hr 0).1.1 h with h | ⟨h, _⟩
    · revert h; decide
    · rw [hd] at h; revert h; decide
  · intro h
    obtain ⟨_, l, chk, hl, hc, _, h1, h2⟩ := (forced_exact hr 1).2.1 h
    cases hc
    revert h1
    decide

/-- As `demo`, but cell 2 has been edited and no longer sets the symbol that cell 3 took from its text. -/
def edited : World Nat Nat :=
  { demo with
    staticWrites := fun i => if i = 2 then {2} else ∅
    lastModified := fun i => if i = 2 then some {7} else none }

/-- Cell 1 is linked with cell 0; cell 3 is no longer linked with cell 2. -/
example : ∃ P C, filteredGraph edited [0, 1, 2, 3] = .ok (P, C) ∧ Listed P 1 0 ∧ Listed C 0 1 ∧ ¬ Listed P 3 2 := by
  obtain ⟨P, C, h, _⟩ := reported_graph edited [0, 1, 2, 3]
  have hl : Linked edited 1 0 := by
    refine ⟨.dynamic, by decide, {0}, ⟨by decide, fun _ => by decide⟩, ⟨0, ⟨by decide, by decide⟩, rfl⟩, fun _ => .inr ⟨0, ⟨⟨by decide, by decide⟩, rfl⟩,
      [], {0}, [], by decide, ⟨0, ⟨by decide, by decide⟩, by decide, rfl⟩, by simp, by simp⟩, ?_, .inr ⟨0, ⟨⟨by decide, by decide⟩, rfl⟩, by decide⟩, ?_⟩
    · rintro ⟨M, hM, _⟩; cases hM
    · rintro ⟨_, h, _⟩; cases h
  refine ⟨P, C, h, (links_exact h 1 0).1.2 ⟨by decide, hl⟩, (links_exact h 1 0).2.2 ⟨by decide, hl⟩, ?_⟩
  intro hn
  obtain ⟨_, c, _, S, ⟨he, _⟩, _, _, hE, _⟩ := (links_exact h 3 2).1.1 hn
  have hS : S = {2} := by
    cases c
    all_goals simp [edited, demo] at he
    all_goals exact he
  subst hS
  refine hE ⟨{7}, rfl, ?_, ?_⟩
  · rintro s ⟨⟨hs, _⟩, _⟩
    rw [Finset.mem_singleton.1 hs]
    decide
  · rintro s ⟨⟨hs, _⟩, _⟩
    rw [Finset.mem_singleton.1 hs]
    decide

end Verif.Sched
