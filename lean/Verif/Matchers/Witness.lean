import Verif.Matchers.Props

/-!
# Cases, and where the full claims fail
-/

namespace Verif.Matchers

open Verif

/-- Symbol 1 is computed from 2, 3 and 4; 4 has no name, 3 is a file, 2 is the display. -/
def world (order : List Nat → List Nat) : World where
  parents x := if x = 1 then [2, 3, 4] else []
  children _ := []
  anon x := x == 4
  display := 2
  inFs x := x == 3
  path x := x + 10
  pathOf b := b
  bound _ := none
  order := order

theorem world_ok : (world id).Ok := by
  refine ⟨fun x => ?_, fun l y => Iff.rfl⟩
  show (if x = 1 then [2, 3, 4] else []).Nodup
  by_cases h : x = 1
  · rw [if_pos h]; decide
  · rw [if_neg h]; exact List.nodup_nil

theorem world_back : (world List.reverse).Ok := by
  refine ⟨fun x => ?_, fun l y => List.mem_reverse⟩
  show (if x = 1 then [2, 3, 4] else []).Nodup
  by_cases h : x = 1
  · rw [if_pos h]; decide
  · rw [if_neg h]; exact List.nodup_nil

/-- `Parents[plain, Display]`: the plain matcher takes the display first, and gives it back. -/
def needsBacktrack : M := .parents 20 (.cons (.plain 21) (.cons (.display 22) .nil)) true

theorem needs_noRef : NoRef needsBacktrack := by
  unfold needsBacktrack
  simp [NoRef, AllNoRef]

theorem needs_safe : Safe needsBacktrack := by
  unfold needsBacktrack
  simp [Safe, AllSafe]

theorem needs_match_id : mat (world id) needsBacktrack 1 = .ok (some [(21, .sym 3), (22, .sym 2)]) := by
  simp [needsBacktrack, mat, helper, firstSome, world, Ms.length, update, Assoc.set]

example : Fits (world id) needsBacktrack 1 :=
  (answer_iff world_ok needsBacktrack needs_noRef 1 _ needs_match_id).1 rfl
example : ¬ Fits (world id) needsBacktrack 2 := by
  have h : mat (world id) needsBacktrack 2 = .ok none := by
    simp [needsBacktrack, mat, world, Ms.length]
  exact fun q => absurd ((answer_iff world_ok needsBacktrack needs_noRef 2 _ h).2 q) (by decide)
example : ∃ r, mat (world List.reverse) needsBacktrack 1 = .ok r ∧
    (r.isSome ↔ Fits (world List.reverse) needsBacktrack 1) :=
  match_partial world_back needsBacktrack needs_noRef needs_safe 1

/- The names inside are bound, that of `Parents` is not. -/
example : Binds (world id) 21 (.sym 3) needsBacktrack 1 :=
  bound_sound world_ok needsBacktrack needs_noRef 1 _ needs_match_id 21 (.sym 3) (by decide)
example : Assoc.get [(21, Val.sym 3), (22, .sym 2)] 20 = none :=
  unmentioned_unbound world_ok needsBacktrack needs_noRef 1 _ needs_match_id 20
    (by unfold needsBacktrack; simp [Mentions, ListMentions])

example : (Assoc.get [(21, Val.sym 3), (22, .sym 2)] 22).isSome :=
  needed_bound needsBacktrack 1 _ needs_match_id 22
    (by unfold needsBacktrack; simp [Needs, ListNeeds])

/-- `AnyOf[Display, FileSystem]`. -/
def either : M := .anyOf 20 (.cons (.display 21) (.cons (.file 22 false) .nil))

theorem either_noRef : NoRef either := by
  unfold either
  simp [NoRef, AllNoRef]

example : mat (world id) either 3 = .ok (some [(22, .obj 3), (20, .sym 3)]) := by
  simp [either, mat, matAny, world, update, Assoc.set]
example : ∃ e, mat (world id) either 4 = .error e :=
  any_raises world_ok 20 _ either_noRef 4 (by simp [Fits, AnyFit, world])
example : Assoc.get [(22, Val.obj 3), (20, .sym 3)] 20 = some (.sym 3) :=
  any_binds_own (w := world id) 20 (.cons (.display 21) (.cons (.file 22 false) .nil)) 3 _
    (by simp [mat, matAny, world, update, Assoc.set])
example : Assoc.get [(20, Val.sym 2), (21, .sym 2)] 20 = some (.sym 2) :=
  all_binds_own (w := world id) 20 (.cons (.plain 20) (.cons (.plain 21) .nil)) 2 _
    (by simp [mat, matAll, update, Assoc.set])
example : ∃ e, mat (world id) (.allOf 30 (.cons (.plain 31) (.cons either .nil))) 4 = .error e :=
  ⟨.crash, all_raises 30 (.plain 31) either 4 [(31, .sym 4)] (by rw [mat]) .crash
    (by simp [either, mat, matAny, world])⟩
/- A literal path, and an answer that there is no match. -/
example : Fits (world id) (.file 13 true) 3 ∧ ¬ Fits (world id) (.file 14 true) 3 := by
  simp [Fits, world]

/-- The answer may depend on the order in which the parents are looked at: one of them makes `AnyOf`
raise, the other one is a match. -/
theorem order_matters : ∃ (m : M) (x : Nat), NoRef m ∧
    (∃ c, mat (world id) m x = .ok (some c)) ∧ ∃ e, mat (world List.reverse) m x = .error e := by
  refine ⟨.parents 30 (.cons (.anyOf 20 (.cons (.display 21) .nil)) .nil) false, 1, ?_, ?_, ?_⟩
  · simp [NoRef, AllNoRef]
  · refine ⟨[(21, .sym 2), (20, .sym 2)], ?_⟩
    simp [mat, helper, firstSome, matAny, world, update, Assoc.set]
  · refine ⟨.crash, ?_⟩
    simp [mat, helper, firstSome, matAny, world]

/-- C170: the full claim fails. -/
theorem match_claim_false : ¬ MatchClaim := by
  intro h
  obtain ⟨r, h1, _⟩ := h (world id) (.children 20 .nil false) 1 world_ok
  rw [children_raises] at h1
  cases h1

/-- C171: `Parents` does not bind its name. -/
theorem own_name_claim_false : ¬ OwnNameClaim := by
  intro h
  have := h (world id) 20 (.cons (.plain 21) (.cons (.display 22) .nil)) true 1 _ world_ok needs_match_id
  exact absurd this (by decide)

/-- C171: if two matchers of `AnyOf` match, the first one does not win. -/
theorem first_wins_claim_false : ¬ FirstWinsClaim := by
  intro h
  have h2 := h (world id) 20 (.parents 30 (.cons (.display 21) .nil) false)
    (.parents 31 (.cons (.allOf 21 (.cons (.file 22 false) .nil)) .nil) false) 1
    [(21, .sym 2)] [(22, .obj 3), (21, .sym 3)] [(21, .sym 3), (22, .obj 3), (20, .sym 1)] 21 (.sym 2)
    world_ok
    (by simp [mat, helper, firstSome, world, update])
    (by simp [mat, helper, firstSome, matAll, world, update, Assoc.set])
    (by decide) (by decide)
    (by simp [mat, matAny, helper, firstSome, matAll, world, update, Assoc.set])
  exact absurd h2 (by decide)

example : Assoc.get [(21, Val.sym 3), (22, .obj 3), (20, .sym 1)] 21 = some (.sym 3) :=
  later_wins (w := world id) 20 (.parents 30 (.cons (.display 21) .nil) false)
    (.parents 31 (.cons (.allOf 21 (.cons (.file 22 false) .nil)) .nil) false) 1
    [(21, .sym 2)] [(22, .obj 3), (21, .sym 3)] _ 21
    (by simp [mat, helper, firstSome, world, update])
    (by simp [mat, helper, firstSome, matAll, world, update, Assoc.set])
    (by decide)
    (by simp [mat, matAny, helper, firstSome, matAll, world, update, Assoc.set])

end Verif.Matchers
