import Verif.Told.Props

/-!
# Cases, and where the full claims fail
-/

namespace Verif.Told

/-- Cell 10 sets the variables 0 and 1, the latter computed from the former; cell 11 reads 1 and sets
2 computed from it; cell 12 reads 0. -/
def told : List Ev :=
  [.run 12 [0] [], .run 11 [1] [(2, 7, [1])], .run 10 [] [(0, 5, []), (1, 6, [0])]]

/-- The state after it. -/
def toldState : St :=
  { ctr := 3
    syms := [(0, ⟨5, 1, none, []⟩), (1, ⟨6, 1, none, [0]⟩), (2, ⟨7, 2, none, [1]⟩)]
    updated := []
    this := []
    runs := [(1, 10), (2, 11), (3, 12)]
    cells := [(10, ⟨1, []⟩), (11, ⟨2, [1]⟩), (12, ⟨3, [0]⟩)] }

/-- And after the client has told of a new object of the first variable. -/
def toldState' : St :=
  { toldState with
    syms := [(0, ⟨8, 3, none, []⟩), (1, ⟨6, 1, some 3, [0]⟩), (2, ⟨7, 2, some 3, [1]⟩)]
    this := [0] }

theorem told_state : state told = .ok toldState := by decide
theorem told_state' : state (.tell 0 (some 8) [] :: told) = .ok toldState' := by decide

theorem told_news : News told 0 (some 8) := ⟨8, rfl, by decide⟩

theorem told_from : From (parents toldState'.syms) 0 [] 2 :=
  .through 1 2 (.direct 1 (by decide) (by decide) (by decide)) (by decide) (by decide) (by decide)

/- The requests are accepted, and variable 2 becomes out of date through variable 1. -/
example : accepted toldState 0 (some 8) = true := (accepted_iff told_state 0 (some 8)).2 told_news
example : accepted toldState 0 (some 5) = false ∧ accepted toldState 0 none = false := by decide
example : state (.tell 0 (some 5) [1] :: told) = state told :=
  declined 0 (some 5) [1] (by rintro ⟨o, h1, h2⟩; cases h1; exact h2 rfl)
example : outdated toldState' 2 = true := users_partial 0 (some 8) [] told_news told_state' 2 told_from
  (by decide)
example : outdated toldState' 2 = true :=
  (marked_iff told_state 0 (some 8) [] told_news told_state' 2).2
    ⟨by decide, .inr ⟨told_from, by decide⟩⟩
example : outdated toldState' 0 = false := by decide

/- Cell 11 waits; cell 12 was run last, and is not offered although it reads the variable. -/
example : waits toldState' 11 = true :=
  (waits_iff told_state' 11).2 ⟨1, ⟨2, [1], rfl, by decide⟩, by decide⟩
example : offered toldState' 12 = false := last_run_missed told_state' 12 ⟨[0], rfl⟩

/-- The same with another run at the end: cell 12 is offered. -/
def toldAgain : List Ev := .run 13 [] [(3, 9, [])] :: told

/-- The state after it, and after the request. -/
def againState : St :=
  { ctr := 4
    syms := [(0, ⟨8, 4, none, []⟩), (1, ⟨6, 1, some 4, [0]⟩), (2, ⟨7, 2, some 4, [1]⟩), (3, ⟨9, 4, none, []⟩)]
    updated := [3]
    this := [0]
    runs := [(1, 10), (2, 11), (3, 12), (4, 13)]
    cells := [(10, ⟨1, []⟩), (11, ⟨2, [1]⟩), (12, ⟨3, [0]⟩), (13, ⟨4, []⟩)] }

theorem again_state : state (.tell 0 (some 8) [] :: toldAgain) = .ok againState := by decide

theorem again_latest : latest toldAgain 12 = some (3, [0]) := by decide

example : offered againState 12 = true :=
  (readers_partial 0 (some 8) [] ⟨8, rfl, by decide⟩ again_state 12 ⟨3, [0], again_latest, by decide⟩
    (by
      rintro ⟨reads, h⟩
      rw [again_latest] at h
      cases h)).resolve_right (by decide)
example : offered againState 12 = true :=
  (offered_iff again_state 12).2 ⟨by decide, 3, [0], again_latest, 0, by decide, 4, by decide, by decide⟩

/-- Cell 10 sets the variables 0 and 1, the latter computed from the former, and is the last one run. -/
def fresh : List Ev := [.run 10 [0] [(0, 5, []), (1, 6, [0])]]

/-- The state after the request. -/
def freshState : St :=
  { ctr := 1
    syms := [(0, ⟨8, 1, none, []⟩), (1, ⟨6, 1, none, [0]⟩)]
    updated := [1, 0]
    this := [0]
    runs := [(1, 10)]
    cells := [(10, ⟨1, [0]⟩)] }

theorem fresh_state : state (.tell 0 (some 8) [] :: fresh) = .ok freshState := by decide

example : outdated freshState 1 = false :=
  recent_missed 0 (some 8) [] ⟨8, rfl, by decide⟩ fresh_state 1 (by decide)
example : outdated freshState 1 = false := recent_never fresh_state 1 (by decide)

/-- C168: the first claim fails for the cell that was run last. -/
theorem readers_claim_false : ¬ ReadersClaim := by
  intro h
  have := h fresh 0 (some 8) [] freshState 10 fresh_state ⟨8, rfl, by decide⟩
    ⟨1, [0], by decide, by decide⟩
  exact absurd this (by decide)

/-- C168: the second claim fails for variables assigned by the cell that was run last. -/
theorem users_claim_false : ¬ UsersClaim := by
  intro h
  have := h fresh 0 (some 8) [] freshState 1 fresh_state ⟨8, rfl, by decide⟩
    (.direct 1 (by decide) (by decide) (by decide))
  exact absurd this (by decide)

/-- The state after a request to refresh. -/
def refreshed : St :=
  { toldState with
    syms := [(0, ⟨5, 3, none, []⟩), (1, ⟨6, 1, none, [0]⟩), (2, ⟨7, 2, none, [1]⟩)] }

theorem refreshed_state : state (.refresh [0] :: told) = .ok refreshed := by decide

/-- C168: refreshing marks nothing. -/
theorem refresh_claim_false : ¬ RefreshClaim := by
  intro h
  have := h told [0] 0 refreshed 1 refreshed_state (by decide) (by decide)
    (.direct 1 (by decide) (by decide) (by decide))
  exact absurd this (by decide)

/- Refreshing a variable that is out of date; variable 2 stays out of date. -/
theorem twice_state : state (.refresh [1] :: .tell 0 (some 8) [] :: told) = .ok
    { toldState' with
      syms := [(0, ⟨8, 3, none, []⟩), (1, ⟨6, 3, some 3, [0]⟩), (2, ⟨7, 2, some 3, [1]⟩)] } := by decide

example : (outdated { toldState' with
    syms := [(0, ⟨8, 3, none, []⟩), (1, ⟨6, 3, some 3, [0]⟩), (2, ⟨7, 2, some 3, [1]⟩)] } 2 = true) :=
  (refresh_iff told_state' [1] twice_state 2).2 ⟨by decide, by decide⟩

/- After refreshing variable 1, cell 11 is offered. -/
theorem refreshed1_state : state (.refresh [1] :: told) = .ok
    { toldState with
      syms := [(0, ⟨5, 1, none, []⟩), (1, ⟨6, 3, none, [0]⟩), (2, ⟨7, 2, none, [1]⟩)] } := by decide

theorem told_latest : latest told 11 = some (2, [1]) := by decide

example : offered { toldState with
    syms := [(0, ⟨5, 1, none, []⟩), (1, ⟨6, 3, none, [0]⟩), (2, ⟨7, 2, none, [1]⟩)] } 11 = true :=
  (refresh_readers_partial [1] 1 refreshed1_state (by decide) (by decide) 11
    ⟨2, [1], told_latest, by decide⟩
    (by
      rintro ⟨reads, h⟩
      rw [told_latest] at h
      cases h)).resolve_right (by decide)

/-- Variable 2 is told to be computed from 0 instead of 1; variable 9 is not known. -/
def moved : St :=
  { toldState with
    syms := [(0, ⟨5, 1, none, []⟩), (1, ⟨6, 1, none, [0]⟩), (2, ⟨8, 3, none, [0]⟩)]
    this := [2] }

theorem moved_state : state (.tell 2 (some 8) [0, 9] :: told) = .ok moved := by decide

example : 0 ∈ parents moved.syms 2 ∧ 1 ∉ parents moved.syms 2 ∧ 9 ∉ parents moved.syms 2 :=
  ⟨(deps_iff told_state 2 (some 8) [0, 9] ⟨8, rfl, by decide⟩ moved_state 0).2
    (.inl ⟨by decide, by decide, by decide⟩), by decide, by decide⟩
example : parents moved.syms 1 = [0] := deps_others told_state 2 (some 8) [0, 9] moved_state 1 (by decide)

/-- It is told to be computed from itself: the old ones stay. -/
def kept : St :=
  { toldState with
    syms := [(0, ⟨5, 1, none, []⟩), (1, ⟨6, 1, none, [0]⟩), (2, ⟨8, 3, none, [1, 0]⟩)]
    this := [2] }

theorem kept_state : state (.tell 2 (some 8) [0, 2] :: told) = .ok kept := by decide

example : 1 ∈ parents kept.syms 2 :=
  (deps_iff told_state 2 (some 8) [0, 2] ⟨8, rfl, by decide⟩ kept_state 1).2
    (.inr ⟨by decide, .inl ⟨by decide, by decide⟩⟩)

/- The cell named: after a request it is the one run last, although it did not assign the variable. -/
example : lastUpdated toldState 0 = some 10 := by rw [last_updated told_state]; decide
example : lastUpdated toldState' 0 = some 12 := by rw [last_updated told_state']; decide
example : lastUpdated againState 3 = some 13 := by decide
theorem afterRun : state fresh = .ok { freshState with
    syms := [(0, ⟨5, 1, none, []⟩), (1, ⟨6, 1, none, [0]⟩)], this := [] } := by decide
example : lastUpdated { freshState with
    syms := [(0, ⟨5, 1, none, []⟩), (1, ⟨6, 1, none, [0]⟩)], this := [] } 1 = some 10 :=
  named_after_run 10 [0] [(0, 5, []), (1, 6, [0])] afterRun 1 (by decide)
example (s : St) (hs : state toldAgain = .ok s) : lastUpdated s 2 = some 11 :=
  named_stays told_state 13 [] [(3, 9, [])] hs 2 (by decide)
/- Told of before any run: no cell is named. -/
theorem early : state [.tell 0 (some 8) []] = .ok
    { init with syms := [(0, ⟨8, 0, none, []⟩)], this := [0] } := by decide
example : (lastUpdated { init with syms := [(0, ⟨8, 0, none, []⟩)], this := [0] } 0).isSome = false := by
  decide
example : ¬ ((holds [.tell 0 (some 8) []] 0).isSome ∧ touched [.tell 0 (some 8) []] 0 ≠ some 0) :=
  fun h => absurd ((named_iff early 0).2 h) (by decide)
/- A cell that got another id. -/
example : idAt (.rename 10 20 :: told) 1 = some 20 := by decide
example (s : St) (hs : state (.rename 10 20 :: told) = .ok s) : lastUpdated s 0 = some 20 := by
  rw [last_updated hs]; decide

end Verif.Told
