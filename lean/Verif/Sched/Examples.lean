import Verif.Sched.GraphProps

/-!
# Concrete notebooks for the schedule theorems, and counterexamples

`demo` has four cells in order: cell 0 was just re-run and defines symbol 0; cell 1 reads it and defines 1; cell 2 reads 1
and defines 2; cell 3 (never run) reads 2.
-/

namespace Verif.Sched
open Verif Verif.Slice

/-- A checker outcome that asks for nothing. -/
def quiet : Check Nat where
  waitingSyms := ∅
  unresolved := false
  typechecks := true
  dead := ∅
  maxUsed := -1
  maxUsedReactive := -1
  maxUsedCascading := -1
  liveTimes := []

/-- Four cells in a row; cell 0 was just re-run. -/
def demo : World Nat Nat where
  schedule := .dag
  flowOrder := .inOrder
  ctxs := [.dynamic, .static]
  pull := false
  minTimestamp := -1
  minNewReady := 2
  minForcedReactive := 2
  cellCounter := 4
  fake := 99
  shallowTs := fun s => if s = 0 then ⟨4, 0⟩ else if s = 1 then ⟨2, 0⟩ else ⟨3, 0⟩
  visibleTs := fun _ => none
  implicitVirtual := fun _ => false
  updatedCells := fun s => if s = 0 then {4} else if s = 1 then {2} else {3}
  pos := fun i => ((i : Int) : WithTop Int)
  ctr := fun i => if i = 0 then 4 else if i = 1 then 2 else if i = 2 then 3 else -1
  wasReady := fun _ => false
  parents := fun c i =>
    if c = .dynamic then (if i = 1 then [(0, {0})] else if i = 2 then [(1, {1})] else [])
    else (if i = 3 then [(2, {2})] else [])
  removed := fun _ => ∅
  staticWrites := fun _ => ∅
  lastModified := fun _ => none
  ownerOf := fun t => if t = 3 then some 2 else none
  check := fun i => if i = 0 then some { quiet with liveTimes := [(true, ⟨3, 0⟩), (false, ⟨2, 0⟩)] }
    else if i < 4 then some quiet else none
  lastExecuted := some 0

/-- A fixed iteration order for small sets. -/
def smallOrder (W : Finset Nat) : List Nat := (List.range (W.sup id + 1)).filter (· ∈ W)

theorem smallOrder_enumerates : Enumerates smallOrder := by
  intro W x
  simp only [smallOrder, List.mem_filter, List.mem_range, decide_eq_true_eq, and_iff_right_iff_imp]
  intro hx
  exact Nat.lt_succ_of_le (Finset.le_sup (f := id) hx)

/-- The parts of a result that the examples look at: ready, waiting, newly ready, and for each of cells 0-3 the waiter
links, ready-maker links and unsafe-order cells. -/
abbrev View := Finset Nat × Finset Nat × Finset Nat × List (List (Finset Nat))

/-- Fields of a result for cells 0-3. -/
def view (r : Result Nat Nat) : View :=
  (r.ready, r.waiting, r.newReady,
    [(List.range 4).map r.links, (List.range 4).map r.makers, (List.range 4).map r.unsafeOrder])

/-- View of an outcome. -/
def viewOk : Except Err (Result Nat Nat) → Option View
  | .ok r => some (view r)
  | .error _ => none

theorem viewOk_some {c : Except Err (Result Nat Nat)} {v : View} (h : viewOk c = some v) :
    ∃ r, c = .ok r ∧ view r = v := by
  cases c with
  | error e => cases h
  | ok r => injection h with h; exact ⟨r, rfl, h⟩

/-- Cell 1 is ready, cells 2 and 3 wait for it; cell 0 is warned about using a symbol of cell 2. Meets the hypotheses of
`ready_waiting_disjoint`, `dag_waiting_exact`, `new_ready_forward`, `waiter_links_exact_partial`, `ready_makers_inverse`,
`ready_makers_above`, `unsafe_order_exact` with non-empty sets. -/
example : viewOk (compute demo [2, 0, 3, 1] ∅ smallOrder 20) = some
    ({1}, {2, 3}, {1}, [[∅, ∅, {1}, {1}], [∅, {2, 3}, ∅, ∅], [{2}, ∅, ∅, ∅]]) := by decide

/-- The same notebook meets the hypotheses of `compute_terminates`. -/
example : ∀ x ∈ [2, 0, 3, 1], OwnersKnown demo x := by
  intro x hx _ chk hchk t ht hi
  simp only [List.mem_cons, List.not_mem_nil, or_false] at hx
  rcases hx with rfl | rfl | rfl | rfl <;> simp [demo, quiet] at hchk <;> subst hchk <;> simp at ht
  subst ht
  exact ⟨2, rfl⟩

/-- It also has no self makers. -/
example : NoSelfMaker demo := .inl rfl

/-- `in_order_progress` and `latest_parent_table` apply: cell 1 needs re-running. -/
example : NeedsRerun demo 1 := by
  refine ⟨quiet, rfl, ?_, .inl ⟨by decide, .dynamic, by decide, 0, {0}, ⟨by decide, fun _ => by decide⟩, .inr ⟨?_, ?_, ?_⟩⟩⟩
  · rintro ⟨h, _⟩; exact absurd h (by decide)
  · intro _
    refine .inr ⟨0, ⟨by decide, by decide⟩, [], {0}, [], by decide, ⟨0, ⟨by decide, by decide⟩, by decide, rfl⟩, ?_, ?_⟩ <;>
      simp
  · exact .inl ⟨by decide, by decide, .inr ⟨0, ⟨by decide, by decide⟩, by decide⟩⟩
  · rintro ⟨_, h, _⟩; cases h

/-- The reported graph of `demo` for cells 0-3. -/
def graphOk : Except Err ((Nat → Option (Finset Nat)) × (Nat → Option (Finset Nat))) →
    Option (List (Option (Finset Nat)) × List (Option (Finset Nat)))
  | .ok (P, C) => some ((List.range 4).map P, (List.range 4).map C)
  | .error _ => none

example : graphOk (filteredGraph demo [0, 1, 2, 3]) = some
    ([some ∅, some {0}, some {1}, some {2}], [some {1}, some {2}, some {3}, some ∅]) := by decide

/-! ## Violations -/

/-- Three cells whose dynamic edges form a cycle 0 → 1 → 2 → 0 in any-order mode, with cell 0 re-run last. -/
def cyclic : World Nat Nat :=
  { demo with
    flowOrder := .anyOrder
    ctxs := [.dynamic]
    shallowTs := fun s => if s = 0 then ⟨4, 0⟩ else if s = 1 then ⟨2, 0⟩ else ⟨3, 0⟩
    ctr := fun i => if i = 0 then 4 else if i = 1 then 2 else 3
    parents := fun _ i => if i = 1 then [(0, {0})] else if i = 2 then [(1, {1})] else if i = 0 then [(2, {2})] else []
    check := fun i => if i < 3 then some quiet else none }

/-- C03 fails without in-order semantics: cell 1 needs re-running, yet all three cells wait and none is ready. -/
theorem any_order_deadlock_violated : NeedsRerun cyclic 1 ∧
    ∃ r, compute cyclic [0, 1, 2] ∅ smallOrder 20 = .ok r ∧ r.ready = ∅ ∧ r.waiting = {0, 1, 2} := by
  constructor
  · refine ⟨quiet, rfl, ?_, .inl ⟨by decide, .dynamic, by decide, 0, {0}, ⟨by decide, fun h => absurd h (by decide)⟩, .inr ⟨?_, ?_, ?_⟩⟩⟩
    · rintro ⟨h, _⟩; exact absurd h (by decide)
    · intro h; exact absurd h (by decide)
    · exact .inl ⟨by decide, by decide, .inr ⟨0, ⟨by decide, by decide⟩, by decide⟩⟩
    · rintro ⟨h, _⟩; exact absurd h (by decide)
  · obtain ⟨r, hr, hv⟩ := viewOk_some (c := compute cyclic [0, 1, 2] ∅ smallOrder 20)
      (v := (∅, {0, 1, 2}, ∅, [[∅, ∅, ∅, ∅], [∅, ∅, ∅, ∅], [∅, ∅, ∅, ∅]])) (by decide)
    exact ⟨r, hr, congrArg (·.1) hv, congrArg (·.2.1) hv⟩

/-- Liveness schedule, any order. Cells 0, 1, 2 wait; each of cells 0 and 1 also overwrites the stale symbol it reads
(`x = x + y`). Symbol 0 is overwritten by cells 0 and 1, symbol 1 by cells 1 and 2, symbol 2 by cell 3. -/
def selfMaking : World Nat Nat :=
  { demo with
    schedule := .liveness
    flowOrder := .anyOrder
    ctxs := [.dynamic]
    parents := fun _ _ => []
    lastExecuted := none
    check := fun i =>
      if i = 0 then some { quiet with waitingSyms := {0}, dead := {0} }
      else if i = 1 then some { quiet with waitingSyms := {1}, dead := {0, 1} }
      else if i = 2 then some { quiet with waitingSyms := {2}, dead := {1} }
      else if i = 3 then some { quiet with dead := {2} }
      else none }

/-- C05 fails when a waiting cell overwrites the symbol it waits for: cell 3 is reachable from cell 0 through waiting cells,
but the loop stops after one pass (the sizes did not change) and does not list it. -/
theorem waiter_links_violated :
    ∃ r, compute selfMaking [0, 1, 2, 3] ∅ smallOrder 20 = .ok r ∧ 0 ∈ r.waiting ∧ 3 ∉ r.waiting ∧
      LinkReach r.waiting (MadeReadyBy selfMaking [0, 1, 2, 3] r.ready r.waiting) 0 3 ∧ 3 ∉ r.links 0 := by
  obtain ⟨r, hr, hv⟩ := viewOk_some (c := compute selfMaking [0, 1, 2, 3] ∅ smallOrder 20)
    (v := (∅, {0, 1, 2}, ∅, [[∅, {3}, {3}, ∅], [∅, ∅, ∅, {1, 2}], [∅, ∅, ∅, ∅]])) (by decide)
  have hw : r.waiting = {0, 1, 2} := congrArg (·.2.1) hv
  have hl : some ((List.range 4).map r.links) = some [∅, {3}, {3}, ∅] := congrArg (·.2.2.2.head?) hv
  have hl0 : r.links 0 = ∅ := (List.cons.inj (Option.some.inj hl)).1
  refine ⟨r, hr, by rw [hw]; decide, by rw [hw]; decide, ?_, by rw [hl0]; simp⟩
  have mk : ∀ x m (s : Nat) (c c' : Check Nat), x ∈ [0, 1, 2, 3] → m ∈ [0, 1, 2, 3] → selfMaking.check x = some c →
      selfMaking.check m = some c' → s ∈ c.waitingSyms → s ∈ c'.dead →
      MadeReadyBy selfMaking [0, 1, 2, 3] r.ready r.waiting x m := by
    intro x m s c c' hx hm h1 h2 h3 h4
    refine ⟨.inr ⟨rfl, hx, hm, c, c', s, h1, h3, h2, h4⟩, fun h => absurd h (by decide), by simp [selfMaking]⟩
  refine .through (y := 1) (mk 0 1 0 _ _ (by decide) (by decide) rfl rfl (by decide) (by decide)) (by rw [hw]; decide) ?_
  refine .through (y := 2) (mk 1 2 1 _ _ (by decide) (by decide) rfl rfl (by decide) (by decide)) (by rw [hw]; decide) ?_
  exact .direct (mk 2 3 2 _ _ (by decide) (by decide) rfl rfl (by decide) (by decide))

/-- A notebook whose only stale cell fails type checking. -/
def illTyped : World Nat Nat :=
  { demo with check := fun i => if i = 1 then some { quiet with typechecks := false } else if i = 0 then some quiet else none }

/-- C01 fails for the JSON sent to the client: it merges cells that do not type check into the waiting cells, so cell 1 is
in `ready_cells`, in `new_ready_cells` and in `waiting_cells`. -/
theorem json_ready_waiting_violated :
    ∃ r, compute illTyped [0, 1] ∅ smallOrder 20 = .ok r ∧
      1 ∈ jsonReady r ∧ 1 ∈ jsonNewReady true r ∧ 1 ∈ jsonWaiting r := by
  obtain ⟨r, hr, hv⟩ := viewOk_some (c := compute illTyped [0, 1] ∅ smallOrder 20)
    (v := ({1}, ∅, {1}, [[∅, ∅, ∅, ∅], [∅, ∅, ∅, ∅], [∅, ∅, ∅, ∅]])) (by decide)
  refine ⟨r, hr, ?_, ?_, ?_⟩
  · rw [show jsonReady r = {1} from congrArg (·.1) hv]; decide
  · rw [show jsonNewReady true r = {1} from congrArg (·.2.2.1) hv]; decide
  · exact Finset.mem_union_right _ (((compute_facts hr).typeErr 1).2 ⟨by decide, _, rfl, rfl⟩)

end Verif.Sched
