import Verif.Paint.Props

/-! # Cases for C145 and C146 -/

namespace Verif.Paint
open Verif Store

/-- Notebook 0 has three code cells and a text cell, notebook 1 two code cells. -/
def someCells : Nat → List (Nat × Bool) := fun k => if k = 0 then [(1, true), (2, true), (3, true), (4, false)] else [(11, true), (12, true)]

/-- Enough for five cells. -/
def someFuel : Fuel := ⟨9, 9, 9⟩

/-- Cell 2 is computed from cell 1, and cell 3 from cell 2; cell 2 is ready, cell 3 is waiting. -/
def someData : Data where
  parents x := if x = 2 then some [1] else if x = 3 then some [2] else none
  children x := if x = 1 then some [2] else if x = 2 then some [3] else none
  executed x := decide (x ≤ 3)
  ready x := decide (x = 2)
  waiting x := decide (x = 3)
  dirty _ := false
  staleParents _ := []
  byExec _ := []
  byChild _ := []

/-- A schedule for notebook 0 after cell 1 was run; cell 1 made cell 2 ready. -/
def somePayload (h : Highlights) (reactive : Bool) : Payload := ⟨someData, ⟨false, false⟩, reactive, false, h, fun x => decide (x = 1), false, 1⟩

/-- The world of a run. -/
def after (es : List Event) : World :=
  match run someFuel (World.init someCells) es with
  | .ok w => w
  | .error _ => World.init someCells

/-- Notebook 0 is connected with cell 2 active, and receives a schedule. -/
def first : List Event := [.connect 0 (some (2, true)), .schedule 0 (somePayload .all false) .done]

/-- The marks that a cell has. -/
def marked (w : World) (k c : Nat) : List Mark :=
  [Mark.classic, .waiting, .readyMaking, .ready, .readyInput, .slice, .sliceExecute].filter (w.marks k c)

/-- Cell 1 made cell 2 ready and cell 2 is computed from it; cell 2 is ready; cell 3 is waiting; the text cell has no marks. -/
example : [1, 2, 3, 4].map (marked (after first) 0) =
    [[.readyMaking, .ready, .slice], [.ready, .readyInput, .sliceExecute], [.waiting, .ready, .sliceExecute], []] := by decide

/-- The exception in `told` does not apply to this schedule, and `asked` applies to the notebook that is connected alone. -/
example : (somePayload .all false).highlights ≠ .reactive ∧ (after first).order = [0] ∧ (after first).current = 0 ∧
    ((after (first ++ [.select [1, 3]])).st 0).selected = [1, 3] := by decide

/-- The hypotheses of `painted_push_partial`: cell 3 becomes active. -/
example : ∃ w' start, step someFuel (after first) (.activate 0 (some (3, true))) = .ok w' ∧ Chosen (w'.st 0) start ∧
    Painted w' 0 (w'.st 0) (Runs (w'.st 0).data start) :=
  painted_push_partial someFuel (after first) 0 3 (by decide) (by decide) {1, 2, 3}
    (by
      intro x hx y hy
      obtain ⟨l, hl, hy⟩ := hy
      have hl : (if x = 1 then some [2] else if x = 2 then some [3] else none) = some l := hl
      split at hl
      · cases hl; simp at hy; simp [hy]
      · split at hl
        · cases hl; simp at hy; simp [hy]
        · cases hl)
    (by
      intro x hx y hy
      obtain ⟨l, hl, hy⟩ := hy
      have hl : (if x = 2 then some [1] else if x = 3 then some [2] else none) = some l := hl
      split at hl
      · cases hl; simp at hy; simp [hy]
      · split at hl
        · cases hl; simp at hy; simp [hy]
        · cases hl)
    (by decide) (by decide) (by decide)

/-- The hypotheses of `run_marked_again`, met by cell 2. -/
example : (after first).current = 0 ∧ (2, true) ∈ (after first).cells 0 ∧ ((after first).st 0).data.ready 2 = true ∧
    ((after first).st 0).data.waiting 2 = false ∧ ((after first).st 0).highlights ≠ .none := by decide

/-- Cell 2 is executed and loses its marks of readiness; cell 3 becomes active and cell 2 is marked as ready again. -/
example : marked (after (first ++ [.executed 0 2])) 0 2 = [.sliceExecute] ∧
    marked (after (first ++ [.executed 0 2, .activate 0 (some (3, true))])) 0 2 = [.ready, .readyInput, .slice] := by decide

/-- Executing the waiting cell 3 leaves it marked as waiting. -/
example : marked (after (first ++ [.executed 0 3])) 0 3 = [.waiting, .sliceExecute] := by decide

/-- An idle run in the sense of `kept`: another cell is added, cell 2 executed, a text cell becomes active. -/
example : Idle someFuel 0 2 (after first) [.cells 0 ((5, true) :: someCells 0), .executed 0 2, .activate 0 (some (4, false))]
    (after (first ++ [.cells 0 ((5, true) :: someCells 0), .executed 0 2, .activate 0 (some (4, false))])) :=
  .cons (.cells ..) (by decide) rfl (.cons (.executed ..) ⟨(2, true), by decide, rfl⟩ rfl (.cons (.text ..) ⟨(2, true), by decide, rfl⟩ rfl (.nil _)))

/-- The text cell 4 becomes active: the slices of cell 2 remain marked. -/
example : (((after (first ++ [.activate 0 (some (4, false))])).st 0).active, marked (after (first ++ [.activate 0 (some (4, false))])) 0 3) =
    (some (4, false), [.waiting, .ready, .sliceExecute]) := by decide

/-- With `reactive` highlights, cell 2 which is ready is not marked as such, and cell 1 which has just been run is. -/
example : let w := after [.connect 0 (some (2, true)), .schedule 0 (somePayload .reactive true) .done]
    (marked w 0 1, marked w 0 2) = ([.ready, .readyInput, .slice], [.sliceExecute]) := by decide

/-- Notebook 1 is opened, then notebook 0 is shown again. -/
def second : List Event := first ++ [.switch 1, .connect 1 (some (11, true)), .switch 0]

/-- The marks of notebook 0 are still there. When cell 1 is selected they are gone. -/
example : [1, 2, 3].map (marked (after second) 0) =
    [[.readyMaking, .ready, .slice], [.ready, .readyInput, .sliceExecute], [.waiting, .ready, .sliceExecute]] ∧
    [1, 2, 3].map (marked (after (second ++ [.select [1]])) 0) = [[], [], []] := by decide

/-- If notebook 0 is shown alone, the selection is marked. -/
example : [1, 2, 3].map (marked (after (first ++ [.select [1]])) 0) =
    [[.readyMaking, .ready, .sliceExecute], [.ready, .readyInput, .sliceExecute], [.waiting, .ready, .sliceExecute]] := by decide

/-- The hypotheses of `selected_erased`, for the ready cell 2. -/
example : ∃ w', step someFuel (after second) (.select [1]) = .ok w' ∧ ∀ m, m ≠ .classic → w'.marks 0 2 m = false := by
  refine ⟨after (second ++ [.select [1]]), rfl, fun m hm => ?_⟩
  refine selected_erased someFuel [1] (after second) (after (second ++ [.select [1]])) 1 2 [0] (by decide) (by decide) (by decide) (by decide)
    (by decide) (by decide) (by decide) (fun b h => ?_) (by decide) {11} (fun x _ y hy => ?_) (by decide) (fun x b h => ?_) (by decide)
    (fun x hx => ?_) (fun x hx => ?_) (by decide) rfl m hm
  · have : ((after second).st 1).active = some (11, true) := by decide
    rw [this] at h
    cases h
  · obtain ⟨l, hl, -⟩ := hy
    cases hl
  · have : ((after second).st 1).active = some (11, true) := by decide
    rw [this] at h
    cases h
    decide
  · obtain ⟨l, hl, -⟩ := hx
    cases hl
  · obtain ⟨l, hl, -⟩ := hx
    cases hl

/-- The hypotheses of `background_runs_nothing`: notebook 0 is in the background, cells of notebook 1 are selected, then notebook 0 should run its
cells 2 and 3. -/
example : ∃ w', step someFuel (after (second ++ [.switch 1])) (.select [12]) = .ok w' ∧
    toCells (w'.st 0).table (w'.st 0).data.children false 9 [2, 3] = .ok (some []) := by
  refine ⟨after (second ++ [.switch 1, .select [12]]), rfl, ?_⟩
  refine background_runs_nothing someFuel [12] (after (second ++ [.switch 1])) _ 0 (by decide) (by decide) rfl [2, 3] (fun c hc b => ?_) 9
  have : (after (second ++ [.switch 1])).cells (after (second ++ [.switch 1])).current = [(11, true), (12, true)] := by decide
  rw [this]
  simp only [List.mem_cons, List.not_mem_nil, or_false] at hc
  rcases hc with rfl | rfl <;> simp

/-- Before, it would have run them. -/
example : toCells ((after (second ++ [.switch 1])).st 0).table ((after (second ++ [.switch 1])).st 0).data.children false 9 [2, 3] =
    .ok (some [2, 3]) := by decide

end Verif.Paint
