/-
Cases that meet the hypotheses, and a slice that does not give the value it is the slice of.
-/
import Verif.Shown.Props

namespace Verif.Shown.Witness
open Verif Verif.Shown

/-- Codes as lists of lines; `oops` does not parse (example for cell.py 534-551, 661-678). -/
def lang : Lang (List String) where
  memo := fun c => match c with
    | "%%memoize" :: rest => some rest
    | _ => none
  empty := []
  parses := fun c => !c.contains "oops"
  clean := fun c => c

/-- Cell 7 is run with `x = 1`, cell 8 with `y = x` (interactiveshell.py 522-623). -/
def ranBoth : List (Event (List String)) :=
  [.run 8 ["y = x"] false, .run 7 ["x = 1"] false, .heard false [(7, ["x = 0"])]]

/-- Then cell 7 is edited to `x = 2` (comm_manager.py 276-351). -/
def edited : List (Event (List String)) :=
  .heard false [(8, ["y = x"]), (7, ["x = 2"])] :: ranBoth

/-- Then cell 7 is run with `x = 3`, and edited back to `x = 1`. -/
def rerun : List (Event (List String)) :=
  .heard false [(7, ["x = 1"])] :: .run 7 ["x = 3"] false :: edited

/-- `shown_exact`, `shown_ran_partial` apply: what is heard but does not parse is not shown. -/
example : shown lang (replay lang (.heard false [(7, ["oops"])] :: ranBoth)) 1 = .ok ["x = 1"] :=
  shown_ran_partial lang [.heard false [(7, ["oops"])], .run 8 ["y = x"] false]
    [.heard false [(7, ["x = 0"])]] 7 ["x = 1"] (by decide) (by decide)

/-- `edit_shown` applies: for the first execution, `x = 2` is shown. -/
example : shown lang (replay lang edited) 1 = .ok ["x = 2"] :=
  edit_shown lang [.run 8 ["y = x"] false] [.heard false [(7, ["x = 0"])]] 7 ["x = 1"] ["x = 2"]
    false [(8, ["y = x"])] [] (by decide) (by decide)
    (by intro e he; simp at he; subst he; decide)

/-- `past_rewritten` applies: it still is when the cell has been run with other code and edited
back, although `x = 2` was never run. -/
example : shown lang (replay lang rerun) 1 = .ok ["x = 2"] :=
  past_rewritten lang [.heard false [(7, ["x = 1"])]] [.run 8 ["y = x"] false]
    [.heard false [(7, ["x = 0"])]] 7 ["x = 1"] ["x = 2"] ["x = 3"] false false [(8, ["y = x"])] []
    (by decide) (by decide) (by intro e he; simp at he; subst he; decide)

/-- `slice_ran_partial` applies to the slice of `y` before the edit. -/
example : texts lang (replay lang ranBoth) [1, 2] = .ok [(1, ["x = 1"]), (2, ["y = x"])] := by rfl

/-- **C142 fails.** The slice of `y`, which is 1, sets `x` to 2. -/
theorem slice_wrong :
    texts lang (replay lang edited) [1, 2] = .ok [(1, ["x = 2"]), (2, ["y = x"])] ∧
    texts lang (replay lang rerun) [1, 2] = .ok [(1, ["x = 2"]), (2, ["y = x"])] ∧
    ∀ n id r, ¬ Ran rerun n id ["x = 2"] r := by
  refine ⟨rfl, rfl, ?_⟩
  rintro n id r ⟨newer, older, h, _⟩
  have : Event.run id ["x = 2"] r ∈ rerun := by rw [h]; simp
  simp [rerun, edited, ranBoth] at this

/-- `slice_entry` applies. -/
example : (1, ["x = 2"]) ∈ [(1, ["x = 2"]), (2, ["y = x"])] :=
  slice_entry lang (edited.take 2) [.heard false [(7, ["x = 0"])]] 7 ["x = 1"] false [1, 2] _ rfl
    (by decide)

/-- `refused_shown` applies. -/
example : shown lang (replay lang (.run 8 ["y = x"] true :: ranBoth)) 3 = .ok ["y = x"] :=
  (refused_shown lang [] ranBoth 8 ["y = x"] rfl).1

/-- `reproduce_exact` applies: what was printed before is printed, for the execution itself and for
the one before it. -/
example : reproduce lang (replay lang rerun) 1 true 0 = .ok (some ["x = 1"], some 1) :=
  reproduce_exact lang (rerun.take 4) [.heard false [(7, ["x = 0"])]] 7 ["x = 1"] false 1 1 0 true
    rfl rfl
example : reproduce lang (replay lang rerun) 3 true 1 = .ok (some ["x = 1"], some 1) :=
  reproduce_exact lang (rerun.take 4) [.heard false [(7, ["x = 0"])]] 7 ["x = 1"] false 3 0 1 true
    rfl rfl

/-- `reproduce_beyond` applies in both ways: cell 7 was heard of before it was run, cell 8 not. -/
example : reproduce lang (replay lang rerun) 3 false 2 = .ok (none, none) := by rfl
example : reproduce lang (replay lang rerun) 2 false 1 = .error .crash := by rfl
example : HeardFirst 7 rerun :=
  ⟨rerun.take 5, [], false, [(7, ["x = 0"])], ["x = 0"], rfl, by simp, by simp⟩

/-- **C142 fails.** `%%memoize` without code is shown as code. -/
theorem empty_memo : shown lang (replay lang [.run 1 ["%%memoize"] false]) 1 = .ok ["%%memoize"] ∧
    lang.body ["%%memoize"] = [] := ⟨rfl, rfl⟩

/-- `shown_iff` is not vacuous on either side. -/
example : ¬ ∃ c, shown lang (replay lang rerun) 4 = .ok c := by
  rw [shown_iff]
  decide

end Verif.Shown.Witness
