import Verif.Hide.Props

/-! Concrete tracebacks. -/

namespace Verif.Hide
open Verif Spec

/-- Some names. -/
def names : Names := ⟨"<sandbox".toList, "<traced_lambda>".toList⟩

/-- `IPython`, the cell, a frame of `pyccolo`, a patched `eval`, a sandbox, a function of the user; and, from 10 on, the traceback of another exception, in which there is a
frame of `pyccolo`, too. -/
def frames : Nat → Frame
  | 0 => ⟨false, "interactiveshell.py".toList, "run_code".toList⟩
  | 1 => ⟨false, "<ipython-input-1>".toList, "<module>".toList⟩
  | 2 => ⟨false, "site-packages/pyccolo/tracer.py".toList, "_emit_event".toList⟩
  | 3 => ⟨false, "shell.py".toList, "_patched_eval".toList⟩
  | 4 => ⟨false, "<sandbox 7>".toList, "<module>".toList⟩
  | 5 => ⟨false, "<ipython-input-1>".toList, "f".toList⟩
  | 10 => ⟨false, "<ipython-input-1>".toList, "g".toList⟩
  | 11 => ⟨true, "tracer.py".toList, "h".toList⟩
  | _ => ⟨false, [], []⟩

/-- Two tracebacks: 0, …, 5 and 10, 11. -/
def world : World := ⟨frames, fun n => if n < 5 then some (n + 1) else if n = 10 then some 11 else none⟩

theorem world_main : Tb world.next (some 0) [0, 1, 2, 3, 4, 5] := .cons (.cons (.cons (.cons (.cons (.cons .nil)))))

theorem world_other : Tbs world.next [some 10] [[10, 11]] := .cons (.cons (.cons .nil)) .nil

/-- Which frames are of the machinery. -/
def own (n : Nat) : Bool := decide (n = 2 ∨ n = 3 ∨ n = 4 ∨ n = 11)

/-- Frames 1 and 5 are shown; of the other exception, frame 11 is shown although it is one of the machinery. -/
example : (showtraceback names false 6 world [some 0, some 10]).map Prod.snd = .ok (some [[1, 5], [10, 11]]) := by decide

example : ∃ w' k, showtraceback names false 6 world [some 0, some 10] = .ok (w', some (k :: [[10, 11]])) ∧ k.Sublist [1, 2, 3, 4, 5] ∧
    ∀ n, n ∈ k ↔ n ∈ [1, 2, 3, 4, 5] ∧ ¬ Marked names (frames n) :=
  shown_exact names world_main world_other (by decide) (by decide)

theorem world_told : Told names own world [1, 2, 3, 4, 5] := by
  intro n hn
  rw [← hidden_iff]
  revert n
  decide

example : ∃ w', showtraceback names false 6 world [some 0] = .ok (w', some [[1, 5]]) :=
  shown_partial names own world_main .nil world_told (by simp) (by decide)

/-- The user's function `f` in a file of their package `my_pyccolo_tools` raises: its frame is not shown. -/
def lostWorld : World := ⟨fun n => if n = 2 then ⟨false, "/home/u/my_pyccolo_tools/f.py".toList, "f".toList⟩ else ⟨false, "<ipython-input-1>".toList, "<module>".toList⟩,
  fun n => if n < 2 then some (n + 1) else none⟩

example : (showtraceback names false 3 lostWorld [some 0]).map Prod.snd = .ok (some [[1]]) := by decide

example : ∃ w' k, showtraceback names false 3 lostWorld [some 0] = .ok (w', some [k]) ∧ 2 ∉ k :=
  user_frame_lost names (w := lostWorld) (l := [1, 2]) (show Tb lostWorld.next (some 0) [0, 1, 2] from .cons (.cons (.cons .nil))) .nil (by decide) (by decide) ⟨"/home/u/my_".toList, "_tools/f.py".toList, by decide⟩

example : ∃ w' w'' s, showtraceback names false 6 world [some 0, some 10] = .ok (w', s) ∧ showtraceback names false 6 w' [some 0, some 10] = .ok (w'', s) :=
  again names world_main world_other (by decide) (by decide)

example : showtraceback names true 6 world [some 0, some 10] = .ok (world, some [[1, 2, 3, 4, 5], [10, 11]]) := dev_all names world_main world_other (by decide)

/-- Nothing was raised. -/
example : (showtraceback names false 6 world []).map Prod.snd = .ok none := by decide

end Verif.Hide
