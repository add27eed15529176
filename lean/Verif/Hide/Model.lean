import Verif.Base.Dfs

/-!
# Which frames a traceback shows

Models `filter_hidden_frames` and `showtraceback`, `core/ipyflow/shell/interactiveshell.py` 705-739. Cells run with calls into the tracing machinery added, which show up in
the traceback when something raises; before the traceback is shown, such frames are unlinked from it. The traceback is a linked list that is changed in place, so tracebacks
are modelled as nodes with a pointer to the next one.

Simplified: `IPython` is not part of the repository. That it shows the nodes from the second on of the traceback it is given (the first is its own frame, `tb_offset=1`), and all
of the tracebacks of the exceptions that the raised one came from, is part of the model (`shown`). The names used by the machinery are parameters (`Names`); they are defined in
`pyccolo`. -/

namespace Verif.Hide
open Verif

/-- Texts. -/
abbrev Text := List Char

/-- Names that come from `pyccolo`: `core/ipyflow/shell/interactiveshell.py` 13-19. -/
structure Names where
  /-- `SANDBOX_FNAME_PREFIX` -/
  sandbox : Text
  /-- `TRACED_LAMBDA_NAME` -/
  lam : Text

/-- What is looked at in a frame, `interactiveshell.py` 712-721: a local variable, the file, and the name of the function. -/
structure Frame where
  /-- `frame.f_locals.get(HIDE_PYCCOLO_FRAME, False)` -/
  flag : Bool
  file : Text
  func : Text
  deriving DecidableEq

/-- The nodes of tracebacks: `tb_frame` and `tb_next`, `interactiveshell.py` 710, 723-726. -/
structure World where
  frame : Nat → Frame
  next : Nat → Option Nat

/-- `sub in text`, `interactiveshell.py` 722. -/
def within (sub : Text) : Text → Bool
  | [] => sub.isEmpty
  | c :: t => sub.isPrefixOf (c :: t) || within sub t

/-- `should_filter`, `interactiveshell.py` 712-722. -/
def hidden (N : Names) (f : Frame) : Bool :=
  f.flag || N.sandbox.isPrefixOf f.file ||
    (decide (f.func = N.lam) || decide (f.func = "_patched_eval".toList) || decide (f.func = "_patched_tracer_eval".toList)) ||
    within "pyccolo".toList f.file

/-- `prev.tb_next = t`, `interactiveshell.py` 723-724. -/
def World.link (w : World) (p : Nat) (t : Option Nat) : World := { w with next := fun n => if n = p then t else w.next n }

/-- The loop of `filter_hidden_frames`, `interactiveshell.py` 706-726. -/
def loop (N : Names) : Nat → World → Option Nat → Option Nat → Except Err World
  | _, w, _, none => .ok w
  | 0, _, _, some _ => .error .fuel
  | n + 1, w, none, some t => loop N n w (some t) (w.next t)
  | n + 1, w, some p, some t =>
    if hidden N (w.frame t) then loop N n (w.link p (w.next t)) (some p) ((w.link p (w.next t)).next t)
    else loop N n w (some t) (w.next t)

/-- The nodes of a traceback. `IPython` walks along `tb_next`, as `interactiveshell.py` 726. -/
def nodes (next : Nat → Option Nat) : Nat → Option Nat → Except Err (List Nat)
  | _, none => .ok []
  | 0, some _ => .error .fuel
  | n + 1, some t => (nodes next n (next t)).bind fun l => .ok (t :: l)

/-- The tracebacks of several exceptions. `super().showtraceback`, `interactiveshell.py` 739. -/
def allNodes (next : Nat → Option Nat) (fuel : Nat) : List (Option Nat) → Except Err (List (List Nat))
  | [] => .ok []
  | t :: ts => (nodes next fuel t).bind fun l => (allNodes next fuel ts).bind fun ls => .ok (l :: ls)

/-- `showtraceback`, `interactiveshell.py` 728-739: the nodes that are shown, for the exception that was raised and for those it came from (`causes`); `none`: "No traceback
available to show." `dev`: `PYCCOLO_DEV_MODE` is set. -/
def showtraceback (N : Names) (dev : Bool) (fuel : Nat) (w : World) : List (Option Nat) → Except Err (World × Option (List (List Nat)))
  | [] => .ok (w, none)
  | tb :: causes =>
    (if dev then .ok w else loop N fuel w none tb).bind fun w' =>
      (nodes w'.next fuel tb).bind fun l =>
        (allNodes w'.next fuel causes).bind fun ls => .ok (w', some (l.drop 1 :: ls))

end Verif.Hide
