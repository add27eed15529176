import Verif.Frames.Model

/-!
# Executions with calls

The frames of Python, and what the tracer is told of what happens to them. -/

namespace Verif.Frames

/-- A frame of Python. -/
structure Frame (G N : Type) where
  frame : G
  /-- how many frames of the user or of libraries there are up to it -/
  depth : Nat
  /-- a frame of the notebook that was entered while tracing was on: it runs instrumented code, and its end is seen -/
  seen : Bool
  /-- the call by which it was entered -/
  site : Option N

/-- What can happen. -/
inductive Act (G F N R D : Type) where
  /-- a function of the notebook is called -/
  | call (g : G) (f : F) (n : N) (depth : Nat) (deep : Bool)
  /-- a function of a library is called -/
  | lib (g : G) (depth : Nat)
  /-- the last frame is left -/
  | leave (ret : Option (R × List D))
  /-- a statement begins or ends, or a call is done (`stmt` is false), in the last frame -/
  | event (stmt fin : Bool)
  /-- the end of the first iteration of a loop in the last frame -/
  | iter

variable {G F N R D : Type} [DecidableEq F] [DecidableEq N] [DecidableEq R]

/-- A frame with those below it, and the tracer. -/
structure World (G F N R D : Type) where
  top : Frame G N
  below : List (Frame G N)
  st : St G F N R D

/-- One step. A called function is seen if tracing is on after the call. -/
def act (w : World G F N R D) : Act G F N R D → World G F N R D
  | .call g f n depth deep =>
    let st := call g f n depth deep w.st
    { top := { frame := g, depth := depth, seen := st.enabled, site := some n }
      below := w.top :: w.below
      st := st }
  | .lib g depth =>
    { top := { frame := g, depth := depth, seen := false, site := none }
      below := w.top :: w.below
      st := w.st }
  | .leave ret =>
    match w.below with
    | [] => w
    | f :: rest =>
      { top := f
        below := rest
        st := if w.top.seen then leave w.top.depth ret w.st else w.st }
  | .event stmt fin => { w with st := event w.top.depth fin (stmt && w.below.isEmpty) w.st }
  | .iter => { w with st := disable w.top.depth w.st }

/-- What can happen in a frame: frames lie above each other; only frames that are seen tell about their statements. -/
def Can (w : World G F N R D) : Act G F N R D → Prop
  | .call _ _ _ depth _ => w.top.depth < depth
  | .lib _ depth => w.top.depth ≤ depth
  | .leave _ => w.below ≠ []
  | .event _ _ => w.top.seen = true
  | .iter => w.top.seen = true

/-- A cell begins. -/
def start (g : G) : World G F N R D where
  top := { frame := g, depth := 1, seen := true, site := none }
  below := []
  st :=
    { enabled := true
      disabledAt := 0
      cur := { frame := g, depth := 1, site := none }
      stack := []
      last := []
      done := []
      loaded := [] }

/-- What is reached while a cell is run. -/
inductive Reached (g : G) : World G F N R D → Prop
  | start : Reached g (start g)
  | step {w a} : Reached g w → Can w a → Reached g (act w a)

/-- The frames that are seen, the last first. -/
def seen (w : World G F N R D) : List (Frame G N) := (w.top :: w.below).filter Frame.seen

/-- What is done one after the other is possible each time. -/
def Valid (w : World G F N R D) : List (Act G F N R D) → Prop
  | [] => True
  | a :: l => Can w a ∧ Valid (act w a) l

/-- The calls by which functions of the notebook are entered. -/
def sitesOf : List (Act G F N R D) → List N
  | [] => []
  | .call _ _ n _ _ :: l => n :: sitesOf l
  | _ :: l => sitesOf l

/-- The `return` statements by which frames are left. -/
def retsOf : List (Act G F N R D) → List R
  | [] => []
  | .leave (some (r, _)) :: l => r :: retsOf l
  | _ :: l => retsOf l

/-- Nothing turns tracing off by itself: no loop gets to the end of an iteration, no call comes from too deep inside libraries. -/
def Calm : List (Act G F N R D) → Prop
  | [] => True
  | .iter :: _ => False
  | .call _ _ _ _ deep :: l => deep = false ∧ Calm l
  | _ :: l => Calm l

/-- What the result of a call should depend on, as far as the `return` statement goes. -/
def fromReturn : Option N → Option (R × List D) → List (N × D)
  | some n, some (_, ds) => ds.map fun d => (n, d)
  | _, _ => []

/-- The dependencies of all results, given the calls by which the present frames were entered, the last first. -/
def expected : List (Option N) → List (Act G F N R D) → List (N × D)
  | _, [] => []
  | l, .call _ _ n _ _ :: as => expected (some n :: l) as
  | l, .lib _ _ :: as => expected (none :: l) as
  | l, .leave ret :: as => fromReturn (l.head?.join) ret ++ expected l.tail as
  | l, .event _ _ :: as => expected l as
  | l, .iter :: as => expected l as

end Verif.Frames
