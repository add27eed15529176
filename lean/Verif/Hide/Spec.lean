import Verif.Hide.Model

/-! What a traceback is, and which frames belong to the machinery. -/

namespace Verif.Hide.Spec
open Verif.Hide

/-- The traceback that begins at a node consists of the nodes `l`. -/
inductive Tb (next : Nat → Option Nat) : Option Nat → List Nat → Prop
  | nil : Tb next none []
  | cons {a : Nat} {l : List Nat} : Tb next (next a) l → Tb next (some a) (a :: l)

/-- A frame is recognised as one of the machinery. -/
def Marked (N : Names) (f : Frame) : Prop :=
  f.flag = true ∨ N.sandbox <+: f.file ∨ f.func = N.lam ∨ f.func = "_patched_eval".toList ∨ f.func = "_patched_tracer_eval".toList ∨
    "pyccolo".toList <:+: f.file

/-- `own n`: the frame of `n` is one of the machinery. Just these are recognised. -/
def Told (N : Names) (own : Nat → Bool) (w : World) (l : List Nat) : Prop := ∀ n ∈ l, own n = true ↔ Marked N (w.frame n)

/-- Tracebacks of several exceptions. -/
inductive Tbs (next : Nat → Option Nat) : List (Option Nat) → List (List Nat) → Prop
  | nil : Tbs next [] []
  | cons {t : Option Nat} {l : List Nat} {ts : List (Option Nat)} {ls : List (List Nat)} : Tb next t l → Tbs next ts ls → Tbs next (t :: ts) (l :: ls)

end Verif.Hide.Spec
