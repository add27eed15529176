import Verif.Watch.Model

/-! When a program with watchpoints should stop. -/

namespace Verif.Watch.Spec
open Verif.Watch

/-- One of the watchpoints has no predicate or one that is true for `v`. -/
def Passes (ps : List Pred) (v : Int) : Prop := none ∈ ps ∨ ∃ f, some f ∈ ps ∧ f v = some true

/-- The watchpoints after an execution. -/
def after (w : Nat → List Pred) (e : Ev) : Nat → List Pred :=
  match e.act with
  | .watch x p => fun y => if y = x then w y ++ [p] else w y
  | _ => w

/-- The value that a list of assignments leaves in a variable. -/
def final (l : List (Nat × Int)) (x : Nat) : Option Int := (l.reverse.find? (fun q => q.1 == x)).map Prod.snd

/-- The execution gives a variable a value for which one of its watchpoints passes. -/
def Triggers (w : Nat → List Pred) (e : Ev) : Prop :=
  match e.act with
  | .assign l => ∃ x v, final l x = some v ∧ Passes (w x) v
  | _ => False

/-- The executions of a session, each with the number of its cell. -/
def flat : Nat → List (List Ev) → List (Nat × Ev)
  | _, [] => []
  | i, c :: r => c.map (fun e => (i, e)) ++ flat (i + 1) r

/-- The watchpoints after executions. -/
def watched (w : Nat → List Pred) (l : List (Nat × Ev)) : Nat → List Pred := l.foldl (fun w e => after w e.2) w

/-- The program should stop after execution number `k`. -/
def ShouldStop (cells : List (List Ev)) (k : Nat) : Prop :=
  ∃ pre e post, flat 0 cells = pre ++ e :: post ∧ pre.length = k ∧ Triggers (watched (fun _ => []) pre) e.2

/-- It is the first time that the statement is executed in its cell, and tracing is on. -/
def First (cells : List (List Ev)) (k : Nat) : Prop :=
  ∃ pre e post, flat 0 cells = pre ++ e :: post ∧ pre.length = k ∧ e.2.traced = true ∧
    ∀ d ∈ pre, d.1 = e.1 → d.2.traced = true → d.2.sid ≠ e.2.sid

/-- No predicate raises. -/
def Safe (cells : List (List Ev)) : Prop :=
  ∀ e ∈ flat 0 cells, ∀ x f, e.2.act = .watch x (some f) → ∀ v, f v ≠ none

/-- Every statement is executed once in its cell, with tracing on. -/
def Once (cells : List (List Ev)) : Prop := ∀ c ∈ cells, (c.map Ev.sid).Nodup ∧ ∀ e ∈ c, e.traced = true

end Verif.Watch.Spec
