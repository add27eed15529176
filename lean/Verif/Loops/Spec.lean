import Verif.Loops.Model

/-! What Python does, without any bookkeeping, and sessions in which what the tracer does not see makes no difference. -/

namespace Verif.Loops.Spec
open Verif.Loops

/-- The sum of variables; an unset variable raises. -/
def sum (ρ : Env) : List Nat → Option Int
  | [] => some 0
  | y :: r => (ρ y).bind fun n => (sum ρ r).map (n + ·)

/-- A loop over values. -/
def each (body : Env → Option Env) (i : Nat) : List Int → Env → Option Env
  | [], ρ => some ρ
  | v :: r, ρ => (body (fun y => if y = i then some v else ρ y)).bind (each body i r)

/-- A loop with a condition, of at most so many iterations. -/
def whilst (body : Env → Option Env) (y : Nat) : Nat → Env → Option Env
  | 0, _ => none
  | n + 1, ρ => (ρ y).bind fun v => if v = 0 then some ρ else (body ρ).bind (whilst body y n)

/-- A statement; `none` if it raises or some `while` has more than `F` iterations. -/
def exec (F : Nat) : S → Env → Option Env
  | .pass, ρ => some ρ
  | .set x c ys, ρ => (sum ρ ys).map fun n => fun y => if y = x then some (c + n) else ρ y
  | .seq a b, ρ => (exec F a ρ).bind (exec F b)
  | .ite y a b, ρ => (ρ y).bind fun v => if v = 0 then exec F b ρ else exec F a ρ
  | .for_ i y b, ρ => (ρ y).bind fun n => each (exec F b) i ((List.range n.toNat).map Int.ofNat) ρ
  | .while_ y b, ρ => whilst (exec F b) y (F + 1) ρ

/-- A program. -/
def runAll (F : Nat) : List S → Env → Option Env
  | [], ρ => some ρ
  | s :: r, ρ => (exec F s ρ).bind (runAll F r)

/-- The variables after the cells, newest first. -/
def notebook (F : Nat) : List (List S) → Option Env
  | [] => some fun _ => none
  | c :: h => (notebook F h).bind (runAll F c)

/-- The variables that were set. -/
def written : List Ev → List Nat
  | [] => []
  | .wr _ x _ :: r => x :: written r
  | _ :: r => written r

/-- The variables that were set under the tracer. -/
def seenSet : List Ev → List Nat
  | [] => []
  | .wr true x _ :: r => x :: seenSet r
  | _ :: r => seenSet r

/-- The variables that were set while the tracer was off. -/
def unseenSet : List Ev → List Nat
  | [] => []
  | .wr false x _ :: r => x :: unseenSet r
  | _ :: r => unseenSet r

/-- The variables whose value from before was read. -/
def needs : List Ev → List Nat
  | [] => []
  | .rd y :: r => y :: needs r
  | .wr _ x _ :: r => (needs r).filter (· ≠ x)
  | _ :: r => needs r

/-- The variables that the tracer took note of before they were set. -/
def noted : List Ev → List Nat
  | [] => []
  | .nt y :: r => y :: noted r
  | .wr _ x _ :: r => (noted r).filter (· ≠ x)
  | _ :: r => noted r

/-- The variables of loops without iterations which had a value already. -/
def touched : List Ev → List Nat
  | [] => []
  | .touch i (some _) :: r => i :: touched r
  | _ :: r => touched r

/-- The variables that occur in the statement other than as targets. -/
def uses : S → List Nat
  | .pass => []
  | .set _ _ ys => ys
  | .seq a b => uses a ++ uses b
  | .ite y a b => y :: (uses a ++ uses b)
  | .for_ _ y b => y :: uses b
  | .while_ y b => y :: uses b

/-- What the tracer misses of a statement makes no difference. `before` are the variables that the cell has set so far, `loose` those it has set
while the tracer was off. If the statement reads a variable that the cell has set, the tracer takes note of it. If it sets a variable, the tracer
sees that, or the statement has read it too and the cell has not set it while the tracer was off. If it mentions a variable that the cell has set
while the tracer was off, it sets it or the tracer takes note of it. And no loop has no iteration while its variable exists. -/
def Plain (before loose : List Nat) (s : S) (l : List Ev) : Prop :=
  (∀ y ∈ needs l, y ∈ before → y ∈ noted l) ∧
  (∀ x ∈ written l, x ∈ seenSet l ∨ (x ∈ needs l ∧ x ∉ loose)) ∧
  (∀ y ∈ uses s, y ∈ loose → y ∈ noted l ∨ y ∈ written l) ∧
  touched l = []

instance (b o : List Nat) (s : S) (l : List Ev) : Decidable (Plain b o s l) := by unfold Plain; infer_instance

/-- All statements of a cell are like this. -/
def PlainCell (F : Nat) (e : Env) (before loose : List Nat) : List S → Prop
  | [] => True
  | s :: r =>
    match go F s true e with
    | none => True
    | some (l, e') => Plain before loose s l ∧ PlainCell F e' (written l ++ before) (unseenSet l ++ loose) r

instance decPlainCell (F : Nat) : ∀ (c : List S) (e : Env) (before loose : List Nat), Decidable (PlainCell F e before loose c)
  | [], _, _, _ => isTrue trivial
  | s :: r, e, before, loose => by
    unfold PlainCell
    cases go F s true e with
    | none => exact isTrue trivial
    | some p =>
      have := decPlainCell F r p.2 (written p.1 ++ before) (unseenSet p.1 ++ loose)
      exact inferInstanceAs (Decidable (_ ∧ _))

/-- All cells are like this. -/
def PlainAll (F : Nat) : List (List S) → Prop
  | [] => True
  | c :: h => (∀ e, notebook F h = some e → PlainCell F e [] [] c) ∧ PlainAll F h

/-- The statement has no loops. -/
def NoLoop : S → Prop
  | .pass => True
  | .set _ _ _ => True
  | .seq a b => NoLoop a ∧ NoLoop b
  | .ite _ a b => NoLoop a ∧ NoLoop b
  | .for_ _ _ _ => False
  | .while_ _ _ => False

end Verif.Loops.Spec
