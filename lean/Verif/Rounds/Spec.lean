import Verif.Rounds.Model

/-!
# When a schedule should be asked for -/

namespace Verif.Rounds.Spec
open Verif.Rounds

/-- How many times cells were run together; histories have their newest event first. -/
def rounds : List Event → Nat
  | [] => 0
  | .batch cs :: h => if cs = [] then rounds h else rounds h + 1
  | _ :: h => rounds h

/-- All runs, oldest first: in which round, and of which cell. -/
def started : List Event → List (Nat × Nat)
  | [] => []
  | .batch cs :: h => started h ++ cs.map fun c => (rounds h, c)
  | _ :: h => started h

/-- The client is waiting for the kernel to reply for a run: it is one of a code cell, there was no reply yet, it was not given up, and the cell was not run again. -/
def Open (code : Nat → Bool) : List Event → Nat → Prop
  | [], _ => False
  | .batch cs :: h, k =>
    (Open code h k ∧ ∀ b c, (started h)[k]? = some (b, c) → c ∉ cs) ∨
      ∃ i c, k = (started h).length + i ∧ cs[i]? = some c ∧ code c = true ∧ c ∉ cs.drop (i + 1)
  | .rerun c :: h, k => Open code h k ∧ ∀ b, (started h)[k]? ≠ some (b, c)
  | .reply j _ :: h, k => Open code h k ∧ k ≠ j
  | .cancel j :: h, k => Open code h k ∧ k ≠ j

/-- The kernel has replied for a run that the client was waiting for. -/
def Ended (code : Nat → Bool) : List Event → Nat → Prop
  | [], _ => False
  | .reply j _ :: h, k => Ended code h k ∨ (k = j ∧ Open code h k)
  | _ :: h, k => Ended code h k

/-- All runs of a round have ended. -/
def AllEnded (code : Nat → Bool) (h : List Event) (b : Nat) : Prop :=
  b < rounds h ∧ ∀ k c, (started h)[k]? = some (b, c) → Ended code h k

end Verif.Rounds.Spec
