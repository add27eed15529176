import Verif.Rebind.Model

/-!
# Vocabulary for C113
-/

namespace Verif.Rebind
open Verif

/-- The part `k` of object `o` is known, as symbol `s`. -/
def Known (st : St) (o : Nat) (b : Bool) (k s : Nat) : Prop := (k, s) ∈ st.tab o b

/-- Looking up the part `k` of an object gives `v`: attributes by `getattr`, items by `[]`, items
of a `defaultdict` never (looking would change it). -/
inductive Has (w : Nat → Obj) : Nat → Bool → Nat → Nat → Prop
  | attr {o k v : Nat} : (w o).attr k = .val v → Has w o false k v
  | item {o k v : Nat} : (w o).defaultdict = false → (w o).item k = .val v → Has w o true k v

/-- Looking for `k` says that it is not there. -/
inductive Misses (w : Nat → Obj) : Nat → Bool → Nat → Prop
  | attr {o k : Nat} : (w o).attr k = .missAttr → Misses w o false k
  | item {o k : Nat} : (w o).defaultdict = false → (w o).item k = .missItem → Misses w o true k

/-- Looking for `k` is refused with a `TypeError`: the object has no parts of this kind. -/
inductive Refuses (w : Nat → Obj) : Nat → Bool → Nat → Prop
  | attr {o k : Nat} : (w o).attr k = .typeErr → Refuses w o false k
  | item {o k : Nat} : (w o).item k = .typeErr → Refuses w o true k
  | default {o k : Nat} : (w o).defaultdict = true → Refuses w o true k

/-- Looking for `k` raises an error of the program, as a property or `__getitem__` may. -/
inductive Raises (w : Nat → Obj) : Nat → Bool → Nat → Prop
  | attr {o k : Nat} : (w o).attr k = .other → Raises w o false k
  | item {o k : Nat} : (w o).defaultdict = false → (w o).item k = .other → Raises w o true k

/-- The parts known are named after the object they are in: a name occurs once in a table, a
symbol is in one place, its path is the one of its place. -/
structure Wf (st : St) : Prop where
  once : ∀ o b, (Assoc.keys (st.tab o b)).Nodup
  place : ∀ o b k s, Known st o b k s → (st.sym s).home = some o
  apart : ∀ o b k s o' b' k', Known st o b k s → Known st o' b' k' s → o = o' ∧ b = b' ∧ k = k'
  path : ∀ o b k s p, Known st o b k s → st.path o = some p → (st.sym s).path = p ++ [k]
  none : ∀ o b k s, Known st o b k s → st.path o ≠ none

end Verif.Rebind
