import Verif.Place.Model

/-!
# What should be recorded when a part of an object is assigned to

Stated about Python objects and the tables of what is recorded, without the functions of the model.
-/

namespace Verif.Place.Spec
open Verif Verif.Chain Verif.Place

variable {O : Type}

/-- The index means the same element: `x[-1]` and `x[2]` of a list with three elements. -/
inductive Same (w : World O) (o : O) : Key → Key → Prop
  | refl (k : Key) : Same w o k k
  | neg {n : Nat} {i : Int} : w.len o = some n → i < 0 → Same w o (.sub (.int i)) (.sub (.int (n + i)))
  | pos {n : Nat} {i : Int} : w.len o = some n → i < 0 → Same w o (.sub (.int (n + i))) (.sub (.int i))

/-- Everything that is recorded about parts of objects is so. -/
def Accurate (g : O → Key → Option O) (s : St O) : Prop := ∀ o k a, (k, a) ∈ s.tab o → g o k = some (s.obj a)

/-- The statement changed nothing but its targets: `h` is what there was before. -/
def OnlyAt (w : World O) (h : O → Key → Option O) (ls : List (Leaf O)) : Prop :=
  ∀ o k, (∀ l ∈ ls, l.o = o → ¬ Same w o l.k k) → w.get o k = h o k

/-- Tables are dictionaries, no symbol is in two places, new symbols are new, and objects without a namespace have no
recorded parts. -/
structure Wf (s : St O) : Prop where
  keys : ∀ o, (Assoc.keys (s.tab o)).Nodup
  once : ∀ o o' k k' a, (k, a) ∈ s.tab o → (k', a) ∈ s.tab o' → o = o' ∧ k = k'
  fresh : ∀ o k a, (k, a) ∈ s.tab o → a < s.next
  unmade : ∀ o, s.made o = false → s.tab o = []

/-- `p` is `o` or contains it, according to the parents of namespaces. -/
inductive Above (par : O → Option O) : O → O → Prop
  | refl (o : O) : Above par o o
  | up {o q p : O} : par o = some q → Above par q p → Above par o p

/-- `p` contains `o` and is not just `o` itself. -/
def Outside (par : O → Option O) (o p : O) : Prop := ∃ q, par o = some q ∧ Above par q p

/-- A chain of parents has an end. -/
inductive Ends (par : O → Option O) : O → Nat → Prop
  | last {o : O} {n : Nat} : par o = none → Ends par o (n + 1)
  | up {o q : O} {n : Nat} : par o = some q → Ends par q n → Ends par o (n + 1)

/-- Both are attributes, or both are elements. -/
def Alike : Key → Key → Prop
  | .attr _, .attr _ => True
  | .sub _, .sub _ => True
  | _, _ => False

/-- `v` is recorded as a part of `p` of the kind of `k`, or as something of the class of `p`. -/
def Has (s : St O) (p : O) (k : Key) (v : O) : Prop :=
  (∃ k' a, (k', a) ∈ s.tab p ∧ Alike k' k ∧ s.obj a = v) ∨
  (∃ c, s.base p = some c ∧ ∃ k' a, (k', a) ∈ s.tab c ∧ s.obj a = v)

/-- No object around `o` has `v`. -/
def Lone (s : St O) (o : O) (k : Key) (v : O) : Prop := ∀ p, Outside s.parent o p → ¬ Has s p k v

/-- `r` is the outermost of the objects around `o`, and `o` itself, that have `v`. -/
def Outermost (s : St O) (o : O) (k : Key) (v : O) (r : O) : Prop :=
  Above s.parent o r ∧ Has s r k v ∧ ∀ p, Outside s.parent r p → ¬ Has s p k v

/-- `q` is around `o`, or the class of an object around `o`. -/
def Seen (s : St O) (o q : O) : Prop := ∃ p, Outside s.parent o p ∧ (q = p ∨ s.base p = some q)

/-- The first target does not matter to the second. -/
def Apart (w : World O) (s : St O) (l l' : Leaf O) : Prop :=
  ¬ Seen s l'.o l.o ∧ ∀ v, w.get l.o l.k = some v → v ≠ l'.o ∧ ¬ Seen s l'.o v

/-- The value that the tracer takes for the one stored is the one stored: objects that are not lists or dictionaries are
asked, and for those, all targets get the value on the right. -/
def Announced (w : World O) (off : Bool) (rhs : O) (l : Leaf O) : Prop :=
  w.table l.o = true → (off = true ∧ rhs = w.nil) ∨ w.get l.o l.k = some rhs

/-- Symbol `a` is recorded for part `k` of `o`. -/
def At (s : St O) (o : O) (k : Key) (a : Nat) : Prop := (k, a) ∈ s.tab o

end Verif.Place.Spec
