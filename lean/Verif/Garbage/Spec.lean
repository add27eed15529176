import Verif.Garbage.Model

/-!
# What is to be kept and what is not

Stated without symbols, marks and tables: only what the notebook did to its names matters.
-/

namespace Verif.Garbage.Spec
open Verif Verif.Garbage

variable {O K : Type} [DecidableEq O] [DecidableEq K]

/-- What names stand for: `heap none` are the variables, `heap (some p)` the parts of `p`. -/
abbrev Heap (O K : Type) := Option O → K → Option O

/-- The object is a variable's, or a part of such an object, and so on. -/
inductive Named (heap : Heap O K) : O → Prop where
  | var (k : K) (o : O) : heap none k = some o → Named heap o
  | part (p : O) (k : K) (o : O) : Named heap p → heap (some p) k = some o → Named heap o

/-- Variables, or parts of something that is named. -/
def Home (heap : Heap O K) (h : Option O) : Prop := ∀ p, h = some p → Named heap p

/-- No object is a part of a part ... of itself. -/
def Acyclic (heap : Heap O K) : Prop := WellFounded fun p o => ∃ k, heap (some p) k = some o

/-- What the notebook did: what names stand for, what they stood for at or since the last collection (names that were
deleted since then are not left out), and of which objects parts were used. -/
structure Notebook (O K : Type) where
  heap : Heap O K
  hist : Option O → K → O → Prop
  opened : O → Prop

/-- Nothing was done. -/
def Notebook.new : Notebook O K := ⟨fun _ _ => none, fun _ _ _ => False, fun _ => False⟩

/-- The name `k` of `h` now stands for `v`. -/
def assign (heap : Heap O K) (h : Option O) (k : K) (v : Option O) : Heap O K :=
  fun h' k' => if h' = h ∧ k' = k then v else heap h' k'

/-- What an operation does. -/
def after (g : Notebook O K) : Op O K → Notebook O K
  | .bind h k o => ⟨assign g.heap h k (some o), fun h' k' o' => if h' = h ∧ k' = k then o' = o else g.hist h' k' o', g.opened⟩
  | .delete h k _ => ⟨assign g.heap h k none, g.hist, g.opened⟩
  | .openNs o => ⟨g.heap, g.hist, fun o' => o' = o ∨ g.opened o'⟩
  | .gc => ⟨g.heap, fun h k o => g.heap h k = some o ∧ (Acyclic g.heap → Home g.heap h), g.opened⟩

/-- The operations for which the claims hold.
* Only parts of named objects are used.
* An object of which parts were used is not named again once nothing named it.
* A name that was deleted is not used again before the next collection.
* When a name gets another object, then the former one is named otherwise, or none of its names were lost since the
  last collection (or parts of it were never used).
* No elements are deleted. -/
def Allowed (g : Notebook O K) : Op O K → Prop
  | .bind h k o =>
    Home g.heap h ∧ (∀ p, h = some p → g.opened p) ∧ (Named g.heap o ∨ ¬g.opened o) ∧
    (∀ c, g.hist h k c → g.heap h k = some c) ∧
    (∀ c, g.heap h k = some c → c ≠ o →
      ¬g.opened c ∨ Named (assign g.heap h k (some o)) c ∨ ∀ h' k', g.hist h' k' c → g.heap h' k' = some c ∧ Home g.heap h')
  | .delete h k sub => Home g.heap h ∧ (sub = false ∨ g.heap h k = none)
  | .openNs o => Named g.heap o
  | .gc => True

/-- All operations are allowed. -/
def Fine (g : Notebook O K) : List (Op O K) → Prop
  | [] => True
  | op :: l => Allowed g op ∧ Fine (after g op) l

/-- Several operations. -/
def history (g : Notebook O K) (l : List (Op O K)) : Notebook O K := l.foldl after g

/-- What the tracker does with several operations. -/
inductive Runs (n : Nat) : St O K → List (Op O K) → St O K → Prop where
  | nil (s) : Runs n s [] s
  | cons (s s1 s2 op l) : step n s op = .ok s1 → Runs n s1 l s2 → Runs n s (op :: l) s2

/-- The tracker has a reference to the object: a namespace has one, or a symbol. -/
def Held (s : St O K) (o : O) : Prop := s.made o = true ∨ s.names o ≠ []

/-- The tracker knows that the name `k` of `h` stands for `o`. -/
def Recorded (s : St O K) (h : Option O) (k : K) (o : O) : Prop := ∃ a, (k, a) ∈ s.tab h ∧ s.obj a = some o

end Verif.Garbage.Spec
