import Verif.Chain.Model

/-!
# Vocabulary for C115
-/

namespace Verif.Chain

variable {O : Type} [DecidableEq O]

/-- Evaluating the expression in Python gives the object. -/
inductive Val (w : World O) : Exp → O → Prop
  | var {x o} : w.val x = some o → Val w (.var x) o
  | part {e k o v} : Val w e o → w.get o k = some v → Val w (.part e k) v
  | item {e n i o j v} : Val w e o → Val w i j → w.get o (.sub (w.idx j)) = some v → Val w (.item e n i) v
  | call {e k o f v} : Val w e o → w.get o k = some f → w.ret o k = some v → Val w (.call e k) v

/-- Evaluating the expression reads part `k` of object `o`, which is `v`. The method of a method call is not meant. -/
inductive Reads (w : World O) : Exp → O → Key → O → Prop
  | part {e k o v} : Val w e o → w.get o k = some v → Reads w (.part e k) o k v
  | partIn {e k o k' v} : Reads w e o k' v → Reads w (.part e k) o k' v
  | item {e n i o j v} : Val w e o → Val w i j → w.get o (.sub (w.idx j)) = some v →
      Reads w (.item e n i) o (.sub (w.idx j)) v
  | itemObj {e n i o k v} : Reads w e o k v → Reads w (.item e n i) o k v
  | itemIdx {e n i o k v} : Reads w i o k v → Reads w (.item e n i) o k v
  | callIn {e k o k' v} : Reads w e o k' v → Reads w (.call e k) o k' v

/-- Part `k` of object `o`, or method `k` of it, is asked for. -/
inductive Asks (w : World O) : Exp → O → Key → Prop
  | part {e k o} : Val w e o → Asks w (.part e k) o k
  | partIn {e k o k'} : Asks w e o k' → Asks w (.part e k) o k'
  | item {e n i o j} : Val w e o → Val w i j → Asks w (.item e n i) o (.sub (w.idx j))
  | itemObj {e n i o k} : Asks w e o k → Asks w (.item e n i) o k
  | itemIdx {e n i o k} : Asks w i o k → Asks w (.item e n i) o k
  | call {e k o} : Val w e o → Asks w (.call e k) o k
  | callIn {e k o k'} : Asks w e o k' → Asks w (.call e k) o k'

/-- The variable occurs in the expression. -/
inductive Occurs (x : String) : Exp → Prop
  | var : Occurs x (.var x)
  | part {e k} : Occurs x e → Occurs x (.part e k)
  | itemObj {e n i} : Occurs x e → Occurs x (.item e n i)
  | itemIdx {e n i} : Occurs x i → Occurs x (.item e n i)
  | call {e k} : Occurs x e → Occurs x (.call e k)

/-- Attributes and elements with an index of a supported type. -/
inductive Plain : Key → Prop
  | attr (a) : Plain (.attr a)
  | int (i) : Plain (.sub (.int i))
  | str (s) : Plain (.sub (.str s))
  | other (n) : Plain (.sub (.other n true))

/-- No part is asked of `None` or the shell, and no index is of an unsupported type. -/
def Fine (w : World O) (e : Exp) : Prop := ∀ o k, Asks w e o k → w.skip o = false ∧ Plain k

/-- Where an index is not a variable or a constant but is itself made of parts, the object that is indexed is that of
a variable or is returned by a method. -/
def Safe : Exp → Prop
  | .var _ => True
  | .part e _ => Safe e
  | .call e _ => Safe e
  | .item e _ i => Safe e ∧ Safe i ∧ ((∃ x, i = .var x) ∨ (∃ x, e = .var x) ∨ ∃ e' k, e = .call e' k)

/-- Negative indices of sequences count from the end. -/
def Seq (w : World O) : Prop :=
  ∀ o (n : Nat) (i : Int) v, w.len o = some n → i < 0 → w.get o (.sub (.int i)) = some v →
    w.get o (.sub (.int (n + i))) = some v

/-- No expression is being evaluated. -/
structure Clean (s : St O) : Prop where
  saved : s.saved = none
  first : s.first = none
  top : s.top = none
  active : s.active = none

/-- The symbol is in the tables for one part only, which is not of an unsupported type; symbols of variables and symbols not
yet made are not in the tables. -/
structure Wf (s : St O) : Prop where
  old : ∀ o k a, s.tab o k = some a → a < s.next
  one : ∀ o k o' k' a, s.tab o k = some a → s.tab o' k' = some a → o = o' ∧ k = k'
  plain : ∀ o k a, s.tab o k = some a → Plain k
  vars : ∀ x a, s.vars x = some a → a < s.next ∧ ∀ o k, s.tab o k ≠ some a

/-- The symbol is the one recorded for part `k` of `o`: for an element of a sequence counted from the end it may be under the index
counted from the start. -/
inductive Part (w : World O) (s : St O) (o : O) : Key → Nat → Prop
  | here {k a} : s.tab o k = some a → Part w s o k a
  | fromEnd {i : Int} {n a : Nat} : i < 0 → w.len o = some n → s.tab o (.sub (.int i)) = none →
      s.tab o (.sub (.int (n + i))) = some a → Part w s o (.sub (.int i)) a

/-- The symbol is recorded for the attribute of the class of `o`. -/
def OfClass (s : St O) (o : O) (k : Key) (a : Nat) : Prop :=
  ∃ c x, s.base o = some c ∧ k = .attr x ∧ s.tab c k = some a

/-- Part `k` of `o` is recorded, and as `v`. -/
def Recorded (w : World O) (s : St O) (o : O) (k : Key) (v : O) : Prop := ∃ a, Part w s o k a ∧ s.obj a = v

/-- The expression is more than a variable. -/
def Compound : Exp → Prop
  | .var _ => False
  | _ => True

/-- The last thing the expression does is to read part `k` of `o`. -/
inductive Last (w : World O) : Exp → O → Key → Prop
  | part {e k o} : Val w e o → Last w (.part e k) o k
  | item {e n i o j} : Val w e o → Val w i j → Last w (.item e n i) o (.sub (w.idx j))

end Verif.Chain
