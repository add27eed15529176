import Verif.Writes.Model

/-!
# Writes of a cell

Without the functions of the model.
-/

namespace Verif.Writes

variable {S N : Type}

/-- A write stored the symbol, as the variable itself or as a part of the value. -/
def Write.Stores (w : Write S N) (s : S) : Prop := s = w.sym ∨ s ∈ w.members

/-- The symbol was stored in the cell. -/
def Wrote (evs : List (Ev S N)) (s : S) : Prop := ∃ w, Ev.write w ∈ evs ∧ w.Stores s

/-- What the cell is recorded to have written. -/
def recorded (st : St S) (s : S) : Prop := s ∈ st.statics ∨ s ∈ st.dynamics

/-- The stored symbol is a variable (not an attribute or element), and its value has no
attributes or elements that are known. -/
def Write.Scalar (w : Write S N) : Prop := w.containing w.sym = none ∧ w.ns = none

/-- `m` is an attribute or element of the value. -/
def Write.Part (w : Write S N) (m : S) : Prop :=
  m ∈ w.members ∧ w.ns ≠ none ∧ w.containing m = w.ns

end Verif.Writes
