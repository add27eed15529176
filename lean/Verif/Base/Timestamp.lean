import Mathlib.Order.Basic
import Mathlib.Order.Defs.LinearOrder

/-! # Timestamps (`data_model/timestamp.py`) -/

namespace Verif

/-- `class Timestamp(NamedTuple)`, `data_model/timestamp.py` 36-38. -/
@[ext] structure Timestamp where
  cellNum : Int
  stmtNum : Int
  deriving DecidableEq, Repr

namespace Timestamp

/-- `<` of a `NamedTuple`: tuple comparison, first component first (`data_model/timestamp.py` 36). -/
def ltb (a b : Timestamp) : Bool :=
  if a.cellNum < b.cellNum then true
  else if b.cellNum < a.cellNum then false
  else decide (a.stmtNum < b.stmtNum)

/-- `Timestamp.uninitialized()`, `data_model/timestamp.py` 56-58 and 127. -/
def uninitialized : Timestamp := ⟨-1, -1⟩

/-- `Timestamp.is_initialized`, `data_model/timestamp.py` 60-63. -/
def isInitialized (t : Timestamp) : Bool :=
  decide (t.cellNum > uninitialized.cellNum) && decide (t.stmtNum > uninitialized.stmtNum)

/-- `Timestamp.plus`, `data_model/timestamp.py` 65-68. -/
def plus (t : Timestamp) (cellDelta stmtDelta : Int) : Timestamp :=
  ⟨t.cellNum + cellDelta, t.stmtNum + stmtDelta⟩

/-- The order used by `sorted(..., key=... .timestamp)`: `a` may stand before `b` unless `b < a`. -/
def leb (a b : Timestamp) : Bool := !ltb b a

instance : LT Timestamp := ⟨fun a b => ltb a b = true⟩
instance : LE Timestamp := ⟨fun a b => leb a b = true⟩
instance : DecidableRel (· < · : Timestamp → Timestamp → Prop) := fun a b => inferInstanceAs (Decidable (ltb a b = true))
instance : DecidableRel (· ≤ · : Timestamp → Timestamp → Prop) := fun a b => inferInstanceAs (Decidable (leb a b = true))

theorem lt_def {a b : Timestamp} :
    a < b ↔ a.cellNum < b.cellNum ∨ (a.cellNum = b.cellNum ∧ a.stmtNum < b.stmtNum) := by
  show ltb a b = true ↔ _
  unfold ltb
  split
  · simp_all
  · split
    · simp; omega
    · simp; omega

theorem le_def {a b : Timestamp} :
    a ≤ b ↔ a.cellNum < b.cellNum ∨ (a.cellNum = b.cellNum ∧ a.stmtNum ≤ b.stmtNum) := by
  have h : a ≤ b ↔ ¬ b < a := by
    show leb a b = true ↔ ¬ (ltb b a = true)
    unfold leb; cases ltb b a <;> simp
  rw [h, lt_def]; omega

instance : LinearOrder Timestamp where
  le_refl a := by rw [le_def]; omega
  le_trans a b c := by simp only [le_def]; omega
  lt_iff_le_not_ge a b := by simp only [le_def, lt_def]; omega
  le_antisymm a b := by
    simp only [le_def]; intro h1 h2
    ext <;> omega
  le_total a b := by simp only [le_def]; omega
  toDecidableLE := inferInstance
  toDecidableLT := inferInstance

end Timestamp
end Verif
