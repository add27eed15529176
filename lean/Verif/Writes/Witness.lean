import Verif.Writes.Props

/-!
# Cases for writes of cells

Symbol 0 is the variable `x`, symbols 1 and 2 its elements, symbol 3 the variable `y`.
-/

namespace Verif.Writes

/-- The elements of the list are in namespace 7. -/
def wcont : Nat → Option Nat := fun s => if s = 1 ∨ s = 2 then some 7 else none

/-- `y = 5` -/
def wy : Write Nat Nat := ⟨3, true, none, [], wcont⟩
/-- `x = [1, 2]` -/
def wx : Write Nat Nat := ⟨0, true, some 7, [1, 2], wcont⟩
/-- `x = [1, 2]` inside a loop -/
def wxl : Write Nat Nat := ⟨0, false, some 7, [1, 2], wcont⟩
/-- `x[0] = 5` -/
def wx0 : Write Nat Nat := ⟨1, true, none, [], wcont⟩

example : recorded (run ([.stmtEnd] ++ .write wy :: [.write wx] ++ [.stmtEnd])) 3 :=
  written_recorded_partial [.stmtEnd] [.write wx] wy (Or.inl ⟨rfl, rfl⟩)

example : recorded (run ([.write wx] ++ .write wxl :: [.stmtEnd, .write wx] ++ [.stmtEnd])) 0 :=
  written_recorded_partial [.write wx] [.stmtEnd, .write wx] wxl
    (Or.inr ⟨rfl, 1, by decide, by decide, rfl⟩)

example : recorded (run ([.write wy] ++ .write wx :: [] ++ [.stmtEnd])) 2 ∨
    recorded (run ([.write wy] ++ .write wx :: [] ++ [.stmtEnd])) 0 :=
  parts_recorded [.write wy] [] wx 2 ⟨by decide, by decide, rfl⟩

example : Wrote [.write wx, .write wy, .stmtEnd] 2 :=
  only_written _ 2 (Or.inl (by decide))

example : ∃ w, Ev.write w ∈ [Ev.write wx, .write wy, .stmtEnd] ∧ w.Stores 2 ∧ w.isStatic = true :=
  static_origin _ 2 (by decide)

example : ¬ (0 ∈ (run [.write wxl, .stmtEnd, .write wx]).statics ∧
    0 ∈ (run [.write wxl, .stmtEnd, .write wx]).dynamics) :=
  static_or_dynamic _ 0

example : 0 ∈ (run ([.write wxl, .stmtEnd] ++ [.write wx, .stmtEnd])).dynamics ∧
    0 ∉ (run ([.write wxl, .stmtEnd] ++ [.write wx, .stmtEnd])).statics :=
  stays_dynamic _ _ 0 (by decide)

/-- `x[0] = 5` leaves no trace. -/
example : step (run [.write wy, .stmtEnd]) (.write wx0) = run [.write wy, .stmtEnd] :=
  element_unrecorded _ wx0 (by decide) rfl rfl

/-- After the cell `x = [1, 2]` the variable `x` is not among the writes of the cell. -/
theorem list_unrecorded : ¬ recorded (run [.write wx, .stmtEnd]) 0 := by
  rintro (h | h) <;> revert h <;> decide

example : ¬ recorded (step (run [.write wy, .stmtEnd]) (.write wx)) 0 :=
  container_unrecorded _ wx rfl rfl (by decide) (by decide) (by decide)
    (by rintro (h | h) <;> revert h <;> decide)

end Verif.Writes
