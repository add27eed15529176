import Verif.Declare.Props

/-!
# Declared reads and writes: cases -/

namespace Verif.Declare

private def py : Meta := ⟨1, true, none, none⟩
/-- A cell of SQL that reads 7 and writes 8. -/
private def sql : Meta := ⟨2, false, some [7], some [8]⟩
private def plain : Meta := ⟨2, true, none, none⟩

/-- The kernel is told of the cell before anything is declared for it. -/
example : Fine [.told [py, plain]] [py, sql] := fun m hm hn => by
  simp only [List.mem_cons, List.not_mem_nil, or_false] at hm
  rcases hm with rfl | rfl
  · rcases hn with ⟨r, rs, h⟩ | ⟨r, rs, h⟩ <;> cases h
  · refine .inr ⟨fun m hm hn => ?_, plain, by simp, rfl, rfl⟩
    simp only [List.mem_cons, List.not_mem_nil, or_false] at hm
    rcases hm with rfl | rfl <;> rcases hn with ⟨r, rs, h⟩ | ⟨r, rs, h⟩ <;> cases h

example : answered [.told [py, plain]] [py, sql] = true := by decide
example : taken [.told [py, sql], .told [py, plain]] 2 = some (said sql) := by decide
example : taken [.told [py, sql], .told [py, plain]] 1 = some .analysed := by decide
example : said sql = .declared [7] [8] := rfl
example : Distinct [py, sql] := by
  unfold Distinct
  decide
example : Names sql := .inl ⟨7, [], rfl⟩
example : Clean [.told [py, plain]] 2 := by
  refine ⟨trivial, fun m hm _ hn => ?_⟩
  simp only [List.mem_cons, List.not_mem_nil, or_false] at hm
  rcases hm with rfl | rfl <;> rcases hn with ⟨r, rs, h⟩ | ⟨r, rs, h⟩ <;> cases h

/-- With the declaration from the start nothing is ever answered, and no cell known. -/
example : answered [] [py, sql] = false ∧ answered [.told [py, sql], .run 1] [py, sql] = false ∧ taken [.told [py, sql]] 1 = none := by decide
/-- Running the cell helps. -/
example : answered [.run 2, .told [py, sql]] [py, sql] = true := by decide

/-- Taken back, to no avail; the same for a part. -/
example : taken [.told [py, plain], .told [py, sql], .told [py, plain]] 2 = some (.declared [7] [8]) := by decide
example : taken [.told [py, { sql with live := none }], .told [py, sql], .told [py, plain]] 2 = some (.declared [7] [8]) := by decide
example : taken [.told [py, { sql with live := some [9], dead := some [5] }], .told [py, sql], .told [py, plain]] 2 = some (.declared [9] [5]) := by decide
/-- Nothing. -/
example : taken [.told [{ py with live := some [], dead := some [] }]] 1 = some .analysed := by decide
/-- Forgotten. -/
example : taken [.run 2, .told [py, sql], .told [py, plain]] 2 = some .analysed := run_forgets _ 2

end Verif.Declare
