import Verif.Recall.Props

/-!
# Looking back: cases -/

namespace Verif.Recall

private def a : Run := ⟨1, true, true, true, ⟨[10], [11], 0⟩⟩
private def b : Run := ⟨2, true, true, true, ⟨[20], [], 1⟩⟩
/-- The first cell again, with more output. -/
private def c : Run := ⟨1, true, true, true, ⟨[30, 31, 32, 33], [], 0⟩⟩
/-- And again, with `%%capture`. -/
private def d : Run := ⟨1, true, true, false, ⟨[40], [], 0⟩⟩
/-- Run by the front end, without being kept. -/
private def e : Run := ⟨3, false, true, true, ⟨[50], [], 0⟩⟩

example : Kept [c, b, a] := by
  intro r hr
  simp only [List.mem_cons, List.not_mem_nil, or_false] at hr
  rcases hr with rfl | rfl | rfl <;> rfl

example : ¬LetGo 3 a [c, b] := by
  rintro ⟨h, -⟩
  exact absurd (show 3 < 0 + 1 + 1 from h) (by decide)

example : LetGo 3 c [d] := ⟨by show 3 < 4; decide, d, rfl, rfl⟩

example : stdout 3 1 [c, b, a] 1 = some (some [10]) := stdout_partial 3 1 (later := [c, b]) (earlier := []) (r := a)
  (by
    intro r hr
    simp only [List.cons_append, List.nil_append, List.mem_cons, List.not_mem_nil, or_false] at hr
    rcases hr with rfl | rfl | rfl <;> rfl) rfl rfl (by rintro ⟨h, -⟩; exact absurd (show 3 < 0 + 1 + 1 from h) (by decide))
example : stderr 3 1 [c, b, a] 1 = some (some [11]) := by decide
example : stdout 3 1 [c, b, a] 3 = some (some [30, 31, 32, 33]) := by decide
example : stdout 3 1 [d, c, b, a] 3 = some none := by decide
/-- The captured output of `c` is said to be that of `d`. -/
example : stdout 3 1 [d, c, b, a] 4 = some (some [30, 31, 32, 33]) := by decide
example : stdout 3 1 [c, b, a] 4 = none := by decide
example : stdout 3 1 [{ b with traced := false }, a] 2 = some none := by decide

/-- The number of `e` is given again. -/
example : stdout 3 1 [e, b, a] 3 = some (some [50]) ∧ stdout 3 1 [c, e, b, a] 3 = some (some [30, 31, 32, 33]) := by decide

example : lastRun 3 1 [b, a] c = .ok 1 := last_run_partial (by omega) 3 b [a] c (.inl rfl)
example : lastRun 3 1 [] c = .error .crash := first_fails (by omega) 3 c
example : lastRun 3 1 [e, b, a] { e with id := 5 } = .ok 2 := by decide
/-- The run of `b` is said to be the last one. -/
example : lastRun 3 1 [e, b, a] c = .ok 1 := by decide

end Verif.Recall
