import Verif.Widget.Props
import Verif.Widget.Code

/-! # Cases of the theorems about widgets, and code that is wrong -/

namespace Verif.Widget

private def a : Name := ['a']
private def b : Name := ['b']
private def y : Name := ['y']

private theorem parse_hi (rest : List Char → Option Code) : parse rest ['h', 'i'] = some (.name ['h', 'i']) := by
  unfold parse
  rw [if_neg (by decide), if_neg (by decide)]
  show (if isName ['h', 'i'] then some (Code.name ['h', 'i']) else if isTwoNames ['h', 'i'] then none else rest ['h', 'i']) = _
  rw [if_pos (by decide)]

private theorem parse_12 (rest : List Char → Option Code) : parse rest ['1', '2'] = some (.lit (.num 12)) := by
  unfold parse
  rw [if_neg (by decide), if_pos (by decide)]
  rfl

private theorem text_str (s : List Char) : text (.str s) = s := rfl

/-- Computes what histories lead to. -/
macro "compute" : tactic => `(tactic| simp [Spec.Shows, Spec.origins, Spec.stmts, Spec.stmt, Spec.detach, Spec.makes, after, step, runBody, runStmt, runMake, runPut, runCopy,
  usePart, useName, refreshPart, look, assign, observe, take, extraTime, bodyLength, addEdge, Assoc.get, Assoc.set, Assoc.erase, parse_num, Sys.empty, code, closure, parents, place,
  Time.le, text_str, parse_hi, parse_12, a, b, y])

/-- Computes what programs do. -/
macro "computeRun" : tactic => `(tactic| simp [Spec.run, Spec.exec, Spec.value, a, b, y])

/-- A program is run and then the variable has no value or another one. -/
def Spec.Wrong (l : List Stmt) (y : Name) (v : Val) : Prop := ∀ env, Spec.run l = some env → env y ≠ some (.val v)

/-- With two widgets from one cell, the code for a variable read from the one moved first sets the other, which it does not make: it raises. -/
theorem two_from_one_cell (rest : List Char → Option Code) :
    ∃ h y w v, Spec.Shows (after rest h) w v ∧ (Spec.origins h).names y = some (.copied w) ∧ Spec.Numeric h ∧ Spec.run (code (after rest h) y) = none := by
  have hcode : code (after rest [.move b (.num 7), .move a (.num 3), .run 2 [.copy y a], .run 1 [.make a (.num 0), .make b (.num 0)]]) y =
      [.make a (.num 0), .put b (.lit (.num 7)), .copy y a] := by compute
  refine ⟨[.move b (.num 7), .move a (.num 3), .run 2 [.copy y a], .run 1 [.make a (.num 0), .make b (.num 0)]], y, a, .num 3, by compute, by compute, ?_, ?_⟩
  · intro k l hl w c hc
    simp only [List.mem_cons, Event.run.injEq, List.not_mem_nil, or_false, reduceCtorEq, false_or] at hl
    rcases hl with ⟨-, rfl⟩ | ⟨-, rfl⟩ <;> simp at hc
  · rw [hcode]; computeRun

/-- If a program set the value of a widget, the code for what is read from it gives that value even after the widget was moved. -/
theorem set_by_program (rest : List Char → Option Code) :
    ∃ h y w v, Spec.Shows (after rest h) w v ∧ (Spec.origins h).names y = some (.copied w) ∧ Spec.Numeric h ∧ Spec.Wrong (code (after rest h) y) y v ∧
      Spec.Gives (code (after rest h) y) y (.num 5) := by
  have hcode : code (after rest [.move a (.num 7), .run 3 [.copy y a], .run 2 [.put a (.lit (.num 5))], .run 1 [.make a (.num 0)]]) y =
      [.make a (.num 0), .put a (.lit (.num 7)), .put a (.lit (.num 5)), .copy y a] := by compute
  refine ⟨[.move a (.num 7), .run 3 [.copy y a], .run 2 [.put a (.lit (.num 5))], .run 1 [.make a (.num 0)]], y, a, .num 7, by compute, by compute, ?_, ?_, ?_⟩
  · intro k l hl w c hc
    simp only [List.mem_cons, Event.run.injEq, List.not_mem_nil, or_false, reduceCtorEq, false_or] at hl
    rcases hl with ⟨-, rfl⟩ | ⟨-, rfl⟩ | ⟨-, rfl⟩
    · simp at hc
    · simp at hc; exact ⟨5, hc.2⟩
    · simp at hc
  · rw [hcode]
    intro env he
    simp [Spec.run, Spec.exec, Spec.value] at he
    subst he
    simp
  · rw [hcode]
    refine ⟨_, by simp [Spec.run, Spec.exec, Spec.value]; rfl, by simp⟩

/-- A word shown by a widget becomes a name in the code, which raises. -/
theorem word_becomes_name (rest : List Char → Option Code) :
    ∃ h y w s, Spec.Shows (after rest h) w (.str s) ∧ (Spec.origins h).names y = some (.copied w) ∧ code (after rest h) y = [.make w (.str []), .put w (.name s), .copy y w] ∧
      Spec.run (code (after rest h) y) = none := by
  have hcode : code (after rest [.move a (.str ['h', 'i']), .run 2 [.copy y a], .run 1 [.make a (.str [])]]) y =
      [.make a (.str []), .put a (.name ['h', 'i']), .copy y a] := by
    compute
  refine ⟨[.move a (.str ['h', 'i']), .run 2 [.copy y a], .run 1 [.make a (.str [])]], y, a, ['h', 'i'], ?_, by compute, hcode, ?_⟩
  · compute
  · rw [hcode]; computeRun

/-- Digits shown by a widget become a number in the code. -/
theorem digits_become_number (rest : List Char → Option Code) :
    ∃ h y w s, Spec.Shows (after rest h) w (.str s) ∧ (Spec.origins h).names y = some (.copied w) ∧ Spec.Wrong (code (after rest h) y) y (.str s) ∧
      Spec.Gives (code (after rest h) y) y (.num 12) := by
  have hcode : code (after rest [.move a (.str ['1', '2']), .run 2 [.copy y a], .run 1 [.make a (.str [])]]) y =
      [.make a (.str []), .put a (.lit (.num 12)), .copy y a] := by
    compute
  refine ⟨[.move a (.str ['1', '2']), .run 2 [.copy y a], .run 1 [.make a (.str [])]], y, a, ['1', '2'], ?_, by compute, ?_, ?_⟩
  · compute
  · rw [hcode]
    intro env he
    simp [Spec.run, Spec.exec, Spec.value] at he
    subst he
    simp
  · rw [hcode]
    exact ⟨_, by simp [Spec.run, Spec.exec, Spec.value]; rfl, by simp⟩

/-! ## Cases of the theorems -/

/-- A slider, a cell that reads it, and another cell in between. -/
private def slider : List Event := [.run 2 [.copy y a], .run 1 [.make a (.num 0)]]

private theorem reads_a : Spec.Reads [.copy y a] a := ⟨[], y, [], rfl, by simp⟩

/-- `noticed_partial`: the slider is moved, another cell with another slider runs, and the slider is moved again. -/
example (rest : List Char → Option Code) :
    ready (after rest ([.move a (.num (-2)), .run 3 [.make b (.num 1)]] ++ .move a (.num 7) :: slider)) 2 = true :=
  noticed_partial rest slider [.move a (.num (-2)), .run 3 [.make b (.num 1)]] 2 [.copy y a] a (.num 0) (.num (-2)) 7 rfl reads_a (by simp only [slider]; compute) (by decide) (by simp)
    (by simp only [slider]; compute)

/-- `settled_by_run_partial`: the cell runs again. -/
example (rest : List Char → Option Code) : ready (after rest (.run 2 [.copy y a, .put b (.lit (.num 3))] :: .move a (.num 7) :: .run 3 [.make b (.num 1)] :: slider)) 2 = false :=
  settled_by_run_partial rest _ 2 _ (by
    intro w hw
    have : w = a := by
      have := mem_live.mpr hw
      simpa [live] using this
    subst this
    rintro ⟨c, hc⟩
    simp only [List.mem_cons, reduceCtorEq, Stmt.put.injEq, List.not_mem_nil, or_false, false_or] at hc
    exact absurd hc.1 (by decide))

/-- `runs_again`: the cell reads the slider and sets it. -/
example (rest : List Char → Option Code) : ready (after rest (.run 2 [.copy y a, .put a (.lit (.num 5))] :: slider)) 2 = true :=
  runs_again rest slider 2 y a (.num 0) 5 (by decide) (by simp only [slider]; compute) (by decide)

private theorem helloWorld : Spec.TwoWords "hello world".toList :=
  ⟨"hello".toList, "world".toList, by decide, by rintro l (rfl | rfl) <;> decide⟩

/-- A text box and a cell that reads it. -/
private def box : List Event := [.run 2 [.copy y a], .run 1 [.make a (.str [])]]

/-- `unnoticed`: two words are typed. -/
example (rest : List Char → Option Code) : ready (after rest (.move a (.str "hello world".toList) :: box)) 2 = ready (after rest box) 2 :=
  (unnoticed rest box a (.str []) _ (.inl helloWorld) (by simp only [box]; compute)).2.1 2

/-- `ends_with_exception`: a program sets the text, and reads it. -/
example (rest : List Char → Option Code) :
    Assoc.get (after rest (.run 3 [.put a (.lit (.str "hello world".toList)), .copy b a] :: box)).env b = none :=
  (ends_with_exception rest box 3 a (.str []) _ [.copy b a] (.inl helloWorld) (by simp only [box]; compute) (by decide) b (by decide)).trans (by simp only [box]; compute)

/-- `code_partial`: another slider from another cell is set by a program and moved to a text. -/
example (rest : List Char → Option Code) :
    Spec.Gives (code (after rest [.move a (.num (-7)), .move b (.str []), .run 4 [.put b (.lit (.num 3))], .move a (.num 5), .run 3 [.make b (.num 1), .copy y a],
      .run 1 [.make a (.num 0)]]) y) y (.num (-7)) := by
  refine code_partial rest _ ?_ y a (.num (-7)) true 1 (by compute) (by compute; decide) fun _ => ⟨-7, rfl⟩
  intro k l hl w c hc
  simp only [List.mem_cons, Event.run.injEq, List.not_mem_nil, or_false, reduceCtorEq, false_or] at hl
  rcases hl with ⟨-, rfl⟩ | ⟨-, rfl⟩ | ⟨-, rfl⟩
  · simp at hc; exact ⟨3, hc.2⟩
  · simp at hc
  · simp at hc

end Verif.Widget
