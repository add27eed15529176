import Verif.Calls.Second

/-! Notebooks that meet the hypotheses of the theorems, and notebooks for which the code is wrong. -/

namespace Verif.Calls.Witness
open Verif Verif.Calls Spec

/-- `y = 1`; `def f(): return 10 + y`; and a cell `a = 0 + f()`, `b = 0 + f() + a`. Newest first; `f` is 0, `y` 1, `a` 2, `b` 3. -/
def demo : List (List Stmt) := [[.set 2 0 [.call 0], .set 3 0 [.call 0, .name 2]], [.defn 0 10 [1]], [.set 1 1 []]]

theorem demo_quiet : Quiet demo := by
  refine ⟨?_, ?_, ?_, trivial⟩
  · intro pre s post e ρ' hr f d ys hf hc ef y hy w hw
    rcases pre with _ | ⟨p, _ | ⟨q, pre⟩⟩
    · cases hw
    · simp only [List.cons_append, List.nil_append, List.cons.injEq] at e
      obtain ⟨rfl, rfl, _⟩ := e
      simp only [CallsFn, List.mem_cons, Op.call.injEq, reduceCtorEq, List.not_mem_nil, or_false] at hf
      subst hf
      simp only [runAll] at hr
      have h0 : exec (notebook [[.defn 0 10 [1]], [.set 1 1 []]]) (.set 2 0 [.call 0]) = some ρ' := by
        revert hr; cases exec _ (Stmt.set 2 0 [Op.call 0]) <;> simp
      have : ρ' 0 = some (.fn 10 [1]) := by
        have e0 : (exec (notebook [[.defn 0 10 [1]], [.set 1 1 []]]) (.set 2 0 [.call 0])).bind (· 0) = some (.fn 10 [1]) := by decide
        rw [h0] at e0; exact e0
      rw [this] at ef
      cases ef
      simp only [List.mem_singleton] at hy hw
      subst hy; subst hw
      simp [Sets]
    · simp only [List.cons_append, List.cons.injEq] at e
      have := e.2.2
      simp at this
  · intro pre s post e ρ' hr f d ys hf hc
    rcases pre with _ | ⟨p, pre⟩
    · obtain ⟨p₁, s, p₂, e, _⟩ := hc; simp at e
    · simp at e
  · intro pre s post e ρ' hr f d ys hf hc
    rcases pre with _ | ⟨p, pre⟩
    · obtain ⟨p₁, s, p₂, e, _⟩ := hc; simp at e
    · simp at e

/-- The theorem applies although `f` is called twice in a cell, and the code has every statement that is needed. -/
example : code (run demo) 3 = .ok [0, 1, 2, 3] ∧ notebook demo 3 = some (.int 22) := ⟨by rfl, by decide⟩

example : ∃ C ρ, code (run demo) 3 = .ok C ∧ runAll (fun _ => none) (text (run demo) C) = some ρ ∧ ρ 3 = some (.int 22) :=
  code_runs_alone_partial demo demo_quiet 3 _ (by decide)

/-- `code_unknown` is about names like this. -/
example : notebook demo 7 = none := by decide

/-- The same with `y` set in between: `a = 0 + f()`, `y = 5`, `x = 0 + f()`. -/
def changed : List (List Stmt) := [twice 2 0 1 4 5, [.defn 0 10 [1]], [.set 1 1 []]]

/-- `x` is 15, and the statement `y = 5` is not in its code, which gives 11. -/
theorem changed_wrong : notebook changed 4 = some (.int 15) ∧ code (run changed) 4 = .ok [0, 1, 4] ∧
    text (run changed) [0, 1, 4] = [.set 1 1 [], .defn 0 10 [1], .set 4 0 [.call 0]] ∧
    (runAll (fun _ => none) (text (run changed) [0, 1, 4])).bind (· 4) = some (.int 11) := ⟨by decide, by rfl, by decide, by decide⟩

/-- The hypotheses of `second_call_stale` are met there. -/
example : notebook [[.defn 0 10 [1]], [.set 1 1 []]] 0 = some (.fn 10 [1]) ∧
    notebook [[.defn 0 10 [1]], [.set 1 1 []]] 1 = some (.int 1) := by decide

/-- All of it in one cell: `y = 1`, `def f(): return 10 + y`, `a = 0 + f()`, `b = 0 + f()`. -/
def oneCell : List (List Stmt) := [[.set 1 1 [], .defn 0 10 [1], .set 2 0 [.call 0], .set 3 0 [.call 0]]]

/-- The code for `b` has no `y = 1`, and running it raises; the code for `a` is fine. -/
theorem one_cell_raises : notebook oneCell 3 = some (.int 11) ∧ code (run oneCell) 3 = .ok [1, 3] ∧
    (runAll (fun _ => none) (text (run oneCell) [1, 3])).isNone ∧ code (run oneCell) 2 = .ok [0, 1, 2] :=
  ⟨by decide, by rfl, by decide, by rfl⟩

/-- A second cell with the same text does not help, but then the code has the `y = 1` of the first. -/
theorem one_cell_again : code (run (oneCell ++ oneCell)) 3 = .ok [0, 5, 7] := by rfl

/-- Calling the function once per cell is fine: `y = 5` in a cell of its own. -/
theorem separate_cells : code (run [[.set 4 0 [.call 0]], [.set 1 5 []], [.set 2 0 [.call 0]], [.defn 0 10 [1]], [.set 1 1 []]]) 4 =
    .ok [1, 3, 4] := by rfl

end Verif.Calls.Witness
