import Verif.Steps.Props

/-! # C103, C104: cases, and where the claims fail -/

namespace Verif.Steps

/-- Statements `0` and `1` are `for` and `if`, the others neither. Statement `2` binds `y`, `3` binds `z`, `0` binds `i`. -/
def env (code : Syn String) (reads : List String) : Env Nat String where
  header s := s == 0 || s == 1
  binds s := if s = 0 then ["i"] else if s = 2 then ["y"] else if s = 3 then ["z"] else []
  code s := if s = 0 then code else if s = 3 then .assign ["z"] else .assign []
  reads s := if s = 0 then reads else []

/-- `for i in [1, 2]: if …: y = x`. -/
def plain : Syn String := .branch ["i"] (.branch [] (.assign ["y"]) (.assign [])) (.assign [])

/-- `for i in [1, 2]: … y = x; break; else: y = 0`. -/
def withElse : Syn String := .branch ["i"] (.assign ["y"]) (.assign ["y"])

/-- `for i in [1, 2]: if i == 1: y = x`, then `z = 0`. -/
def first : List (Nat × Run Nat × List String) :=
  [(0, .loop 0 (.block 1 (.simple 2) true) (.block 1 .done true) .done true, ["i"]), (3, .simple 3, ["z"])]

/-- `for i in [1, 2]: if i == 2: y = x`, then `z = 0`. -/
def second : List (Nat × Run Nat × List String) :=
  [(0, .loop 0 (.block 1 .done true) (.block 1 (.simple 2) true) .done true, ["i", "y"]), (3, .simple 3, ["z"])]

theorem first_regular (c : Syn String) (l : List String) : ∀ p ∈ first, Regular (env c l).header p.2.1 := by
  intro p hp
  simp only [first, List.mem_cons, List.not_mem_nil, or_false] at hp
  rcases hp with rfl | rfl
  · exact ⟨⟨rfl, .inr rfl⟩, trivial, by decide⟩
  · rfl

theorem second_regular (c : Syn String) (l : List String) : ∀ p ∈ second, Regular (env c l).header p.2.1 := by
  intro p hp
  simp only [second, List.mem_cons, List.not_mem_nil, or_false] at hp
  rcases hp with rfl | rfl
  · exact ⟨⟨trivial, .inr rfl⟩, trivial, by decide⟩
  · rfl

/-- Everything is dealt with if it happens in the first iteration. -/
example : (exec (env plain ["x"]) (cellEvents first) (start [])).log = [0, 1, 2, 3] :=
  cell_dealt_with_partial (env plain ["x"]) first [] (first_regular _ _) (by decide)

/-- A `while` with a `break`, in a `try`: `4` is the `try`, `5` the `while`, `6` the `break`, `7` raises. -/
example : (exec (env plain []) (events (.block 4 (.seq (.block 5 (.seq (.simple 2) (.jump 6)) true) (.seq (.fail 7) (.simple 3))) true)) (start [])).log = [2, 5, 3, 4] :=
  (dealt_with_partial (env plain []) _ [] (by simp [Regular, env]) (by decide)).1

/-- A variable that is bound in the first iteration is noted. -/
example : "y" ∈ (exec (env plain ["x"]) (cellEvents first) (start ["y"])).noted :=
  noted_partial (env plain ["x"]) first ["y"] (first_regular _ _) (by decide) (top := 0) List.mem_cons_self
    (s := 2) (.first (.body .simple)) (x := "y") (by decide) (.inl (by decide))

/-- A variable that is bound in the second iteration only is noted if the `else` part would bind it as well. -/
example : "y" ∈ (exec (env withElse ["x"]) (cellEvents second) (start [])).noted :=
  noted_partial (env withElse ["x"]) second [] (second_regular _ _) (by decide) (top := 0) List.mem_cons_self
    (s := 2) (.rest (.body .simple)) (x := "y") (by decide) (.inr ⟨by decide, .inl (.both (.assign (by decide)) (.assign (by decide)))⟩)

/-- A variable that is bound in the second iteration only is noted if it was known and is read in the loop. -/
example : "y" ∈ (exec (env plain ["x", "y"]) (cellEvents second) (start ["y"])).noted :=
  noted_partial (env plain ["x", "y"]) second ["y"] (second_regular _ _) (by decide) (top := 0) List.mem_cons_self
    (s := 2) (.rest (.body .simple)) (x := "y") (by decide) (.inr ⟨by decide, .inr (by decide)⟩)

/-- `a` was known and stays so. -/
example : "a" ∈ (exec (env plain ["x"]) (cellEvents second) (start ["a"])).syms := still_known _ _ _ List.mem_cons_self

/-- Nothing else is noted. -/
example : "x" ∉ (exec (env plain ["x"]) (cellEvents second) (start ["x"])).noted := by
  intro h
  rcases only_noted _ _ _ h with h | ⟨p, hp, h, h'⟩
  · rw [cell_dealt_with_partial (env plain ["x"]) second ["x"] (second_regular _ _) (by decide)] at h
    revert h
    decide
  · clear h'
    revert p
    decide

/-- **C103 fails** for what is only run in a later iteration: `y = x` is completed in the second iteration and never dealt with, so `y` does not depend on `x`. -/
theorem later_iteration : ∃ (E : Env Nat String) (prog : List (Nat × Run Nat × List String)) (top s : Nat) (r : Run Nat) (stale : List String),
    (top, r, stale) ∈ prog ∧ Completed E.header r s ∧ (∀ p ∈ prog, Regular E.header p.2.1) ∧ s ∉ (exec E (cellEvents prog) (start [])).log := by
  refine ⟨env plain ["x"], second, 0, 2, _, _, List.mem_cons_self, .rest (.body .simple), second_regular _ _, ?_⟩
  rw [cell_dealt_with_partial (env plain ["x"]) second [] (second_regular _ _) (by decide)]
  decide

/-- **C103 fails** for an `if`, `for` or `with` that raises: in `try: for i in f(): … except: z = 0` the loop is dealt with when the handler begins, though it has
bound nothing; `4` is the `try`. -/
theorem failed_header : ∃ (E : Env Nat String) (r : Run Nat) (s : Nat),
    (begun r).Nodup ∧ ¬ Completed E.header r s ∧ s ∈ (exec E (events r) (start [])).log ∧ ∃ x ∈ E.binds s, x ∈ (exec E (events r) (start [])).noted := by
  refine ⟨env plain [], .block 4 (.seq (.fail 0) (.simple 3)) true, 0, by decide, ?_, by decide, "i", by decide, by decide⟩
  intro h
  cases h with
  | body h =>
    cases h with
    | left h => cases h
    | right h => cases h

/-- **C104 fails**: `y`, known from an earlier cell, gets another value in the second iteration of `for i in [1, 2]: if i == 2: y = x`, and this is not noted. -/
theorem unnoted : ∃ (E : Env Nat String) (prog : List (Nat × Run Nat × List String)) (top s : Nat) (r : Run Nat) (stale : List String) (x : String),
    (top, r, stale) ∈ prog ∧ Completed E.header r s ∧ (∀ p ∈ prog, Regular E.header p.2.1) ∧ x ∈ E.binds s ∧ x ∈ stale ∧
      x ∉ (exec E (cellEvents prog) (start ["x", "y"])).noted :=
  ⟨env plain ["x"], second, 0, 2, _, _, "y", List.mem_cons_self, .rest (.body .simple), second_regular _ _, by decide, by decide, by decide⟩

/-- The same by the general theorem. -/
example : "y" ∉ (exec (env plain ["x"]) (cellEvents [(0, .loop 0 (.block 1 .done true) (.block 1 (.simple 2) true) .done true, ["i", "y"])]) (start ["x", "y"])).noted :=
  loop_unnoted (env plain ["x"]) (first := .block 1 .done true) (rest := .block 1 (.simple 2) true) true ["i", "y"] ["x", "y"] ⟨⟨trivial, .inr rfl⟩, trivial, by decide⟩ (by decide) rfl (by decide) (by decide)

end Verif.Steps
