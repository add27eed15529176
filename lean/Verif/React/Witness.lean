import Verif.React.Props

/-! # Marked assignments and marked reads: cases, and where the code departs from what the marks say -/

namespace Verif.React

open Verif.Ref Spec

/-- No mark. -/
def plain (k : Nat) : Nat × Marks := (k, {})
/-- `$k` -/
def live (k : Nat) : Nat × Marks := (k, { reactive := true })
/-- `$$k` -/
def wide (k : Nat) : Nat × Marks := (k, { cascading := true })
/-- `$:k` -/
def stop (k : Nat) : Nat × Marks := (k, { blocking := true })

/-- A cell that assigns to each of these in turn. -/
def cell (ts : List (List (Nat × Marks))) : Op Nat := .run { body := ts.map (fun t => [{ target := t }]) }

/-- `x = ...`, where `x` is 1, with the parts 2 and 3. -/
def begun : List (Op Nat) := [cell [[plain 1]]]

instance (l : List (Nat × Marks)) : Decidable (Open l) := inferInstanceAs (Decidable (∀ e ∈ l, _))
instance (l : List (Nat × Marks)) : Decidable (Narrow l) := inferInstanceAs (Decidable (∀ e ∈ l, _))
instance (p q : Path Nat) : Decidable (Touch p q) := inferInstanceAs (Decidable (_ ∨ _))

theorem marked_two : Marked [plain 1, live 2] [1, 2] := ⟨[plain 1], 2, _, [], rfl, rfl, .inl rfl, by simp [Open]⟩

/-- `x.$y = 1; x.z = 2` has a cell with `x.y.w` run again. -/
example : forced (after (begun ++ [cell [[plain 1, live 2], [plain 1, plain 3]]])) 1 0 [plain 1, plain 2, plain 4] = true :=
  store_reaches_partial begun _ (l1 := []) (a := { target := [plain 1, live 2] }) (l2 := [{ target := [plain 1, plain 3] }]) rfl (by decide) marked_two
    (.inl (by decide)) (by decide) (by decide) (by decide) (by decide) (by decide)

/-- `x.y = 1` has a cell with `$x.z` run again. -/
example : forced (after (begun ++ [cell [[plain 1, plain 2]]])) 1 0 ([] ++ live 1 :: [plain 3]) = true :=
  read_reaches_partial begun { body := [[{ target := [plain 1, plain 2] }]] } (a := { target := [plain 1, plain 2] }) (by simp) (by decide) (.inl rfl)
    (by decide) (by decide) (by decide) (by decide)

theorem current_begun (r : List (Nat × Marks)) : Current begun 1 r := by
  intro e he h1
  simp [begun, cell, log] at he
  simp [he] at h1

/-- `x.$y = 1` has no cell with `x.z` run again. -/
example : forced (after (begun ++ [.cleanup] ++ [.run { prev := 0, body := [[{ target := [plain 1, live 2] }]] }])) 1 0 [plain 1, plain 3] = false := by
  rw [Bool.eq_false_iff]
  intro h
  rw [exact_partial begun 0 (by decide) (by decide) rfl (by decide) (by decide) (by decide) (current_begun _) (by decide) (by decide)] at h
  rcases h with ⟨n, ⟨pre, k, mk, post, h, -, hm, -⟩, -⟩ | ⟨m, ⟨pre, k, mk, post, h, rfl, hm, -⟩, ht⟩
  · have : (k, mk) ∈ [plain 1, plain 3] := by rw [h]; simp
    simp [plain] at this
    rcases this with ⟨-, rfl⟩ | ⟨-, rfl⟩ <;> simp at hm
  · match pre, h with
    | [], h => simp [plain] at h; rw [← h.1.2] at hm; simp at hm
    | [e], h =>
      simp [plain, live] at h
      obtain ⟨rfl, ⟨rfl, rfl⟩, rfl⟩ := h
      exact absurd ht (by decide)
    | _ :: _ :: pre, h => simp at h

/-- `$x.y = 1` has a cell with `x.$:z` run again; `x.$z = 1` has not. -/
example : forced (after (begun ++ [.cleanup] ++ [.run { prev := 0, body := [[{ target := [live 1, plain 2] }]] }])) 1 0 ([plain 1] ++ stop 3 :: []) = true :=
  (blocked_read_partial begun 0 (by decide) (by decide) rfl (by decide) (current_begun _) (by decide) (by decide)).mpr
    ⟨[1], ⟨[], 1, _, [plain 2], rfl, rfl, .inl rfl, by decide⟩, by decide⟩
example : forced (after (begun ++ [.cleanup] ++ [.run { prev := 0, body := [[{ target := [plain 1, live 3] }]] }])) 1 0 ([plain 1] ++ stop 3 :: []) = false := by decide

/-- `x.$:y = 1` has no cell with `$x` run again. -/
example : forced (after (begun ++ [.cleanup] ++ [.run { prev := 0, body := [[{ target := [plain 1, stop 2] }]] }])) 1 0 [live 1] = false :=
  blocked_store_partial begun 0 (by decide) (by decide) (current_begun _) (by decide)

/-- `$$x = 1`, `u = x`, `v = u`: a cell with `v` has to be run again. -/
example : forced (after (begun ++ runs [(0, { target := [wide 1] }), (0, { target := [plain 5], deps := [[1]] }), (1, { target := [plain 6], deps := [[5]] })])) 1 0
    [plain 6] = true :=
  (cascade_partial begun (a := { target := [wide 1] }) (.inr ⟨[], 1, _, [], rfl, rfl, rfl, by decide⟩) (by decide)
    (l := [(0, { target := [plain 5], deps := [[1]] }), (1, { target := [plain 6], deps := [[5]] })])
    ⟨by decide, by decide, by decide, by decide, by decide, by decide, by decide, by decide, trivial⟩ (by decide) (by decide) (by decide) (by decide)
    (by decide) (by decide)).1

/-! ## Where the code departs from what the marks say -/

/-- A `$:` right of a `$` in a read is ignored: `x.y = 1` has a cell with `$x.$:y` run again. -/
theorem block_lost : forced (after (begun ++ [.cleanup, cell [[plain 1, plain 2]]])) 1 0 [live 1, stop 2] = true := by decide

/-- A `$:` hides what is assigned later in the cell, even with `$`: after `$:x = 1; $x = 2`, and after `x.$:y = 1; x.$z = 2`, no cell with `$x` or with
`$x.z` is run again. -/
theorem block_hides : forced (after (begun ++ [.cleanup, cell [[stop 1], [live 1]]])) 1 0 [live 1] = false ∧
    forced (after (begun ++ [.cleanup, cell [[plain 1, stop 2], [plain 1, live 3]]])) 1 0 [plain 1, live 3] = false := by decide

/-- A `$:` does nothing for what was assigned to before in the cell: after `x = 1; $:x = 2` a cell with `$x` is run again. -/
theorem late_block : forced (after (begun ++ [.cleanup, cell [[plain 1], [stop 1]]])) 1 0 [live 1] = true := by decide

/-- A `$$` is forgotten when its target is assigned to again in the same cell, a `$` is not: `$$x = 1; x = 2` has no cell with `x` run again,
`$x = 1; x = 2` has. -/
theorem lost_wide : forced (after (begun ++ [.cleanup, cell [[wide 1], [plain 1]]])) 1 0 [plain 1] = false ∧
    forced (after (begun ++ [.cleanup, cell [[live 1], [plain 1]]])) 1 0 [plain 1] = true := by decide

/-- A `$$` before one part has the cells that read another part run again: `x.$$y = 1` and a cell with `x.z`. With `$` it has not. -/
theorem sibling_forced : forced (after (begun ++ [.cleanup, cell [[plain 1, wide 2]]])) 1 0 [plain 1, plain 3] = true ∧
    forced (after (begun ++ [.cleanup, cell [[plain 1, live 2]]])) 1 0 [plain 1, plain 3] = false := by decide

/-- A `$` before one part of what the cell also assigns to as a whole counts for all of it: `x = 1; x.$y = 2` has a cell with `x.z` run again, `x = 1`
alone has not. -/
theorem wider_than_marked : forced (after (begun ++ [.cleanup, cell [[plain 1], [plain 1, live 2]]])) 1 0 [plain 1, plain 3] = true ∧
    forced (after (begun ++ [.cleanup, cell [[plain 1]]])) 1 0 [plain 1, plain 3] = false := by decide

/-- A cascade that began with `$$x.y = 1` ends at a cell that assigns to `x` something computed from `x.y`: a cell with `x` is not run again as part of
the cascade. With `x.$$y = 1` it is. -/
theorem cascade_broken :
    forcedCasc (after (begun ++ [.cleanup] ++ runs [(0, { target := [wide 1, plain 2] }), (0, { target := [plain 1], deps := [[1, 2]] })])) 1 0 [plain 1] = false ∧
    forcedCasc (after (begun ++ [.cleanup] ++ runs [(0, { target := [plain 1, wide 2] }), (0, { target := [plain 1], deps := [[1, 2]] })])) 1 0 [plain 1] = true := by
  decide

end Verif.React
