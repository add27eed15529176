import Verif.Memo.ArrayProps

/-!
# What equality of sets and dictionaries means

The equality of values that C26 is stated with is the one of Python for sets and dictionaries: the same elements on both sides, up to equality. -/

namespace Verif.Memo
variable {N : Type} [DecidableEq N]

theorem pyAny_iff (xs : List (Val N)) (y : Val N) : pyAny xs y = true ↔ ∃ x ∈ xs, pyEq x y = true := by
  induction xs with
  | nil => simp [pyAny]
  | cons x xs ih => simp [pyAny, ih]

theorem pySub_iff (xs ys : List (Val N)) : pySub xs ys = true ↔ ∀ x ∈ xs, ∃ y ∈ ys, pyEq x y = true := by
  induction xs with
  | nil => simp [pySub]
  | cons x xs ih => simp [pySub, ih]

/-- Sets are equal exactly if each element of one is equal to one of the other. -/
theorem pyEq_set_iff (i j : Nat) (f g : Bool) (xs ys : List (Val N)) : pyEq (.set i f xs) (.set j g ys) = true ↔
    (∀ x ∈ xs, ∃ y ∈ ys, pyEq x y = true) ∧ ∀ y ∈ ys, ∃ x ∈ xs, pyEq x y = true := by
  simp [pyEq, pySub_iff, pyAny_iff]

/-- Dictionaries are equal exactly if each item of one is equal to one of the other. -/
theorem pyEq_dict_iff (i j : Nat) (f g : Bool) (xs ys : List (Val N)) : pyEq (.dict i f xs) (.dict j g ys) = true ↔
    (∀ x ∈ xs, ∃ y ∈ ys, pyEq x y = true) ∧ ∀ y ∈ ys, ∃ x ∈ xs, pyEq x y = true := by
  simp [pyEq, pySub_iff, pyAny_iff]

/-- Lists are equal exactly if they are of the same length and equal place by place. -/
theorem pyEq_list_iff (i j : Nat) (xs ys : List (Val N)) : pyEq (.list i xs) (.list j ys) = true ↔
    xs.length = ys.length ∧ ∀ (k : Nat) (h : k < xs.length) (h' : k < ys.length), pyEq xs[k] ys[k] = true := by
  have : ∀ xs ys : List (Val N), pyEqList xs ys = true ↔
      xs.length = ys.length ∧ ∀ (k : Nat) (h : k < xs.length) (h' : k < ys.length), pyEq xs[k] ys[k] = true := by
    intro xs
    induction xs with
    | nil => intro ys; cases ys <;> simp [pyEqList]
    | cons x xs ih =>
      intro ys
      cases ys with
      | nil => simp [pyEqList]
      | cons y ys =>
        simp only [pyEqList, Bool.and_eq_true, ih, List.length_cons, Nat.add_right_cancel_iff]
        constructor
        · rintro ⟨h1, h2, h3⟩
          refine ⟨h2, fun k hk hk' => ?_⟩
          cases k with
          | zero => exact h1
          | succ k => exact h3 k (by omega) (by omega)
        · rintro ⟨h2, h3⟩
          exact ⟨h3 0 (by omega) (by omega), h2, fun k hk hk' => h3 (k + 1) (by omega) (by omega)⟩
  simpa [pyEq] using this xs ys

/-- The empty set is not equal to one with an element, in either order, and the order of elements does not matter. -/
example : ¬ pyEq (.set 0 false ([] : List (Val Nat))) (.set 1 true [.bare 0 0]) = true ∧ ¬ pyEq (.set 1 true [.bare 0 0]) (.set 0 false ([] : List (Val Nat))) = true ∧
    pyEq (.set 0 false [.bare 0 0, .bare 1 1]) (.set 1 true [.bare 1 1, (.bare 0 0 : Val Nat)]) = true := by
  simp [pySub_iff, pyAny_iff, pyEq]

end Verif.Memo
