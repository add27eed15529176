import Verif.Garbage.Props

/-! # Cases of the theorems, and what goes wrong -/

namespace Verif.Garbage
open Verif Verif.Garbage.Spec

/-- Several operations, one after the other (only to compute the examples). -/
def run {O K : Type} [DecidableEq O] [DecidableEq K] (n : Nat) : St O K → List (Op O K) → Option (St O K)
  | s, [] => some s
  | s, op :: l => match step n s op with
    | .ok t => run n t l
    | .error _ => none

/-- The state at the end (only to compute the examples). -/
def final (l : List (Op Nat String)) : St Nat String := (run 20 (empty "") l).getD (empty "")

theorem runs_of_run {n : Nat} : ∀ {l : List (Op Nat String)} {s t : St Nat String}, run n s l = some t → Runs n s l t
  | [], s, t, h => by injection h with h; subst h; exact .nil s
  | op :: l, s, t, h => by
    unfold run at h
    cases e : step n s op with
    | error x => rw [e] at h; simp at h
    | ok s1 => rw [e] at h; exact .cons s s1 t op l e (runs_of_run h)

theorem runs_final {l : List (Op Nat String)} (h : (run 20 (empty "") l).isSome = true) : Runs 20 (empty "") l (final l) := by
  obtain ⟨t, e⟩ := Option.isSome_iff_exists.1 h
  have : final l = t := by simp [final, e]
  rw [this]; exact runs_of_run e

theorem not_named {heap : Heap Nat String} (P : Nat → Prop) (h1 : ∀ k o, heap none k = some o → P o)
    (h2 : ∀ p k o, P p → heap (some p) k = some o → P o) {o : Nat} (h : ¬P o) : ¬Named heap o := by
  intro hn
  apply h
  clear h
  induction hn with
  | var k o e => exact h1 k o e
  | part p k o _ e ih => exact h2 p k o ih e

/-- `x = A()`, `x.f = B()`, `x.f.g = C()`, `y = x.f`, `x = 3`: `A()` (number 0) is let go of. -/
def tree : List (Op Nat String) :=
  [.bind none "x" 0, .openNs 0, .bind (some 0) "f" 1, .openNs 1, .bind (some 1) "g" 2, .bind none "y" 1, .bind none "x" 3]

theorem tree_fine : Fine Notebook.new (tree ++ [.gc]) := by
  refine ⟨⟨?_, ?_, ?_, ?_, ?_⟩, .var "x" 0 (by simp [after, Notebook.new, assign]), ⟨?_, ?_, ?_, ?_, ?_⟩, ?_, ⟨?_, ?_, ?_, ?_, ?_⟩, ⟨?_, ?_, ?_, ?_, ?_⟩,
    ⟨?_, ?_, ?_, ?_, ?_⟩, trivial, trivial⟩
  · simp [Home]
  · simp
  · right; simp [Notebook.new]
  · simp [Notebook.new]
  · simp [Notebook.new]
  · intro p hp; injection hp with hp; subst hp; exact .var "x" 0 (by simp [after, Notebook.new, assign])
  · intro p hp; injection hp with hp; subst hp; simp [after]
  · right; simp [after, Notebook.new]
  · simp [after, Notebook.new, assign]
  · simp [after, Notebook.new, assign]
  · exact .part 0 "f" 1 (.var "x" 0 (by simp [after, Notebook.new, assign])) (by simp [after, Notebook.new, assign])
  · intro p hp; injection hp with hp; subst hp
    exact .part 0 "f" 1 (.var "x" 0 (by simp [after, Notebook.new, assign])) (by simp [after, Notebook.new, assign])
  · intro p hp; injection hp with hp; subst hp; simp [after]
  · right; simp [after, Notebook.new]
  · simp [after, Notebook.new, assign]
  · simp [after, Notebook.new, assign]
  · simp [Home]
  · simp
  · left; exact .part 0 "f" 1 (.var "x" 0 (by simp [after, Notebook.new, assign])) (by simp [after, Notebook.new, assign])
  · simp [after, Notebook.new, assign]
  · simp [after, Notebook.new, assign]
  · simp [Home]
  · simp
  · right; simp [after, Notebook.new]
  · simp [after, Notebook.new, assign]
  · intro c hc hne
    obtain rfl : c = 0 := by simp [after, Notebook.new, assign] at hc; exact hc.symm
    right; right
    intro h' k' hh
    simp only [after, Notebook.new] at hh
    split at hh
    · simp at hh
    split at hh
    · simp at hh
    split at hh
    · simp at hh
    split at hh
    · rename_i e; obtain ⟨rfl, rfl⟩ := e; exact ⟨by simp [after, Notebook.new, assign], by simp [Home]⟩
    · exact hh.elim

theorem tree_acyclic : Acyclic (history Notebook.new tree).heap := by
  refine Subrelation.wf ?_ Nat.lt_wfRel.wf
  rintro p o ⟨k, h⟩
  simp only [history, tree, List.foldl, after, Notebook.new, assign] at h
  show p < o
  repeat' split at h
  all_goals simp_all
  all_goals omega

/-- The case of `freed_partial`: the object 0 is held no longer, and 1, 2 and 3 are. -/
example : ¬Held (final (tree ++ [.gc])) 0 ∧ Held (final tree) 0 ∧ Held (final (tree ++ [.gc])) 1 ∧ Held (final (tree ++ [.gc])) 2 :=
  ⟨by unfold Held; decide, .inl rfl, .inl rfl, .inr (by decide)⟩

example : Named (history Notebook.new tree).heap 2 := freed_partial tree_fine tree_acyclic (runs_final (by decide)) 2 (.inr (by decide))

/-- The case of `kept_partial` and `known_partial`: `y.g` is still known after the collection, `x.f` is not. -/
example : Recorded (final (tree ++ [.gc])) (some 1) "g" 2 :=
  kept_partial tree_fine (runs_final (by decide)) (some 1) "g" 2
    (fun p hp => by injection hp with hp; subst hp; exact .var "y" 1 (by simp [history, tree, after, Notebook.new, assign]))
    (by simp [history, tree, after, Notebook.new, assign])

example : (final (tree ++ [.gc])).tab (some 0) = [] ∧ (final tree).tab (some 0) = [("f", 1)] := by decide

example : (history Notebook.new (tree ++ [.gc])).heap none "y" = some 1 :=
  known_partial tree_fine (runs_final (by decide)) none "y" 1 ⟨3, by decide, by decide⟩

/-- The case of `held_partial`. -/
example : Held (final (tree ++ [.gc])) 2 :=
  held_partial tree_fine (runs_final (by decide)) 2
    (.part 1 "g" 2 (.var "y" 1 (by simp [history, tree, after, Notebook.new, assign])) (by simp [history, tree, after, Notebook.new, assign]))

/-- The case of `marking_ends_partial`: deleting `y` afterwards marks `y` and `y.g`. -/
example : (final (tree ++ [.gc])).next = 4 ∧ ∃ t, step 5 (final (tree ++ [.gc])) (.delete none "y" false) = .ok t :=
  ⟨by decide, marking_ends_partial tree_fine (runs_final (by decide)) 5 (by decide) _⟩

/-! ## What goes wrong -/

/-- `x = {}`, `x["s"] = x`, `del x`: an object that contains itself is never let go of. -/
def cycle : List (Op Nat String) := [.bind none "x" 0, .openNs 0, .bind (some 0) "s" 0, .delete none "x" false, .gc]

/-- Only allowed operations, and still an object is held that is not named. -/
theorem cycle_kept : ∃ s, Fine Notebook.new cycle ∧ Runs 20 (empty "") cycle s ∧ Held s 0 ∧ ¬Named (history Notebook.new cycle).heap 0 := by
  refine ⟨final cycle, ⟨⟨?_, ?_, ?_, ?_, ?_⟩, .var "x" 0 (by simp [after, Notebook.new, assign]), ⟨?_, ?_, ?_, ?_, ?_⟩, ⟨?_, .inl rfl⟩, trivial, trivial⟩,
    runs_final (by decide), .inl (by decide), ?_⟩
  · simp [Home]
  · simp
  · right; simp [Notebook.new]
  · simp [Notebook.new]
  · simp [Notebook.new]
  · intro p hp; injection hp with hp; subst hp; exact .var "x" 0 (by simp [after, Notebook.new, assign])
  · intro p hp; injection hp with hp; subst hp; simp [after]
  · left; exact .var "x" 0 (by simp [after, Notebook.new, assign])
  · simp [after, Notebook.new, assign]
  · simp [after, Notebook.new, assign]
  · simp [Home]
  · refine not_named (fun _ => False) ?_ ?_ id
    · intro k o h
      by_cases e : k = "x" <;> simp [history, cycle, after, Notebook.new, assign, e] at h
    · exact fun _ _ _ h _ => h

/-- `x = {}`, `x["a"] = B()`, `del x["a"]`: the tracker goes on holding `B()`. -/
def element : List (Op Nat String) := [.bind none "x" 0, .openNs 0, .bind (some 0) "a" 1, .delete (some 0) "a" true, .gc]

/-- Deleted elements are never let go of. -/
theorem element_kept : ∃ s, Runs 20 (empty "") element s ∧ Held s 1 ∧ ¬Named (history Notebook.new element).heap 1 := by
  refine ⟨final element, runs_final (by decide), .inr (by decide), not_named (fun o => o = 0) ?_ ?_ (by decide)⟩
  · intro k o h
    by_cases e : k = "x" <;> simp [history, element, after, Notebook.new, assign, e] at h
    exact h.symm
  · rintro p k o rfl h
    by_cases e : k = "a" <;> simp [history, element, after, Notebook.new, assign, e] at h

/-- An attribute that is deleted is let go of. -/
example : ¬Held (final [.bind none "x" 0, .openNs 0, .bind (some 0) "a" 1, .delete (some 0) "a" false, .gc]) 1 := by unfold Held; decide

/-- `x = A()`, `x.a = B()`, `y = x`, `del y`, `x = 5` in one cell. -/
def twice : List (Op Nat String) :=
  [.bind none "x" 0, .openNs 0, .bind (some 0) "a" 1, .bind none "y" 0, .delete none "y" false, .bind none "x" 5, .gc]

/-- If one name of an object is deleted and then the other one gets another object, the object is never let go of, nor its parts. -/
theorem twice_kept : ∃ s, Runs 20 (empty "") twice s ∧ Held s 0 ∧ Held s 1 ∧
    ¬Named (history Notebook.new twice).heap 0 ∧ ¬Named (history Notebook.new twice).heap 1 := by
  have h1 : ∀ k o, (history Notebook.new twice).heap none k = some o → o = 5 := by
    intro k o h
    by_cases e : k = "x"
    · simp [history, twice, after, Notebook.new, assign, e] at h; exact h.symm
    · by_cases e' : k = "y" <;> simp [history, twice, after, Notebook.new, assign, e, e'] at h
  have h2 : ∀ p k o, p = 5 → (history Notebook.new twice).heap (some p) k = some o → o = 5 := by
    rintro p k o rfl h
    simp [history, twice, after, Notebook.new, assign] at h
  exact ⟨final twice, runs_final (by decide), .inl (by decide), .inr (by decide), not_named (fun o => o = 5) h1 h2 (by decide),
    not_named (fun o => o = 5) h1 h2 (by decide)⟩

/-- In the other order, `x = 5` and then `del y`, it is let go of. -/
example : ¬Held (final [.bind none "x" 0, .openNs 0, .bind (some 0) "a" 1, .bind none "y" 0, .bind none "x" 5, .delete none "y" false, .gc]) 0 := by
  unfold Held; decide

/-- `f().a`: a part of an object that is not named is used. -/
def temporary : List (Op Nat String) := [.openNs 0, .gc, .gc]

/-- Objects that were never named are held forever once their parts were used. -/
theorem temporary_kept : ∃ s, Runs 20 (empty "") temporary s ∧ Held s 0 ∧ ¬Named (history Notebook.new temporary).heap 0 := by
  refine ⟨final temporary, runs_final (by decide), .inl (by decide), not_named (fun _ => False) ?_ (fun _ _ _ h _ => h) id⟩
  intro k o h
  simp [history, temporary, after, Notebook.new] at h

/-- `x = A()`, `x.f = B()`, `keep(x)`, `x = 2`, `y = kept()` in one cell. -/
def returning : List (Op Nat String) :=
  [.bind none "x" 0, .openNs 0, .bind (some 0) "f" 1, .bind none "x" 2, .bind none "y" 0, .gc]

/-- An object that gets a name again before the collection loses all that was known of its parts. -/
theorem returning_lost : ∃ s, Runs 20 (empty "") returning s ∧ Named (history Notebook.new returning).heap 0 ∧
    (history Notebook.new returning).heap (some 0) "f" = some 1 ∧ ¬Recorded s (some 0) "f" 1 := by
  refine ⟨final returning, runs_final (by decide), .var "y" 0 (by simp [history, returning, after, Notebook.new, assign]),
    by simp [history, returning, after, Notebook.new, assign], ?_⟩
  rintro ⟨a, h, _⟩
  have : (final returning).tab (some 0) = [] := by decide
  rw [this] at h; simp at h

/-- `x = A()`, `del x`, `x = B()` in one cell. -/
def reused : List (Op Nat String) := [.bind none "x" 0, .delete none "x" false, .bind none "x" 1, .gc]

/-- A name that is deleted and used again in one cell is forgotten although it stands for something. -/
theorem reused_lost : ∃ s, Runs 20 (empty "") reused s ∧ (history Notebook.new reused).heap none "x" = some 1 ∧ ¬Recorded s none "x" 1 := by
  refine ⟨final reused, runs_final (by decide), by simp [history, reused, after, Notebook.new, assign], ?_⟩
  rintro ⟨a, h, _⟩
  have : (final reused).tab none = [] := by decide
  rw [this] at h; simp at h

end Verif.Garbage
