import Verif.Target.Props

/-!
# Concrete cases
-/

namespace Verif.Target

/-- A module. -/
def module_ : Block := ⟨false, .binds, true⟩

/-- The module assigns `x`; a function of it has an `x` too; a class in there; a method that
declares `x` global, in which a function is defined.  Innermost first. -/
def nested : List Block :=
  [⟨false, .isNonlocal, true⟩, ⟨false, .binds, true⟩, ⟨true, .binds, false⟩,
   ⟨false, .isGlobal, true⟩, module_]

theorem nested_wf : Wf nested := by
  refine ⟨by simp [nested], ?_⟩
  intro b hb
  simp [nested, module_] at hb
  subst hb; exact ⟨rfl, rfl⟩

theorem nested_owner0 : Owner nested 0 1 := by
  refine .outer (b := ⟨false, .isNonlocal, true⟩) (c := ⟨false, .binds, true⟩) rfl (.inl rfl)
    (by omega) rfl rfl rfl ?_
  intro k d h1 h2; omega

theorem nested_runs : Runs nested
    [.bind 4 10, .bind 1 20, .bind 0 30, .bind 2 40, .bind 3 50, .del 2]
    (fun k => if k = 2 then none else if k = 4 then some 50 else if k = 2 then some 40 else
      if k = 1 then some 30 else if k = 1 then some 20 else if k = 4 then some 10 else none)
    (delete 2 (store nested 3 50 true (store nested 2 40 true (store nested 0 30 true
      (store nested 1 20 true (store nested 4 10 true (fun _ => none))))))) := by
  have o4 : Owner nested 4 4 := .own (b := module_) rfl rfl
  have o1 : Owner nested 1 1 := .own (b := ⟨false, .binds, true⟩) rfl rfl
  have o2 : Owner nested 2 2 := .own (b := ⟨true, .binds, false⟩) rfl rfl
  have o3 : Owner nested 3 4 := .global (b := ⟨false, .isGlobal, true⟩) rfl rfl
  have u : ∀ (j : Nat) (b : Block), nested[j]? = some b → b.decl ≠ .uses := by
    intro j b hb
    have : b ∈ nested := List.mem_of_getElem? hb
    simp [nested, module_] at this
    rcases this with rfl | rfl | rfl | rfl | rfl <;> simp
  exact .del (ops := [.bind 4 10, .bind 1 20, .bind 0 30, .bind 2 40, .bind 3 50])
    (.bind (ops := [.bind 4 10, .bind 1 20, .bind 0 30, .bind 2 40])
    (.bind (ops := [.bind 4 10, .bind 1 20, .bind 0 30])
    (.bind (ops := [.bind 4 10, .bind 1 20])
    (.bind (ops := [.bind 4 10])
    (.bind (ops := []) .start (.bind o4 (u 4)))
      (.bind o1 (u 1))) (.bind nested_owner0 (u 0))) (.bind o2 (u 2))) (.bind o3 (u 3)))
    (.del o2 (u 2))

theorem nested_plain : ∀ op ∈ ([.bind 4 10, .bind 1 20, .bind 0 30, .bind 2 40, .bind 3 50,
    .del 2] : List (Op Nat)), Plain nested op := by
  intro op hop
  simp only [List.mem_cons, List.not_mem_nil, or_false] at hop
  rcases hop with rfl | rfl | rfl | rfl | rfl | rfl <;> intro b hb <;>
    simp [nested, module_] at hb <;> subst hb <;> simp [nested_owner0]

/-- The hypotheses of `recorded_partial` and `read_partial` in this case: the innermost
function assigns the `x` of the method around it, and it sees it. -/
example : lookup nested (delete 2 (store nested 3 50 true (store nested 2 40 true
    (store nested 0 30 true (store nested 1 20 true (store nested 4 10 true
      (fun _ => none))))))) 0 = some 30 :=
  read_partial nested nested_wf _ _ _ nested_runs nested_plain 0 1 30 nested_owner0 rfl
    (by intro b hb; simp [nested] at hb; subst hb; simp)

/-- And the function at the outside, which declares `x` global, sees the global one. -/
example : lookup nested (delete 2 (store nested 3 50 true (store nested 2 40 true
    (store nested 0 30 true (store nested 1 20 true (store nested 4 10 true
      (fun _ => none))))))) 3 = some 50 :=
  read_partial nested nested_wf _ _ _ nested_runs nested_plain 3 4 50
    (.global (b := ⟨false, .isGlobal, true⟩) rfl rfl) rfl
    (by intro b hb _ k c h1 h2; simp [nested] at h2; omega)

/-! ## `nonlocal` past a function -/

/-- A function `f` with a variable, in it a function that does not use it, in it a function
that declares it nonlocal. -/
def far : List Block :=
  [⟨false, .isNonlocal, true⟩, ⟨false, .uses, true⟩, ⟨false, .binds, true⟩, module_]

theorem far_owner : Owner far 0 2 := by
  refine .outer (b := ⟨false, .isNonlocal, true⟩) (c := ⟨false, .binds, true⟩) rfl (.inl rfl)
    (by omega) rfl rfl rfl ?_
  intro k d h1 h2 hd _
  have : k = 1 := by omega
  subst this
  simp [far] at hd
  subst hd; simp

/-- After `x = 1` in `f` and `x = 2` in the innermost function, the symbol of `f` still has
the first value. -/
theorem far_stale : ∃ w t, Runs far [.bind 2 (1 : Nat), .bind 0 2] w t ∧
    w 2 = some 2 ∧ t 2 = some 1 ∧ lookup far t 2 = some 1 := by
  have u : ∀ j, j = 0 ∨ j = 2 → ∀ b, far[j]? = some b → b.decl ≠ .uses := by
    rintro j (rfl | rfl) b hb <;> simp [far] at hb <;> subst hb <;> simp
  exact ⟨_, _, .bind (ops := [.bind 2 1]) (.bind (ops := []) .start
    (.bind (.own (b := ⟨false, .binds, true⟩) rfl rfl) (u 2 (.inr rfl))))
    (.bind far_owner (u 0 (.inl rfl))), rfl, rfl, rfl⟩

example : store far 0 7 false (fun _ => none) 2 = none ∧
    store far 0 7 false (fun _ => none) 1 = some 7 :=
  nonlocal_far far 0 2 _ 7 _ false rfl rfl rfl rfl far_owner (by omega)

/-- The same two functions without table of symbols. -/
def untabled : List Block :=
  [⟨false, .isNonlocal, false⟩, ⟨false, .binds, true⟩, module_]

theorem untabled_owner : Owner untabled 0 1 := by
  refine .outer (b := ⟨false, .isNonlocal, false⟩) (c := ⟨false, .binds, true⟩) rfl (.inl rfl)
    (by omega) rfl rfl rfl ?_
  intro k d h1 h2; omega

example : store untabled 0 7 false (fun _ => none) 1 = none ∧
    store untabled 0 7 false (fun _ => none) 0 = some 7 :=
  nonlocal_unknown untabled 0 1 _ 7 _ false rfl rfl rfl rfl untabled_owner

/-- A class in a function, with `nonlocal x` in its body. -/
def inClass : List Block := [⟨true, .isNonlocal, false⟩, ⟨false, .binds, true⟩, module_]

example : store inClass 0 7 true (fun _ => none) 2 = some 7 ∧
    store inClass 0 7 false (fun _ => none) = fun _ => none :=
  nonlocal_in_class inClass 0 _ 7 _ rfl rfl rfl rfl

/-- A function with `global x`. -/
def globally : List Block := [⟨false, .isGlobal, true⟩, module_]

/-- `x = 1` in the module; `global x; del x` in a function: the symbol is still there, and
code of the module that uses `x` is taken to use it. -/
theorem deleted_stays : ∃ w t, Runs globally [.bind 1 (1 : Nat), .del 0] w t ∧
    w 1 = none ∧ lookup globally t 1 = some 1 := by
  have u : ∀ (j : Nat) (b : Block), globally[j]? = some b → b.decl ≠ .uses := by
    intro j b hb
    have : b ∈ globally := List.mem_of_getElem? hb
    simp [globally, module_] at this
    rcases this with rfl | rfl <;> simp
  exact ⟨_, _, .del (ops := [.bind 1 1]) (.bind (ops := []) .start
    (.bind (.own (b := module_) rfl rfl) (u 1)))
    (.del (.global (b := ⟨false, .isGlobal, true⟩) rfl rfl) (u 0)), rfl, rfl⟩

example : delete 0 (fun k => if k = 1 then some 5 else none) 1 = some 5 :=
  declared_deleted globally 0 1 _ (.global (b := ⟨false, .isGlobal, true⟩) rfl rfl) (by omega)

/-- A function that declares `x` global within one that has its own `x`. -/
def shadowed : List Block := [⟨false, .isGlobal, true⟩, ⟨false, .binds, true⟩, module_]

/-- The global `x` is used, and the `x` of the function around is taken to be. -/
theorem global_read_shadowed : ∃ w t, Runs shadowed [.bind 2 (1 : Nat), .bind 1 2] w t ∧
    (∀ op ∈ ([.bind 2 1, .bind 1 2] : List (Op Nat)), Plain shadowed op) ∧
    Owner shadowed 0 2 ∧ w 2 = some 1 ∧ lookup shadowed t 0 = some 2 := by
  have u : ∀ (j : Nat) (b : Block), shadowed[j]? = some b → b.decl ≠ .uses := by
    intro j b hb
    have : b ∈ shadowed := List.mem_of_getElem? hb
    simp [shadowed, module_] at this
    rcases this with rfl | rfl | rfl <;> simp
  refine ⟨_, _, .bind (ops := [.bind 2 1]) (.bind (ops := []) .start
    (.bind (.own (b := module_) rfl rfl) (u 2)))
    (.bind (.own (b := ⟨false, .binds, true⟩) rfl rfl) (u 1)), ?_,
    .global (b := ⟨false, .isGlobal, true⟩) rfl rfl, rfl, rfl⟩
  intro op hop
  simp only [List.mem_cons, List.not_mem_nil, or_false] at hop
  rcases hop with rfl | rfl <;> intro b hb <;>
    simp [shadowed, module_] at hb <;> subst hb <;> simp

end Verif.Target
