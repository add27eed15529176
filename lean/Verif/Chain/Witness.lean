import Verif.Chain.Props

/-!
# Examples for C115
-/

namespace Verif.Chain

/-- `x` is 1, `y` is 3; `x.a` is the list 2 with the elements 20, 21; `y.b` is the number 10, which as an index is 1, `x.n` is `None`, which is 0, and has
`__class__`; `x[…]` with a slice is 30, and has a method `copy`. -/
def things : World Nat where
  val x := if x = "x" then some 1 else if x = "y" then some 3 else none
  get o k :=
    if o = 1 ∧ k = .attr "a" then some 2
    else if o = 1 ∧ k = .attr "n" then some 0
    else if o = 3 ∧ k = .attr "b" then some 10
    else if o = 2 ∧ (k = .sub (.int 0) ∨ k = .sub (.int (-2))) then some 20
    else if o = 2 ∧ (k = .sub (.int 1) ∨ k = .sub (.int (-1))) then some 21
    else if o = 0 ∧ k = .attr "__class__" then some 50
    else if o = 1 ∧ k = .sub (.other 0 false) then some 30
    else if o = 30 ∧ k = .attr "copy" then some 31
    else none
  ret o k := if o = 30 ∧ k = .attr "copy" then some 32 else none
  cls o := 100 + o
  len o := if o = 2 then some 2 else none
  own _ _ := true
  skip o := o == 0
  idx o := if o = 10 then .int 1 else .other o false

/-- The variables have symbols 0 and 1; nothing else is known. -/
def start : St Nat where
  tab _ _ := none
  obj a := if a = 0 then 1 else 3
  next := 2
  vars x := if x = "x" then some 0 else if x = "y" then some 1 else none
  outer _ := none
  made _ := false
  base _ := none
  active := none
  saved := none
  first := none
  top := none
  loaded _ := []
  pend _ := none
  stores _ := none
  dels _ := none

theorem start_wf : Wf start where
  old _ _ _ h := nomatch h
  one _ _ _ _ _ h := nomatch h
  plain _ _ _ h := nomatch h
  vars x a h := by
    refine ⟨?_, fun _ _ g => nomatch g⟩
    simp only [start] at h
    split at h
    · cases h; decide
    · split at h
      · cases h; decide
      · cases h

theorem start_clean : Clean start := ⟨rfl, rfl, rfl, rfl⟩

theorem start_base : ∀ o, start.made o = false → start.base o = none := fun _ _ => rfl

theorem things_seq : Seq things := by
  intro o n i v hl hi hg
  simp only [things] at hl
  split at hl
  · rename_i ho
    subst ho
    cases hl
    by_cases h1 : i = -1
    · subst h1
      exact hg
    · by_cases h2 : i = -2
      · subst h2
        exact hg
      · have h3 : i ≠ 0 := by omega
        have h4 : i ≠ 1 := by omega
        simp [things, h1, h2, h3, h4] at hg
  · cases hl

/-- `x.a[-1]` -/
def lastOf : Exp := .part (.part (.var "x") (.attr "a")) (.sub (.int (-1)))

theorem val_x {o} (h : Val things (.var "x") o) : o = 1 := by
  cases h with
  | var h => exact (Option.some.inj h).symm

theorem val_xa {o} (h : Val things (.part (.var "x") (.attr "a")) o) : o = 2 := by
  cases h with
  | part h g => cases val_x h; exact (Option.some.inj g).symm

theorem lastOf_val : Val things lastOf 21 := .part (.part (.var rfl) rfl) rfl

theorem lastOf_fine : Fine things lastOf := by
  intro o k h
  cases h with
  | part h => cases val_xa h; exact ⟨rfl, .int _⟩
  | partIn h =>
    cases h with
    | part h => cases val_x h; exact ⟨rfl, .attr _⟩
    | partIn h => nomatch h

theorem lastOf_safe : Safe lastOf := trivial

example : ∀ o k u, Reads things lastOf o k u → Recorded things (eval things 7 lastOf start).2 o k u :=
  recorded_partial things_seq lastOf_safe lastOf_fine trivial start_wf start_base start_clean lastOf_val

example : ∃ a, Part things (eval things 7 lastOf start).2 2 (.sub (.int (-1))) a ∧ (eval things 7 lastOf start).2.obj a = 21 ∧
    a ∈ (eval things 7 lastOf start).2.loaded 7 :=
  last_loaded_partial things_seq lastOf_safe lastOf_fine trivial start_wf start_base start_clean lastOf_val
    (.part (.part (.var rfl) rfl))

/-- What is said to have been read: the symbol made for the element. -/
example : (eval things 7 lastOf start).2.loaded 7 = [3] ∧ (eval things 7 lastOf start).2.tab 1 (.attr "a") = some 2 := by decide

example : ∀ a ∈ (eval things 7 lastOf start).2.loaded 7, a ∈ start.loaded 7 ∨
    (∃ o k, Asks things lastOf o k ∧ (Part things (eval things 7 lastOf start).2 o k a ∨
      OfClass (eval things 7 lastOf start).2 o k a)) ∨
    (∃ x, Occurs x lastOf ∧ (start.vars x = some a ∨ start.outer x = some a)) ∨ start.next ≤ a :=
  fun _ h => loaded_only_partial things_seq lastOf_safe lastOf_fine trivial start_wf start_base start_clean lastOf_val h

example : (eval things 7 lastOf start).2.vars "y" = some 1 ∧ (eval things 7 lastOf start).2.obj 1 = 3 :=
  variables_kept_partial things_seq lastOf_safe lastOf_fine trivial start_wf start_base start_clean lastOf_val (x := "y") rfl

example : ∀ o k a, (eval things 7 lastOf start).2.tab o k = some a → start.tab o k = some a ∨ ∃ u, Reads things lastOf o k u :=
  (others_kept_partial things_seq lastOf_safe lastOf_fine trivial start_wf start_base start_clean lastOf_val).2.2

example : Clean (eval things 7 lastOf start).2 := clean_after (w := things) (n := 7) (s := start) (e := lastOf) (v := 21) trivial rfl

example : Val things lastOf 21 := value (s := start) (n := 7) (s' := (eval things 7 lastOf start).2) rfl

/-- `x.a[1] = …` and `del x.a[1]` -/
example : (target things .store 7 (.part (.var "x") (.attr "a")) (.sub (.int 1)) start).stores 7 = some (2, .sub (.int 1)) ∧
    (target things .del 7 (.part (.var "x") (.attr "a")) (.sub (.int 1)) start).dels 7 = some (2, .sub (.int 1)) :=
  target_right_partial things_seq (e := .part (.var "x") (.attr "a")) lastOf_safe (fun o k h => lastOf_fine o k (.partIn h)) start_wf start_base start_clean
    (.part (.var rfl) rfl) rfl (.int 1)

theorem odd : ¬ Plain (.sub (.other 0 false)) := by nofun

/-- `x[1:3] = …` -/
example : (target things .store 7 (.var "x") (.sub (.other 0 false)) start).stores = start.stores :=
  slice_store_lost (o := 1) rfl odd

/-- `x.a[y.b]`: afterwards `x.a` is recorded to be the object `y`. -/
example : Recorded things (eval things 7 (.item (.part (.var "x") (.attr "a")) 8 (.part (.var "y") (.attr "b"))) start).2 1 (.attr "a") 3 :=
  (index_confused (ox := 1) (oy := 3) (oa := 2) (j := 10) (v := 21) start_wf start_base start_clean rfl rfl rfl rfl rfl rfl rfl
    (by decide) (by decide)).2.1

/-- `try: x.missing` / `except AttributeError: y.b` -/
example : Recorded things (eval things 8 (.part (.var "y") (.attr "b")) (eval things 7 (.part (.var "x") (.attr "missing")) start).2).2
    1 (.attr "missing") 3 :=
  (missing_recorded (ox := 1) (oy := 3) (j := 10) start_wf start_base start_clean rfl rfl rfl rfl rfl rfl).2

/-- `x.n.__class__`: afterwards `x.n` is recorded to be the class. -/
example : Recorded things (eval things 7 (.part (.part (.var "x") (.attr "n")) (.attr "__class__")) start).2 1 (.attr "n") 50 :=
  (none_confused (ox := 1) (o := 0) start_wf start_base start_clean rfl rfl rfl (.attr _) rfl rfl).2

/-- `x[1:3]` and `x[1:3].copy()` -/
example : (eval things 7 (.part (.var "x") (.sub (.other 0 false))) start).2.loaded = start.loaded :=
  (slice_unloaded (ox := 1) (v := 30) start_wf start_clean rfl rfl odd).1

example : (eval things 7 (.call (.part (.var "x") (.sub (.other 0 false))) (.attr "copy")) start).2.loaded 7 = [2] :=
  (slice_call_detached (ox := 1) (o := 30) (f := 31) (v := 32) start_wf start_clean rfl rfl rfl rfl odd (.attr _) rfl rfl).1

/-- What the resolution of dependencies of `x[1:3] + y` finds. -/
def found : Rval.Env String Nat Nat where
  look := start.vars
  loaded := (eval things 7 (.part (.var "x") (.sub (.other 0 false))) start).2.loaded
  member _ _ := none
  const _ := false

example : Rval.deps found true [0, 1] (.op 6 (.pair (.sub 7 (.name "x") .done) (.name "y"))) = [1] :=
  slice_dependency_lost (w := things) (s := start) (ox := 1) (v := 30) (k := .sub (.other 0 false)) start_wf start_clean rfl rfl odd rfl rfl rfl rfl _

/-- `x.a`, for the first time, and again. -/
example : (eval things 7 (.part (.var "x") (.attr "a")) start).2.pend = start.pend :=
  first_read_unused (ox := 1) (v := 2) start_clean rfl rfl (by rintro c ⟨h⟩; cases h) rfl

example : ((eval things 8 (.part (.var "x") (.attr "a")) (eval things 7 (.part (.var "x") (.attr "a")) start).2).2.pend 2).isSome = true :=
  (known_used (ox := 1) (v := 2) (c := 0) (clean_after (w := things) (e := .part (.var "x") (.attr "a")) (n := 7) (s := start) (v := 2) trivial rfl)
    rfl rfl rfl rfl rfl (.here (by decide))).1

/-- The same in a function that reads a variable of an enclosing scope. -/
example : (eval things 8 (.part (.var "x") (.attr "a")) { (eval things 7 (.part (.var "x") (.attr "a")) start).2 with
    vars := fun _ => none
    outer := start.vars }).2.pend = start.pend :=
  enclosing_unused (ox := 1) (v := 2) ⟨rfl, rfl, rfl, rfl⟩ rfl rfl rfl

end Verif.Chain
