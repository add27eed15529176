import Verif.Callee.Props

/-! # Where the names of a running function are looked up: cases -/

namespace Verif.Callee.Witness

/-- `def make(a): def f(): return a; return f`, then `h1 = make(p)`, `h2 = make(q)`, `h1()`,
`h2()`.  Variables: 1 `make`, 2 and 3 the `f` of each call, 4 `h1`, 5 `h2`; functions 10, 11, 12;
statements 100 and 101. -/
def closures : List Ev :=
  [ .enter 12 101, .before (some 5), .done true, .leave true, .enter 11 101, .before (some 4),
    .done true, .assign 5 12 [1, 3], .leave true, .done false, .define 3 12 12 101 21 true [],
    .enter 10 100, .before (some 1),
    .done true, .assign 4 11 [1, 2], .leave true, .done false, .define 2 11 11 101 21 true [],
    .enter 10 100, .before (some 1),
    .done true, .define 1 10 10 100 20 true [] ]

theorem closures_tidy : Tidy closures := by
  have r1 : ∀ l, Reaches (l ++ [.define 1 10 10 100 20 true []]) 1 10 := by
    intro l
    induction l with
    | nil => exact .defined ..
    | cons e l ih => exact .older _ _ _ _ ih
  have older : ∀ (l h : List Ev) (x f : Nat), Reaches h x f → Reaches (l ++ h) x f := by
    intro l h x f hr
    induction l with
    | nil => exact hr
    | cons e l ih => exact .older _ _ _ _ ih
  have r5 := older [.leave true, .done false] _ 3 12 (.defined 3 12 101 21 []
      [.enter 10 100, .before (some 1),
       .done true, .assign 4 11 [1, 2], .leave true, .done false,
       .define 2 11 11 101 21 true [], .enter 10 100, .before (some 1),
       .done true, .define 1 10 10 100 20 true []])
  have r4' := older [.before (some 4), .done true, .assign 5 12 [1, 3], .leave true, .done false,
    .define 3 12 12 101 21 true [], .enter 10 100, .before (some 1), .done true] _ 4 11
    (.copied 4 11 2 [1, 2] _ (by simp) (older [.leave true, .done false] _ 2 11
      (.defined 2 11 101 21 []
      [.enter 10 100, .before (some 1), .done true, .define 1 10 10 100 20 true []])))
  have r5' := older [.before (some 5), .done true, .leave true, .enter 11 101, .before (some 4),
    .done true] _ 5 12 (.copied 5 12 3 [1, 3] _ (by simp) r5)
  refine ⟨?_, Or.inl ⟨5, by simp [Named], r5'⟩⟩
  refine ⟨⟨⟨⟨?_, Or.inl ⟨4, by simp [Named], r4'⟩⟩, trivial⟩, trivial⟩, trivial⟩
  refine ⟨⟨⟨⟨⟨⟨⟨?_, Or.inl ⟨1, by simp [Named], r1 (_ :: _ :: _ :: _ :: _ :: _ :: _ :: _ :: [.done true])⟩⟩, by
    simp [binders, makes]⟩, trivial⟩, trivial⟩, by simp [binders]⟩, trivial⟩, trivial⟩
  refine ⟨⟨⟨⟨⟨⟨⟨?_, Or.inl ⟨1, by simp [Named], r1 [_, .done true]⟩⟩, by
    simp [binders, makes]⟩, trivial⟩, trivial⟩, by simp [binders]⟩, trivial⟩, trivial⟩
  exact ⟨⟨⟨trivial, by simp [binders, makes]⟩, trivial⟩, trivial⟩

/-- The calls of `h1` and `h2` look `a` up in the first and in the second call of `make`. -/
example : Right closures ∧ (real closures).frames =
    [(4, some (2, 21)), (3, some (1, 21)), (2, some (0, 20)), (1, some (0, 20))] :=
  ⟨callee_partial _ closures_tidy, by decide⟩

/-- `def g(v): ...` (variable 1, function 10) and a class with a property `p` whose getter is
variable 2, function 11. -/
def pair : List Ev :=
  [.done true, .define 2 11 11 101 21 true [], .done true, .define 1 10 10 100 20 true []]

theorem pair_tidy : Tidy pair :=
  ⟨⟨⟨⟨trivial, by simp [binders, makes]⟩, trivial⟩, by simp [binders, makes]⟩, trivial⟩

theorem pair_g : Reaches pair 1 10 :=
  .older _ _ _ _ (.older _ _ _ _ (.older _ _ _ _ (.defined ..)))

theorem pair_p : Reaches pair 2 11 := .older _ _ _ _ (.defined ..)

/-- `g(c.p)`: the getter is taken for `g`. -/
example : ¬Right (.enter 11 101 :: .before (some 1) :: pair) :=
  argument_wrong pair pair_tidy 1 10 pair_g 11 101 (by decide)

example : (run (.enter 11 101 :: .before (some 1) :: pair)).calls =
    [(1, find (real pair).made 10)] :=
  taken_for_named (.before (some 1) :: pair) ⟨pair_tidy, trivial⟩ 1 10 (by simp [Named]) (.older _ _ _ _ pair_g) 11 101

/-- `g(1)`, with `return c.p` in the body of `g`. -/
example : ¬Right (.enter 11 101 :: .enter 10 100 :: .before (some 1) :: pair) :=
  first_statement_wrong pair pair_tidy 1 10 pair_g 11 101 100 (by decide)

example : ¬Right (.enter 11 101 :: .before (some 1) :: pair) :=
  busy_wrong (.before (some 1) :: pair) ⟨pair_tidy, trivial⟩ 1 10 (by simp [Named]) (.older _ _ _ _ pair_g) 11 101
    (by decide)

/-- `g(l())` with a lambda `l`, here the second function. -/
example : ¬Right (.enter 10 100 :: .leave false :: .enter 11 101 :: .before (some 2) ::
    .before (some 1) :: pair) :=
  lambda_wrong pair pair_tidy 1 10 2 11 pair_p 100 101 (by decide)

/-- `g(l())` where `l` has a `return`. -/
example : Right (.enter 10 100 :: .leave true :: .enter 11 101 :: .before (some 2) ::
    .before (some 1) :: pair) :=
  returned_right pair pair_tidy 1 10 2 11 pair_p 100 101
    ⟨⟨1, 20, [], by simp [pair]⟩, by simp +contextual [pair]⟩

/-- `g = partial(p)`: calls of `g` run the second function in the scope of the first `g`. -/
example : ¬Right (.enter 11 101 :: .before (some 1) :: .assign 1 50 [2] :: pair) :=
  rebound_wrong pair pair_tidy 1 10 50 11 101 [2] pair_g
    (by
      intro y hy hr
      have := reaches_makes hr
      simp [pair, makes] at this)
    (by decide)

/-- `@deco def k(): ...` (variable 3, function 12), where `deco` gives back the function 11. -/
example : ¬Right (.enter 11 101 :: .before (some 3) ::
    .define 3 11 12 102 22 true [1] :: pair) :=
  decorated_wrong pair pair_tidy 3 11 12 102 101 22 [1]
    (by
      intro y hy hr
      rcases List.mem_singleton.1 hy with rfl
      have hk := (inv_of_tidy pair pair_tidy).known 1 11 hr
      obtain ⟨s, p, hs, ho, _⟩ := hk
      have : Assoc.get (run pair).syms 1 = some ⟨10, some (0, 20)⟩ := by decide
      rw [this] at hs
      cases hs
      simp at ho)
    (by decide) (by decide)

/-- The first call of `make` made the function 11, the second one, still running, makes 12; then
11 is called without a name. -/
def twice : List Ev :=
  [ .enter 10 100, .before (some 1),
    .done true, .assign 4 11 [1, 2], .leave true, .done false, .define 2 11 11 101 21 true [],
    .enter 10 100, .before (some 1),
    .done true, .define 1 10 10 100 20 true [] ]

theorem twice_tidy : Tidy twice := closures_tidy.1.1.1.1.1.1.1.1.1.1.1

example : ¬Right (.enter 11 101 :: .done false :: .define 3 12 12 101 21 true [] :: twice) :=
  earlier_wrong twice twice_tidy 3 11 12 101 21 [] false (by simp) (by decide) (by decide)

/-- `def make(a): global k; def k(): return a`. -/
example : ¬Right (.enter 12 101 :: .before (some 3) ::
    .define 3 12 12 101 21 false [] :: twice) :=
  global_wrong twice twice_tidy 3 12 101 101 21 [] (by simp) (by decide)

/-- The full claim is false. -/
theorem callee_claim_false : ¬∀ h, Right h := fun hc =>
  argument_wrong pair pair_tidy 1 10 pair_g 11 101 (by decide) (hc _)

end Verif.Callee.Witness
