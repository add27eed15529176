import Verif.Args.Props

/-!
# Cases and violations for arguments of calls

Symbols are numbers: `a` is 1, `b` is 2, `d` is 3, `obj` is 4; objects are numbers too.
-/

namespace Verif.Args

/-- The variables where the call is. -/
def wenv : String → Option Nat := fun x =>
  if x = "a" then some 1 else if x = "b" then some 2 else if x = "d" then some 3
  else if x = "obj" then some 4 else none

/-- The objects of the parameters. -/
def wlocals : String → Option Nat := fun _ => some 10

/-- `def f(x, y=d, z=0)` -/
def wf : Sig Nat := ⟨[], ["x", "y", "z"], none, [], none, [.name "d", .const], []⟩

/-- `f(a, z=b)` -/
def wcall : Call Nat := ⟨[.plain (.name "a")], [.named "z" (.name "b")]⟩

theorem wf_wf : Wf wf := ⟨by decide, by decide⟩

theorem wself : SelfIsReceiver wf none := by
  simp [SelfIsReceiver, wf, required]

theorem waccepted : Accepted wf none wcall where
  once := by
    intro i p h1 h2
    have hi : i = 0 := by simp [passed, wcall, values] at h2; exact h2
    subst hi
    simp [slots, wf] at h1
    subst h1
    rintro (⟨e, h⟩ | ⟨e, ns, h, -⟩)
    · simp [wcall] at h
    · simp [wcall] at h
  keys := by
    intro x e e' h h'
    simp [wcall] at h h'
    rw [h.2, h'.2]

/-- The hypotheses of `received_partial` can be met: `x` gets `a`, `y` its default and `z` gets
`b`. -/
example : ∃ y, (create wenv wf (some wcall) wlocals).lookup "z" = some y ∧
    y.obj = wlocals "z" ∧ ∀ s ∈ computedFrom wenv wenv (.given (.name "b")), s ∈ y.deps :=
  received_partial wenv wenv wf none wcall wlocals "z" wf_wf waccepted rfl wself
    (Or.inr (by decide))
    (by intro a h; simp [wcall] at h; exact ⟨_, h⟩)
    (by intro k h; simp [wcall] at h; exact ⟨_, _, h, by decide, Or.inr (by decide)⟩)
    (fun _ _ => rfl) (by decide) (by simp) _
    (.keyword (by decide) (by simp [wcall])) trivial

example : ∃ y, (create wenv wf (some wcall) wlocals).lookup "y" = some y ∧
    y.obj = wlocals "y" ∧ ∀ s ∈ computedFrom wenv wenv (.default (.name "d")), s ∈ y.deps :=
  received_partial wenv wenv wf none wcall wlocals "y" wf_wf waccepted rfl wself
    (Or.inr (by decide))
    (by intro a h; simp [wcall] at h; exact ⟨_, h⟩)
    (by intro k h; simp [wcall] at h; exact ⟨_, _, h, by decide, Or.inr (by decide)⟩)
    (fun _ _ => rfl) (by decide) (by simp) _
    (.default (i := 0) rfl rfl (by decide)
      (by rintro (⟨e, h⟩ | ⟨e, ns, h, -⟩) <;> simp [wcall] at h)) trivial

/-- The hypotheses of `only_received_partial` can be met, with a symbol to find. -/
example : ∃ src, Gets wf none wcall "x" src ∧ 1 ∈ computedFrom wenv wenv src :=
  only_received_partial wenv wenv wf none wcall wlocals wf_wf rfl wself (by decide)
    (fun _ _ => rfl) "x" ⟨some 10, [1]⟩ (by decide) 1 (by decide)

/-- A method `def m(self, x)` called by `obj.m(a)`. -/
example : ∃ y, (create wenv ⟨[], ["self", "x"], none, [], none, [], []⟩
    (some ⟨[.plain (.name "a")], []⟩) wlocals).lookup "x" = some y ∧ y.obj = wlocals "x" ∧
    ∀ s ∈ computedFrom wenv wenv (.given (.name "a")), s ∈ y.deps :=
  received_partial wenv wenv ⟨[], ["self", "x"], none, [], none, [], []⟩ (some (.name "obj"))
    ⟨[.plain (.name "a")], []⟩ wlocals "x" ⟨by decide, by decide⟩
    ⟨by rintro i p h1 h2 (⟨e, h⟩ | ⟨e, ns, h, -⟩) <;> simp at h, by intro x e e' h; simp at h⟩
    rfl (by simp [SelfIsReceiver, required]) (Or.inl (by decide))
    (by intro a h; simp at h; exact ⟨_, h⟩) (by intro k h; simp at h)
    (fun _ _ => rfl) (by decide) (by intro _; decide) _
    (.position (i := 1) rfl rfl) trivial

/-- `parameter_found_partial` for `def f(x, *, k, **kw)`, though there is a variable `k`. -/
example : ∃ y, find (fun _ => some ⟨some 99, [9]⟩)
    (callScope false [] wenv ⟨[], ["x"], none, ["k"], some "kw", [], []⟩
      (some ⟨[.plain (.name "a")], [.named "k" (.name "b")]⟩) wlocals) "k" = some y ∧
    find (fun _ => none)
    (callScope false [] wenv ⟨[], ["x"], none, ["k"], some "kw", [], []⟩
      (some ⟨[.plain (.name "a")], [.named "k" (.name "b")]⟩) wlocals) "k" = some y :=
  parameter_found_partial wenv _ _ wlocals [] _ _ "k" (Or.inr (Or.inl (by decide)))

/-- `only_parameters`: another name. -/
example : find (fun _ => some ⟨some 99, [9]⟩)
    (callScope false [] wenv wf (some wcall) wlocals) "g" = some ⟨some 99, [9]⟩ :=
  only_parameters wenv wf (some wcall) wlocals [] _ "g" (by decide)

/-! ## Violations -/

/-- `f(a, b)` for `def f(x, y=d, z=0)`: `y` received `b`, but depends on `d` and not on `b`. -/
theorem default_instead :
    Gets wf none ⟨[.plain (.name "a"), .plain (.name "b")], []⟩ "y" (.given (.name "b")) ∧
      (∀ src, Gets wf none ⟨[.plain (.name "a"), .plain (.name "b")], []⟩ "y" src →
        src = .given (.name "b")) ∧
      (create wenv wf (some ⟨[.plain (.name "a"), .plain (.name "b")], []⟩)
        wlocals).lookup "y" = some ⟨some 10, [3]⟩ := by
  refine ⟨.position (i := 1) rfl rfl, ?_, by decide⟩
  intro src h
  cases h with
  | @position i _ e h1 h2 =>
    have : i < 2 := by
      have := (List.getElem?_eq_some_iff.1 h2).1
      simpa [passed, values] using this
    match i, this with
    | 0, _ => simp [slots, wf] at h1
    | 1, _ => simp [passed, values] at h2; rw [h2]
  | keyword _ h => simp at h
  | unpacked _ h => simp at h
  | rest h => simp [wf] at h
  | more h => simp [wf] at h
  | moreUnpacked h => simp [wf] at h
  | @default i _ e h1 h2 h3 =>
    simp [passed, values, slots, wf] at h3 h1
    have : i < 2 := by
      have := (List.getElem?_eq_some_iff.1 h2).1
      simpa [wf] using this
    match i, this with
    | 0, _ => omega
    | 1, _ => simp at h1
  | kwDefault h => simp [wf] at h

/-- `f(x=a)` for the same function: a keyword argument for a parameter without default, and
nothing is matched at all. -/
theorem keyword_for_required :
    Gets wf none ⟨[], [.named "x" (.name "a")]⟩ "x" (.given (.name "a")) ∧
      (create wenv wf (some ⟨[], [.named "x" (.name "a")]⟩) wlocals).lookup "x"
        = some ⟨none, []⟩ :=
  ⟨.keyword (by decide) (by simp), by decide⟩

/-- `f(a, k=b)` for `def f(x, *, k)`: an argument for a keyword only parameter, and nothing is
matched at all. -/
theorem keyword_only_lost :
    (create wenv ⟨[], ["x"], none, ["k"], none, [], []⟩
      (some ⟨[.plain (.name "a")], [.named "k" (.name "b")]⟩) wlocals).lookup "x"
        = some ⟨none, []⟩ ∧
    (create wenv ⟨[], ["x"], none, ["k"], none, [], []⟩
      (some ⟨[.plain (.name "a")], [.named "k" (.name "b")]⟩) wlocals).lookup "k"
        = some ⟨none, []⟩ := by decide

/-- `f(a + b)` for `def f(x)`: the parameter depends on nothing. -/
theorem compound_lost :
    Gets (S := Nat) ⟨[], ["x"], none, [], none, [], []⟩ none
        ⟨[.plain (.pair (.name "a") (.name "b"))], []⟩ "x"
        (.given (.pair (.name "a") (.name "b"))) ∧
      (create wenv ⟨[], ["x"], none, [], none, [], []⟩
        (some ⟨[.plain (.pair (.name "a") (.name "b"))], []⟩) wlocals).lookup "x"
        = some ⟨some 10, []⟩ :=
  ⟨.position (i := 0) rfl rfl, by decide⟩

/-- `obj.m(a)` for a method `def m(this, x)`, or `def m(cls, x)` of a class: the receiver
depends on the argument, and the parameter for the argument on nothing. -/
theorem receiver_shift :
    Gets (S := Nat) ⟨[], ["cls", "x"], none, [], none, [], []⟩ (some (.name "obj"))
        ⟨[.plain (.name "a")], []⟩ "x" (.given (.name "a")) ∧
      (create wenv ⟨[], ["cls", "x"], none, [], none, [], []⟩
        (some ⟨[.plain (.name "a")], []⟩) wlocals).lookup "cls" = some ⟨some 10, [1]⟩ ∧
      (create wenv ⟨[], ["cls", "x"], none, [], none, [], []⟩
        (some ⟨[.plain (.name "a")], []⟩) wlocals).lookup "x" = some ⟨none, []⟩ :=
  ⟨.position (i := 1) rfl rfl, by decide, by decide⟩

/-- `C.m(obj, a)` for a method `def m(self, x)`: the parameter depends on `obj` and not on
`a`. -/
theorem unbound_shift :
    Gets (S := Nat) ⟨[], ["self", "x"], none, [], none, [], []⟩ none
        ⟨[.plain (.name "obj"), .plain (.name "a")], []⟩ "x" (.given (.name "a")) ∧
      (create wenv ⟨[], ["self", "x"], none, [], none, [], []⟩
        (some ⟨[.plain (.name "obj"), .plain (.name "a")], []⟩) wlocals).lookup "x"
        = some ⟨some 10, [4]⟩ :=
  ⟨.position (i := 1) rfl rfl, by decide⟩

/-- `f()` for `def f(x=d)`, where `d` has come to be another variable since: the parameter
depends on the new one. -/
theorem default_rebound :
    Gets (S := Nat) ⟨[], ["x"], none, [], none, [.name "d"], []⟩ none ⟨[], []⟩ "x"
        (.default (.name "d")) ∧
      computedFrom (fun _ => some 7) wenv (.default (.name "d")) = [3] ∧
      (create (fun _ => some 7) ⟨[], ["x"], none, [], none, [.name "d"], []⟩
        (some ⟨[], []⟩) wlocals).lookup "x" = some ⟨some 10, [7]⟩ :=
  ⟨.default (i := 0) rfl rfl (by decide)
    (by rintro (⟨e, h⟩ | ⟨e, ns, h, -⟩) <;> simp at h), rfl, by decide⟩

/-- `f()` for `def f(x=d, /, y=0)`: `y` depends on the default of `x`. -/
theorem default_of_another :
    (create wenv ⟨["x"], ["y"], none, [], none, [.name "d", .const], []⟩
      (some ⟨[], []⟩) wlocals).lookup "y" = some ⟨some 10, [3]⟩ := by decide

/-- `positional_only_lost` can be met: `def f(x, /)` and a variable `x`. -/
example : find (fun _ => some ⟨some 99, [9]⟩)
    (callScope false [] wenv ⟨["x"], [], none, [], none, [], []⟩
      (some ⟨[.plain (.name "a")], []⟩) wlocals) "x" = some ⟨some 99, [9]⟩ :=
  positional_only_lost wenv _ _ wlocals [] _ ⟨by decide, by decide⟩ "x" (by decide)

/-- `same_cell_lost`: `def f(x)` called where it is defined, and a variable `x`. -/
example : find (fun _ => some ⟨some 99, [9]⟩)
    (callScope true [] wenv ⟨[], ["x"], none, [], none, [], []⟩
      (some ⟨[.plain (.name "a")], []⟩) wlocals) "x" = some ⟨some 99, [9]⟩ :=
  same_cell_lost wenv _ _ wlocals _ "x"

/-- `receiver_lost` can be met. -/
example : (create wenv ⟨[], ["self", "x"], none, [], none, [], []⟩
    (some ⟨[.plain (.name "a")], []⟩) wlocals).lookup "self" = some ⟨none, []⟩ :=
  receiver_lost wenv ⟨[], ["self", "x"], none, [], none, [], []⟩ (.name "obj") _ wlocals
    ⟨by decide, by decide⟩ rfl (by simp [SelfIsReceiver, required])
    ⟨by rintro i p h1 h2 (⟨e, h⟩ | ⟨e, ns, h, -⟩) <;> simp at h, by intro x e e' h; simp at h⟩

end Verif.Args
