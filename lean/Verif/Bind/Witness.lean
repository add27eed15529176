import Verif.Bind.Reads

/-! # C100, C101, C102: cases that meet the hypotheses, and cases where the properties fail -/

namespace Verif.Bind

/-- Bound or deleted by the statement, all assignment expressions being evaluated and all variables having values, but not recorded. -/
def Missed (s : S String Nat) (ev : Ev String Nat) : Prop :=
  Does (fun _ => True) s ev ∧ ∃ evs, record (fun _ => true) s = .ok evs ∧ ev ∉ evs

/-- Recorded, but not bound or deleted by the statement when the given assignment expressions are evaluated. -/
def Invented (ran : Nat → Prop) (s : S String Nat) (ev : Ev String Nat) : Prop :=
  ¬ Does ran s ev ∧ ∃ evs, record (fun _ => true) s = .ok evs ∧ ev ∈ evs

/-- `5` -/
def five : E String Nat := .nil

/-- `f(x)` -/
def fx : E String Nat := .node (.pair (.var "f") (.var "x"))

theorem reads_var {x y : String} : Reads (.var y : E String Nat) x ↔ x = y :=
  ⟨fun h => by cases h; rfl, fun h => h ▸ .var⟩

theorem within_named {n m : Nat} {x y : String} {v w : E String Nat} :
    Within (.named m y w) n x v ↔ (n = m ∧ x = y ∧ v = w) ∨ Within w n x v := by
  constructor
  · intro h
    cases h with
    | here => exact .inl ⟨rfl, rfl, rfl⟩
    | inside h => exact .inr h
  · rintro (⟨rfl, rfl, rfl⟩ | h)
    · exact .here
    · exact .inside h

/-! ## C100: not recorded -/

/-- `y = (x := 5)` does not record `x`. -/
theorem assignment_misses_walrus : Missed (.assign (.name "y") (.named 0 "x" five)) (.bind (.name "x") (.expr five)) :=
  ⟨.rhs .here trivial, _, rfl, by simp [unpack, simple, five]⟩

/-- `for i in (x := f(x)): …` does not record `x`. -/
theorem loop_misses_walrus : Missed (.loop (.name "i") (.named 0 "x" fx) .done .done) (.bind (.name "x") (.expr fx)) :=
  ⟨.rhs .here trivial, _, rfl, by simp [unpack, simple, fx]⟩

/-- `with f(x) as (a, b): …` does not record `a`. -/
theorem with_misses_tuple :
    Missed (.with [(fx, some (.tuple (.pair (.name "a") (.pair (.name "b") .nil))))] .done) (.bind (.name "a") (.expr fx)) :=
  ⟨.direct (.with List.mem_cons_self (.tuple (.left .name))), [], rfl, by simp⟩

/-- `with (x := f(x)) as y: …` does not record `x`. -/
theorem with_misses_walrus : Missed (.with [(.named 0 "x" fx, some (.name "y"))] .done) (.bind (.name "x") (.expr fx)) :=
  ⟨.rhs (.left .here) trivial, [.bind (.name "y") (.expr (.named 0 "x" fx))], rfl, by simp⟩

/-- `class C(metaclass=(x := 5)): …` does not record `x`. -/
theorem class_misses_walrus : Missed (.classDef "C" .nil (.named 0 "x" five) .nil .done) (.bind (.name "x") (.expr five)) :=
  ⟨.rhs (.right (.left .here)) trivial, [.bind (.name "C") .self], rfl, by simp⟩

/-- `y: (x := 5) = 5` does not record `x`. -/
theorem annotation_misses_walrus : Missed (.annAssign (.name "y") (.named 0 "x" five) (some fx)) (.bind (.name "x") (.expr five)) :=
  ⟨.rhs (.left .here) trivial, [.bind (.name "y") (.expr fx)], rfl, by simp⟩

/-- `a[(i := 5)] += 5` does not record `i`. -/
theorem augmented_misses_walrus :
    Missed (.augAssign (.ref 1 (.pair (.var "a") (.named 0 "i" five))) five) (.bind (.name "i") (.expr five)) :=
  ⟨.lhs (.right .here) trivial, [.bind (.ref 1) (.expr five)], rfl, by simp⟩

/-- `match f(x): case [a]: …` does not record `a`. -/
theorem match_misses_capture : Missed (.match fx (.seq (.case .nil ["a"] .nil .done) .done)) (.bind (.name "a") (.expr fx)) :=
  ⟨.direct (.capture (.left (.here (by simp)))), [], rfl, by simp⟩

/-- `import a.b` does not record `a`. -/
theorem import_misses_dotted : Missed (.imp [.dotted "a"]) (.bind (.name "a") .module) :=
  ⟨.direct (.imp List.mem_cons_self .dotted), [], rfl, by simp⟩

/-- `from m import *` does not record what it binds. -/
theorem import_misses_star : Missed (.imp [.star ["a", "b"]]) (.bind (.name "b") .module) :=
  ⟨.direct (.imp List.mem_cons_self (.star (by simp))), [], rfl, by simp⟩

/-- `a, *(b, c) = f(x)` does not record `b`. -/
theorem unpacking_misses_list_after_star :
    Missed (.assign (.tuple (.pair (.name "a") (.pair (.star (.tuple (.pair (.name "b") (.pair (.name "c") .nil)))) .nil))) fx)
      (.bind (.name "b") (.expr fx)) :=
  ⟨.direct (.assign (.tuple (.right (.left (.star (.tuple (.left .name))))))), [.bind (.name "a") (.expr fx)], rfl, by simp⟩

/-- `del (a, b)` does not record that `a` is gone. -/
theorem delete_misses_tuple : Missed (.del (.pair (.tuple (.pair (.name "a") (.pair (.name "b") .nil))) .nil)) (.del (.name "a")) :=
  ⟨.direct (.del (.left (.tuple (.left .name)))), [], rfl, by simp⟩

/-- `del d[(k := 5)]` does not record the deletion. -/
theorem delete_misses_after_walrus :
    Missed (.del (.pair (.ref 1 (.pair (.var "d") (.named 0 "k" five))) .nil)) (.del (.ref 1)) :=
  ⟨.direct (.del (.left .ref)), [.bind (.name "k") (.expr five)], rfl, by simp⟩

/-- `def g(a=(x := 5)): …` stops with a failed assertion. -/
theorem default_walrus_crashes : record (fun _ => true) (.funDef "g" (.named 0 "x" five) .nil .nil .done : S String Nat) = .error .crash := rfl

/-- `class C((x := f(x))): …` and a decorator with `:=` stop with a failed assertion. -/
theorem base_walrus_crashes :
    record (fun _ => true) (.classDef "C" (.named 0 "x" fx) .nil .nil .done : S String Nat) = .error .crash
      ∧ record (fun _ => true) (.funDef "g" .nil .nil (.named 0 "x" fx) .done : S String Nat) = .error .crash := ⟨rfl, rfl⟩

/-! ## C100: recorded, but not done -/

/-- `x: int` for a variable with a value counts as an assignment to it. -/
theorem bare_annotation_invents : Invented (fun _ => True) (.annAssign (.name "x") (.var "int") none) (.bind (.name "x") .nothing) := by
  refine ⟨?_, [.bind (.name "x") .nothing], rfl, by simp⟩
  intro h
  cases h with
  | direct h => cases h

/-- `f(lambda: (x := 5))`, where `x` is also a variable outside, counts as an assignment to that. -/
theorem lambda_invents : Invented (fun _ => True) (.expr (.node (.pair (.var "f") (.lam .nil (.named 0 "x" five))))) (.bind (.name "x") (.expr five)) := by
  refine ⟨?_, [.bind (.name "x") (.expr five)], rfl, by simp⟩
  intro h
  cases h with
  | direct h => cases h
  | rhs h _ =>
    cases h with
    | node h =>
      cases h with
      | left h => cases h
      | right h => cases h with | defaults h => cases h
  | lhs h _ => cases h

/-- `c and (x := 5)` counts as an assignment to `x` also when `c` was false. -/
theorem not_evaluated_invents : Invented (fun _ => False) (.expr (.node (.pair (.var "c") (.named 0 "x" five)))) (.bind (.name "x") (.expr five)) := by
  refine ⟨?_, [.bind (.name "x") (.expr five)], rfl, by simp⟩
  intro h
  cases h with
  | direct h => cases h
  | rhs _ h => exact h
  | lhs h _ => cases h

/-- `while (c := 5): x += f(x)` counts as an assignment to `x`, whether or not the body was run. -/
theorem while_invents :
    Invented (fun _ => True) (.while (.named 0 "c" five) (.seq (.augAssign (.name "x") fx) .done) .done) (.bind (.name "x") (.expr fx)) := by
  refine ⟨?_, [.bind (.name "x") (.expr fx), .bind (.name "c") (.expr five)], rfl, by simp⟩
  intro h
  cases h with
  | direct h => cases h
  | rhs h _ =>
    rcases within_named.1 h with ⟨_, h, _⟩ | h
    · exact absurd h (by decide)
    · cases h
  | lhs h _ => cases h

/-! ## C100: the hypotheses can be met -/

/-- `a, (b, *d.e) = f(x)` -/
example : ∃ evs, record (fun _ => true)
      (.assign (.pair (.tuple (.pair (.name "a") (.pair (.tuple (.pair (.name "b") (.pair (.star (.ref 0 (.var "d"))) .nil))) .nil))) .nil) fx : S String Nat) = .ok evs
      ∧ ∀ ev, ev ∈ evs ↔ Does (fun _ => True)
        (.assign (.pair (.tuple (.pair (.name "a") (.pair (.tuple (.pair (.name "b") (.pair (.star (.ref 0 (.var "d"))) .nil))) .nil))) .nil) fx) ev :=
  bindings_recorded_partial
    ⟨fun n x v h => (by cases hasE_iff.2 ⟨n, x, v, h⟩), fun n x v h => (by cases hasE_iff.2 ⟨n, x, v, h⟩), by simp [Flat, Single]⟩
    (fun _ _ _ => rfl)

/-- `while (c := f(x)): y = 5` -/
example : ∃ evs, record (fun x => x == "c") (.while (.named 0 "c" fx) (.seq (.assign (.name "y") five) .done) .done : S String Nat) = .ok evs
      ∧ ∀ ev, ev ∈ evs ↔ Does (fun n => n = 0) (.while (.named 0 "c" fx) (.seq (.assign (.name "y") five) .done) .done) ev := by
  have hfx : ∀ n x v, ¬ Occurs fx n x v := fun n x v h => by cases hasE_iff.2 ⟨n, x, v, h⟩
  refine bindings_recorded_partial (.inr ⟨?_, ⟨⟨?_, ?_⟩, trivial⟩, trivial⟩) ?_
  · intro n x v h
    cases h with
    | here => exact .inl ⟨.here, rfl⟩
    | inside h => exact absurd h (hfx n x v)
  · intro n x v h; cases h
  · intro n x v h; cases h
  · intro x src h
    cases h with
    | direct h => cases h
    | rhs h _ =>
      cases h with
      | here => rfl
      | inside h => exact absurd h.occurs (hfx _ _ _)
    | lhs h _ => cases h

/-! ## C102 -/

/-- `f((x := 5), (y := x))`: `y` is recorded before the `x` it is computed from. -/
theorem order_violated :
    record (fun _ => true) (.expr (.node (.pair (.var "f") (.pair (.named 0 "x" five) (.named 1 "y" (.var "x"))))) : S String Nat)
      = .ok [.bind (.name "y") (.expr (.var "x")), .bind (.name "x") (.expr five)] := rfl

/-- `f(y := (x := 5))`: `x` first. -/
example : Ev.bind (.name "x") (.expr five) ∈ [Ev.bind (.name "x") (.expr five)] :=
  inner_first_partial (has := fun _ => true) (e := .node (.pair (.var "f") (.named 1 "y" (.named 0 "x" five))))
    (l2 := []) (y := "y") rfl rfl (.here (n := 0)) rfl

/-! ## C101: not recorded -/

/-- Read by the statement, but not recorded as used. -/
def Unseen (s : S String Nat) (x : String) : Prop := Reads (rhs s) x ∧ x ∉ looked s

/-- Recorded as used, but not read by the statement. -/
def Imagined (s : S String Nat) (x : String) : Prop := ¬ Reads (rhs s) x ∧ x ∈ looked s

/-- `with f(x): …` records no use of `x`. -/
theorem with_unseen (b : S String Nat) : Unseen (.with [(fx, none)] b) "x" := ⟨.left (.node (.right .var)), by simp [looked, containsLval, edgesS, edgesI]⟩

/-- `f(x, (y := 5))` records no use of `x`. -/
theorem call_unseen : Unseen (.expr (.node (.pair (.var "f") (.pair (.var "x") (.named 0 "y" five))))) "x" :=
  ⟨.node (.right (.left .var)), by decide⟩

/-- `if x: f(y := 5)` records no use of `x`. -/
theorem cond_unseen : Unseen (.cond (.var "x") (.seq (.expr (.node (.pair (.var "f") (.named 0 "y" five)))) .done) .done) "x" :=
  ⟨.var, by decide⟩

/-- `class C(metaclass=x): …` records no use of `x`. -/
theorem class_unseen : Unseen (.classDef "C" .nil (.var "x") .nil .done) "x" := ⟨.right (.left .var), by decide⟩

/-- `def g(a: x): …` records no use of `x`, nor does `y: x = 5`. -/
theorem annotation_unseen : Unseen (.funDef "g" .nil (.var "x") .nil .done) "x" ∧ Unseen (.annAssign (.name "y") (.var "x") (some five)) "x" :=
  ⟨⟨.right (.left .var), by decide⟩, .left .var, by decide⟩

/-- `y = lambda a=x: a` records no use of `x`. -/
theorem lambda_unseen : Unseen (.assign (.name "y") (.lam (.var "x") (.var "a"))) "x" := ⟨.defaults .var, by decide⟩

/-- `try: … except (x, y): …` records no use of `x`. -/
theorem handler_unseen : Unseen (.try .done (.seq (.handler (.node (.pair (.var "x") (.var "y"))) none .done) .done) .done .done) "x" :=
  ⟨.left (.node (.left .var)), by decide⟩

/-! ## C101: recorded, but not read -/

/-- `while c: y = 5` records a use of `y`. -/
theorem while_imagined : Imagined (.while (.var "c") (.seq (.assign (.name "y") five) .done) .done) "y" :=
  ⟨fun h => absurd (reads_var.1 h) (by decide), by decide⟩

/-- `f(lambda: (y := z))` records a use of `z`. -/
theorem lambda_imagined : Imagined (.expr (.node (.pair (.var "f") (.lam .nil (.named 0 "y" (.var "z")))))) "z" := by
  refine ⟨?_, by decide⟩
  intro h
  cases h with
  | node h =>
    cases h with
    | left h => exact absurd (reads_var.1 h) (by decide)
    | right h => cases h with | defaults h => cases h

/-! ## C101: the hypotheses can be met -/

/-- `for i in f(x): …` with any body -/
example (b : S String Nat) : "x" ∈ looked (.loop (.name "i") fx b .done) :=
  reads_recorded_partial (s := .loop (.name "i") fx b .done)
    (by
      intro h
      cases h with
      | node h =>
        cases h with
        | left h => cases h
        | right h => cases h)
    (.node (.right .var))

/-- `with f(x) as y: …` records the uses of `f` and `x` only. -/
example (b : S String Nat) (z : String) (h : z ∈ looked (.with [(fx, some (.name "y"))] b)) : z = "f" ∨ z = "x" := by
  have h := only_reads_recorded_partial (s := .with [(fx, some (.name "y"))] b) trivial h
  cases h with
  | left h =>
    cases h with
    | node h =>
      cases h with
      | left h => cases h; exact .inl rfl
      | right h => cases h; exact .inr rfl
  | right h => cases h

end Verif.Bind
