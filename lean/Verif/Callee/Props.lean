import Verif.Callee.Lemmas

/-!
# Where the names of a running function are looked up: properties

The full claim is `∀ h, Right h`: in every history each call looks its names up where Python
does and has the parameters of its own function.  It is false (`Witness.callee_claim_false`);
`callee_partial` proves it of tidy histories, the others say how it fails.
-/

namespace Verif.Callee

/-- In a tidy history the tracer has every call look its names up where Python does: in the call
which made the function, be it called by the variable of its `def`, by another one, or from
somewhere else.  Missing: histories that are not tidy. -/
theorem callee_partial (h : List Ev) (ht : Tidy h) : Right h := (inv_of_tidy h ht).calls

/-- While a call written with the variable of one function is under way, any other function that
starts to run (a property, an operator or a callback of a library) is taken for that function. -/
theorem taken_for_named (h : List Ev) (ht : Tidy h) (x f : Nat) (hn : Named h x)
    (hr : Reaches h x f) (o key : Nat) :
    (run (.enter o key :: h)).calls =
      ((real h).count + 1, find (real h).made f) :: (real h).frames := by
  have i := inv_of_tidy h ht
  simp only [run, step, i.calls, i.next]
  rw [choose_entered i (Or.inl ⟨x, hn, hr⟩)]

/-- So its names are looked up in the wrong place. -/
theorem busy_wrong (h : List Ev) (ht : Tidy h) (x f : Nat) (hn : Named h x)
    (hr : Reaches h x f) (o key : Nat) (hne : find (real h).made o ≠ find (real h).made f) :
    ¬Right (.enter o key :: h) := by
  intro hc
  rw [Right, taken_for_named h ht x f hn hr] at hc
  simp only [real, List.cons.injEq, Prod.mk.injEq, true_and, and_true] at hc
  exact hne hc.symm

/-- A function that runs for an argument (`f(a.p)`, `f(a + b)`) is taken for the function that is
about to be called. -/
theorem argument_wrong (h : List Ev) (ht : Tidy h) (x f : Nat) (hr : Reaches h x f)
    (o key : Nat) (hne : find (real h).made o ≠ find (real h).made f) :
    ¬Right (.enter o key :: .before (some x) :: h) :=
  busy_wrong (.before (some x) :: h) ⟨ht, trivial⟩ x f (by simp [Named]) (.older _ _ _ _ hr) o key
    hne

/-- So is a function that runs without a written call in the first statement of the body. -/
theorem first_statement_wrong (h : List Ev) (ht : Tidy h) (x f : Nat) (hr : Reaches h x f)
    (o key key' : Nat) (hne : find (real h).made o ≠ find (real h).made f) :
    ¬Right (.enter o key :: .enter f key' :: .before (some x) :: h) := by
  have h1 : Tidy (.enter f key' :: .before (some x) :: h) :=
    ⟨⟨ht, trivial⟩, Or.inl ⟨x, by simp [Named], .older _ _ _ _ hr⟩⟩
  refine busy_wrong _ h1 x f ?_ (.older _ _ _ _ (.older _ _ _ _ hr)) o key hne
  simp [Named]

/-- A function which is called with the value of a lambda, `f(g())`, is taken for the lambda. -/
theorem lambda_wrong (h : List Ev) (ht : Tidy h) (x f y g : Nat)
    (hg : Reaches h y g) (key key' : Nat) (hne : find (real h).made f ≠ find (real h).made g) :
    ¬Right (.enter f key :: .leave false :: .enter g key' :: .before (some y) ::
      .before (some x) :: h) := by
  have hg1 : Reaches (.before (some y) :: .before (some x) :: h) y g :=
    .older _ _ _ _ (.older _ _ _ _ hg)
  have h1 : Tidy (.leave false :: .enter g key' :: .before (some y) :: .before (some x) :: h) :=
    ⟨⟨⟨⟨ht, trivial⟩, trivial⟩, Or.inl ⟨y, by simp [Named], hg1⟩⟩, trivial⟩
  refine busy_wrong _ h1 y g ?_ (.older _ _ _ _ (.older _ _ _ _ hg1)) f key hne
  simp [Named, EndedLast]

/-- After a function with a `return` the variable is forgotten, and the function called with its
value is found by its statement: the call is right if the statement made just this function. -/
theorem returned_right (h : List Ev) (ht : Tidy h) (x f y g : Nat)
    (hg : Reaches h y g) (key key' : Nat) (hs : Sole h key f) :
    Right (.enter f key :: .leave true :: .enter g key' :: .before (some y) ::
      .before (some x) :: h) := by
  have hg1 : Reaches (.before (some y) :: .before (some x) :: h) y g :=
    .older _ _ _ _ (.older _ _ _ _ hg)
  refine callee_partial _ ⟨⟨⟨⟨⟨ht, trivial⟩, trivial⟩, Or.inl ⟨y, by simp [Named], hg1⟩⟩,
    trivial⟩, Or.inr ⟨fun z f' hz => by simp [Named] at hz, ?_⟩⟩
  obtain ⟨⟨z, b, d, hm⟩, hall⟩ := hs
  refine ⟨⟨z, b, d, by simp [hm]⟩, fun z o raw b l d hm => hall z o raw b l d ?_⟩
  simpa using hm

theorem foldl_none {syms : List (Nat × Sym)} {o : Nat} (deps : List Nat) (c : Option (Nat × Nat))
    (hall : ∀ y ∈ deps, ∀ s, Assoc.get syms y = some s → s.obj = o → s.call ≠ none →
      s.call = c) : deps.foldl (take syms o) c = c := by
  induction deps with
  | nil => rfl
  | cons y ys ih =>
    have hy := hall y List.mem_cons_self
    have h1 : take syms o c y = c := by
      cases hg : Assoc.get syms y with
      | none => simp [take, hg]
      | some s =>
        by_cases hc : s.obj = o ∧ s.call ≠ none
        · simp only [take, hg, if_pos hc]
          exact hy s hg hc.1 hc.2
        · simp only [take, hg, if_neg hc]
    rw [List.foldl_cons, h1]
    exact ih fun y' hy' => hall y' (List.mem_cons_of_mem _ hy')

/-- After an update in which no dependency reaches the new object, the variable has the scope it
had before. -/
theorem upsert_kept {h : List Ev} (i : Inv h) {x o : Nat} {c : Option (Nat × Nat)}
    {deps : List Nat} (hd : ∀ y ∈ deps, ¬Reaches h y o) :
    callOf (upsert (run h).syms x o c deps) x = c := by
  simp only [callOf, get_upsert, if_true, Option.bind_some]
  refine foldl_none deps c fun y hy s hs hso hn => ?_
  rw [Assoc.get_set] at hs
  by_cases hyx : y = x
  · rw [if_pos hyx] at hs
    cases hs
    rfl
  · rw [if_neg hyx] at hs
    cases hc : s.call with
    | none => exact absurd hc hn
    | some p =>
      have := (i.right y s p hs hc).1
      rw [hso] at this
      exact absurd this (hd y hy)

/-- A variable that was a function of the notebook and is bound to something else keeps the scope
of the function: whatever its calls run is taken for the old function. -/
theorem rebound_wrong (h : List Ev) (ht : Tidy h) (x f o g key : Nat) (deps : List Nat)
    (hr : Reaches h x f) (hd : ∀ y ∈ deps, ¬Reaches h y o)
    (hne : find (real h).made g ≠ find (real h).made f) :
    ¬Right (.enter g key :: .before (some x) :: .assign x o deps :: h) := by
  have i := inv_of_tidy h ht
  obtain ⟨h1, h2⟩ := i.known_call hr
  have hk := upsert_kept i (x := x) (c := callOf (run h).syms x) hd
  intro hc
  simp only [Right, run, step, choose, pick, real, hk, if_neg h2, Option.bind_some,
    i.calls, i.next, List.cons.injEq, Prod.mk.injEq, true_and, and_true] at hc
  exact hne (hc.symm.trans h1)

/-- A decorated function whose decorator gives back another one (`wrapper`): a call by its name
runs the other one, whose names are looked up as those of the decorated function. -/
theorem decorated_wrong (h : List Ev) (ht : Tidy h) (x w raw key key' body : Nat)
    (deps : List Nat) (hd : ∀ y ∈ deps, ¬Reaches h y w) (hw : w ≠ raw)
    (hne : find (real h).made w ≠ some ((real h).stack.headD 0, body)) :
    ¬Right (.enter w key' :: .before (some x) :: .define x w raw key body true deps :: h) := by
  have i := inv_of_tidy h ht
  have hk := upsert_kept i (x := x) (c := some (cur (run h).stack, body)) hd
  simp only [cur, i.stack] at hk
  intro hc
  simp only [Right, run, step, choose, pick, real, if_true, hk, reduceCtorEq, if_false, find,
    Ne.symm hw, Option.bind_some, i.calls, i.next, cur, i.stack, List.cons.injEq,
    Prod.mk.injEq, true_and, and_true] at hc
  exact hne hc.symm

/-- Without a name for the function, the last function of the statement is taken for every one:
of the functions which the calls of an enclosing function made, all but the last look their names
up in the wrong call. -/
theorem earlier_wrong (h : List Ev) (ht : Tidy h) (x f g key body : Nat) (deps : List Nat)
    (outer : Bool) (hd : ∀ y ∈ deps, ¬Reaches h y g) (hfg : f ≠ g)
    (hne : find (real h).made f ≠ some ((real h).stack.headD 0, body)) :
    ¬Right (.enter f key :: .done outer :: .define x g g key body true deps :: h) := by
  have i := inv_of_tidy h ht
  have hk := upsert_kept i (x := x) (c := some (cur (run h).stack, body)) hd
  simp only [cur, i.stack] at hk
  intro hc
  cases outer <;>
  · simp only [Right, run, step, choose, pick, real, if_true, Assoc.get_set_self, hk, find,
      Ne.symm hfg, if_false, Option.bind_some, i.calls, i.next, cur, i.stack,
      List.cons.injEq, Prod.mk.injEq, true_and, and_true] at hc
    exact hne hc.symm

theorem frames_positive (h : List Ev) : ∀ n ∈ (real h).stack, 0 < n := by
  induction h with
  | nil => simp [real]
  | cons e h ih =>
    cases e with
    | enter o key =>
      intro n hn
      simp only [real, List.mem_cons] at hn
      rcases hn with rfl | hn
      · omega
      · exact ih n hn
    | leave r => exact fun n hn => ih n (List.mem_of_mem_tail hn)
    | done outer =>
      cases outer
      · exact ih
      · intro n hn; simp [real] at hn
    | _ => exact ih

/-- A function which a function declares `global` and defines has its names looked up outside of
all functions. -/
theorem global_wrong (h : List Ev) (ht : Tidy h) (x f key key' body : Nat) (deps : List Nat)
    (hd : ∀ y ∈ deps, ¬Reaches h y f) (hs : (real h).stack ≠ []) :
    ¬Right (.enter f key' :: .before (some x) :: .define x f f key body false deps :: h) := by
  have i := inv_of_tidy h ht
  have hk := upsert_kept i (x := x) (c := some (0, body)) hd
  intro hc
  have h0 : (real h).stack.headD 0 ≠ 0 := by
    cases hst : (real h).stack with
    | nil => exact absurd hst hs
    | cons n l =>
      have := frames_positive h n (by rw [hst]; exact List.mem_cons_self)
      simp only [List.headD_cons]
      omega
  simp only [Right, run, step, choose, pick, real, Bool.false_eq_true, if_false, hk, reduceCtorEq,
    if_true, find, Option.bind_some, i.calls, i.next, List.cons.injEq, Prod.mk.injEq,
    true_and, and_true, Option.some.injEq] at hc
  exact h0 hc.symm

end Verif.Callee
