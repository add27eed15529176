import Verif.Frames.Props

/-! # C105, C106: cases, and where the claims fail -/

namespace Verif.Frames

/-- Everything is a number. -/
abbrev A := Act Nat Nat Nat Nat Nat

abbrev W := World Nat Nat Nat Nat Nat

instance (w : W) (a : A) : Decidable (Can w a) := by
  cases a <;> unfold Can <;> infer_instance

instance decValid : (w : W) → (l : List A) → Decidable (Valid w l)
  | _, [] => isTrue trivial
  | w, a :: l =>
    have := decValid (act w a) l
    inferInstanceAs (Decidable (Can w a ∧ Valid (act w a) l))

theorem reached_of_valid (g : Nat) : ∀ (l : List A) (w : W), Reached g w → Valid w l → Reached g (l.foldl act w)
  | [], _, h, _ => h
  | _ :: l, _, h, hv => reached_of_valid g l _ (.step h hv.1) hv.2

/-- `f()` calls `map(h, …)`, and `h` has a loop. -/
def nested : List A := [.call 1 100 10 2 false, .event true false, .lib 2 3, .call 3 101 11 4 false, .event true false]

example : ((nested.foldl act (start 0)).st.cur :: (nested.foldl act (start 0)).st.stack).map Entry.frame = [3, 1, 0] :=
  (frames_exact (reached_of_valid 0 nested _ .start (by decide)) (by decide)).1

/-- After the loop tracing is off; `h` is called once more, by the library, and left. -/
def longer : List A := nested ++ ([.iter, .leave none, .call 4 101 11 4 false, .leave none, .leave none] : List A)

/-- The state then. -/
def after : W := longer.foldl act (start 0)

example : after.st.enabled = false ∧ after.top.frame = 1 := by decide

/-- The next statement of `f` is attributed to it. -/
example : (act after (.event true false)).st.enabled = true ∧ (act after (.event true false)).st.cur.frame = 1 :=
  attributed_partial (w := after) (reached_of_valid 0 longer _ .start (by decide)) (by decide) true false (.inl rfl)

/-- `y = f(h())`, `z = h2()`, where `f` calls `h3`. -/
def calls : List A :=
  [.call 1 101 11 2 false, .leave (some (201, [7])), .call 2 100 10 2 false, .call 3 103 13 3 false, .leave (some (203, [9])), .leave (some (200, [8, 9])),
    .call 4 102 12 2 false, .leave none]

example : (calls.foldl act (start 0)).st.loaded = [(11, 7), (13, 9), (10, 8), (10, 9)] :=
  results_partial 0 calls (by decide) (by simp [calls, Calm]) (by decide) (by decide)

/-- **C105 fails** if the statement that is run in the first frame is finished: for `with m(): …` the method `__exit__` runs after the last statement of the body is
finished, so what comes after a loop in `__exit__` is not traced. -/
theorem not_resumed : ∃ w : W, Reached 0 w ∧ w.top.seen = true ∧ w.st.enabled = false ∧ (act w (.event true true)).st.enabled = false :=
  ⟨[Act.call 1 100 10 2 false, .event true true, .iter].foldl act (start 0), reached_of_valid 0 _ _ .start (by decide), by decide⟩

/-- **C106 fails** for the second call of a function in a cell: after `y = f()` and `z = f()` where `f` returns `x`, `z` does not depend on `x`. -/
theorem second_return : ∃ acts : List A, Valid (start 0) acts ∧ Calm acts ∧ (sitesOf acts).Nodup ∧ (11, 7) ∈ expected [] acts ∧
    (11, 7) ∉ (acts.foldl act (start 0)).st.loaded :=
  ⟨[.call 1 100 10 2 false, .leave (some (200, [7])), .call 2 100 11 2 false, .leave (some (200, [7]))], by decide, by simp [Calm], by decide, by decide, by decide⟩

/-- **C106 fails** if one call leads to several calls of a function: `y = list(map(f, [a, b]))` where `f` returns `p` for `a` and `q` for `b` does not depend on
`q`. -/
theorem repeated_call : ∃ acts : List A, Valid (start 0) acts ∧ Calm acts ∧ (retsOf acts).Nodup ∧ (10, 8) ∈ expected [] acts ∧
    (10, 8) ∉ (acts.foldl act (start 0)).st.loaded :=
  ⟨[.lib 1 2, .call 2 100 10 3 false, .leave (some (200, [7])), .call 3 100 10 3 false, .leave (some (201, [8])), .leave none],
    by decide, by simp [Calm], by decide, by decide, by decide⟩

/-- **C106 fails** if a function returns from a later iteration of a loop. -/
theorem loop_result : ∃ acts : List A, Valid (start 0) acts ∧ (sitesOf acts).Nodup ∧ (retsOf acts).Nodup ∧ (10, 7) ∈ expected [] acts ∧
    (10, 7) ∉ (acts.foldl act (start 0)).st.loaded :=
  ⟨[.call 1 100 10 2 false, .event true false, .iter, .leave (some (200, [7]))], by decide, by decide, by decide, by decide, by decide⟩

end Verif.Frames
