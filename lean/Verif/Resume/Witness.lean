import Verif.Resume.Props

/-! # Generators: cases -/

namespace Verif.Resume.Witness

/-- `x = 7`, then `g = gen()` and `next(g)`, where `def gen(): x = 1; yield x; x = 2; yield x`.
Variable 5 is `x`, the call is number 1, the `def` is statement 10, its yields are 11 and 12. -/
def first : List Ev := [.leave, .load 0 5, .store 5 1, .call 10 20, .store 5 7]

theorem first_quiet : Quiet first := by simp [first, Quiet, GoneOn, real]

example : Right first ∧ (real first).vars = [((1, 5), 1), ((0, 5), 7)] ∧
    (real first).reads = [(0, some (1, 5))] :=
  ⟨generators_partial _ first_quiet, by decide, by decide⟩

theorem first_unused : Unused first 11 := by simp [first, Unused]

/-- The second `next(g)`: the variable `x` of the notebook is now recorded to be 2. -/
example : Assoc.get (run (.store 5 2 :: .resume 1 11 21 :: first)).recs (0, 5) = some 2 :=
  gone_on_stores first first_quiet (by decide) 1 11 21 5 2 first_unused

example : ¬Right (.store 5 2 :: .resume 1 11 21 :: first) :=
  gone_on_wrong first first_quiet (by decide) 1 11 21 5 2 first_unused (by decide) (by decide)

example : Assoc.get (run (.store 5 2 :: .resume 1 11 21 :: first)).recs (1, 5) =
    Assoc.get (run first).recs (1, 5) :=
  own_not_recorded first first_quiet (by decide) 1 11 21 5 2 first_unused (by decide)

/-- `def f(): return next(g)`: the generator's `x` becomes one of the call of `f`. -/
example : Assoc.get (run (.store 5 2 :: .resume 1 11 21 :: .call 13 22 :: first)).recs (2, 5) =
    some 2 :=
  gone_on_in_call first first_quiet (by decide) 13 22 1 11 21 5 2 (by simp [first, Unused])
    first_unused (by decide)

/-- `yield x` instead of `x = 2`. -/
example : (run (.load 1 5 :: .resume 1 11 21 :: first)).uses = [(1, some (0, 5)), (0, some (1, 5))] :=
  (gone_on_reads first first_quiet (by decide) 1 11 21 1 5 first_unused).trans (by decide)

example : ¬Right (.load 1 5 :: .resume 1 11 21 :: first) :=
  gone_on_reads_wrong first first_quiet (by decide) 1 11 21 1 5 first_unused (by decide)
    (by decide) (by simp [first, real, running])

/-- `while True: yield x` in a loop: from the second time on nothing is seen. -/
example : (run (.store 5 2 :: .resume 1 11 21 :: .leave :: .resume 1 11 21 :: first)).recs =
    (run first).recs :=
  (again_unrecorded first first_quiet (by decide) 1 11 21 5 2 1 5 first_unused).1

/-- A quiet history with a generator that goes on: it calls a function with a variable of its own,
and the cell goes on afterwards. -/
def quiet : List Ev :=
  [.load 1 5, .leave, .leave, .store 5 3, .call 14 23, .resume 1 11 21] ++ first

theorem quiet_quiet : Quiet quiet := by simp [quiet, first, Quiet, GoneOn, real]

example : Right quiet ∧ (real quiet).reads = [(1, some (0, 5)), (0, some (1, 5))] :=
  ⟨generators_partial _ quiet_quiet, by decide⟩

/-- The full claim is false. -/
theorem generators_claim_false : ¬∀ h, Right h := fun hc =>
  gone_on_wrong first first_quiet (by decide) 1 11 21 5 2 first_unused (by decide) (by decide)
    (hc _)

end Verif.Resume.Witness
