import Verif.Resume.Lemmas

/-!
# Generators: properties

The full claim is `∀ h, Right h`.  It is false (`Witness.generators_claim_false`);
`generators_partial` proves it where generators leave their variables alone once they have gone
on, the others say what happens where they do not.
-/

namespace Verif.Resume

/-- If no generator touches a variable after its first `yield`, what is recorded of variables are
their values, the variables of the notebook are all recorded, and reads are recorded as what they
read; whatever is called, returns, yields and goes on.  Missing: everything generators do with
variables after their first `yield`. -/
theorem generators_partial (h : List Ev) (hq : Quiet h) : Right h :=
  let i := inv_of_quiet h hq
  ⟨fun x => i.full 0 x (Or.inl rfl), i.values, i.reads⟩

theorem top_state (h : List Ev) (hq : Quiet h) (ht : (real h).stack = []) :
    (run h).off = 0 ∧ (run h).stack = [] := by
  have i := inv_of_quiet h hq
  have h0 : (run h).off = 0 := by have := i.len; rw [ht] at this; simpa using this
  refine ⟨h0, ?_⟩
  have := i.rel
  rw [ht, h0] at this
  simpa using this

theorem run_resume (h : List Ev) (hq : Quiet h) (ht : (real h).stack = []) (g y site : Nat)
    (hu : Unused h y) :
    run (.resume g y site :: h) =
      { run h with stack := [0], last := Assoc.set (run h).last y site } := by
  obtain ⟨h0, h1⟩ := top_state h hq ht
  simp [run, step, push, h0, h1, last_unused h y hu, cur]

/-- A generator that goes on by itself in a cell: what it gives to its own variable is recorded
as the value of the variable of the notebook with that name. -/
theorem gone_on_stores (h : List Ev) (hq : Quiet h) (ht : (real h).stack = []) (g y site x o : Nat)
    (hu : Unused h y) :
    Assoc.get (run (.store x o :: .resume g y site :: h)).recs (0, x) = some o := by
  obtain ⟨h0, _⟩ := top_state h hq ht
  rw [run, run_resume h hq ht g y site hu]
  simp [step, h0, cur, Assoc.get_set_self]

/-- Which is wrong unless that variable has the same value. -/
theorem gone_on_wrong (h : List Ev) (hq : Quiet h) (ht : (real h).stack = []) (g y site x o : Nat)
    (hu : Unused h y) (hg : g ≠ 0) (hv : value (real h).vars 0 x ≠ some o) :
    ¬Right (.store x o :: .resume g y site :: h) := by
  intro hr
  have h1 := hr.globals x
  rw [gone_on_stores h hq ht g y site x o hu] at h1
  have h2 : value (real (.store x o :: .resume g y site :: h)).vars 0 x =
      value (real h).vars 0 x := by
    simp [real, value, running, hg]
  rw [h2] at h1
  exact hv h1.symm

/-- The variable of the generator is not updated. -/
theorem own_not_recorded (h : List Ev) (hq : Quiet h) (ht : (real h).stack = [])
    (g y site x o : Nat) (hu : Unused h y) (hg : g ≠ 0) :
    Assoc.get (run (.store x o :: .resume g y site :: h)).recs (g, x) =
      Assoc.get (run h).recs (g, x) := by
  obtain ⟨h0, _⟩ := top_state h hq ht
  rw [run, run_resume h hq ht g y site hu]
  simp only [step, h0, cur, List.headD_cons, ne_eq, not_true_eq_false, if_false]
  rw [Assoc.get_set_ne]
  simp [hg]

/-- In a function that makes a generator go on, the variables of the generator are recorded as
those of the function. -/
theorem gone_on_in_call (h : List Ev) (hq : Quiet h) (ht : (real h).stack = [])
    (key place g y site x o : Nat) (hk : Unused h key) (hu : Unused h y) (hky : y ≠ key) :
    Assoc.get (run (.store x o :: .resume g y site :: .call key place :: h)).recs
      ((real h).count + 1, x) = some o := by
  obtain ⟨h0, h1⟩ := top_state h hq ht
  have hn := (inv_of_quiet h hq).next
  simp [run, step, push, h0, last_unused h key hk, last_unused h y hu, cur, hn,
    Assoc.get_set_ne _ _ hky, Assoc.get_set_self]

/-- A read of a generator that goes on in a cell is recorded as one of the variable of the
notebook, or not at all; never as one of the generator's own. -/
theorem gone_on_reads (h : List Ev) (hq : Quiet h) (ht : (real h).stack = []) (g y site n x : Nat)
    (hu : Unused h y) :
    (run (.load n x :: .resume g y site :: h)).uses =
      (n, if value (real h).vars 0 x ≠ none then some (0, x) else none) :: (run h).uses := by
  obtain ⟨h0, _⟩ := top_state h hq ht
  have hf := (inv_of_quiet h hq).full 0 x (Or.inl rfl)
  rw [run, run_resume h hq ht g y site hu]
  have h1 : find (run h).recs 0 x = if value (real h).vars 0 x ≠ none then some (0, x) else none := by
    rw [find, hf]
    cases value (real h).vars 0 x <;> simp
  simp [step, h0, cur, h1]

/-- Which is wrong if the variable is one of the generator. -/
theorem gone_on_reads_wrong (h : List Ev) (hq : Quiet h) (ht : (real h).stack = [])
    (g y site n x : Nat) (hu : Unused h y) (hg : g ≠ 0) (hx : value (real h).vars g x ≠ none)
    (hn : ∀ s, (n, s) ∉ (real h).reads) :
    ¬Right (.load n x :: .resume g y site :: h) := by
  intro hr
  have h1 := hr.reads (n, if value (real h).vars 0 x ≠ none then some (0, x) else none)
    (by rw [gone_on_reads h hq ht g y site n x hu]; exact List.mem_cons_self)
  have h2 : (real (.load n x :: .resume g y site :: h)).reads =
      (n, some (g, x)) :: (real h).reads := by simp [real, running, hx]
  rw [h2] at h1
  simp only [List.mem_cons, Prod.mk.injEq, true_and] at h1
  rcases h1 with h1 | h1
  · split at h1
    · simp only [Option.some.injEq, Prod.mk.injEq, and_true] at h1
      exact hg h1.symm
    · simp at h1
  · exact hn _ h1

/-- When it goes on again after the same `yield` and from the same place, nothing it does is
recorded. -/
theorem again_unrecorded (h : List Ev) (hq : Quiet h) (ht : (real h).stack = [])
    (g y site x o n z : Nat) (hu : Unused h y) :
    let h' := Ev.resume g y site :: .leave :: .resume g y site :: h
    (run (.store x o :: h')).recs = (run h).recs ∧ (run (.load n z :: h')).uses = (run h).uses := by
  obtain ⟨h0, _⟩ := top_state h hq ht
  have hr := run_resume h hq ht g y site hu
  have h1 : run (.leave :: .resume g y site :: h) =
      { run h with stack := [], last := Assoc.set (run h).last y site } := by
    rw [run, hr]
    simp [step, h0]
  have h2 : run (.resume g y site :: .leave :: .resume g y site :: h) =
      { run h with stack := [], off := 1, last := Assoc.set (run h).last y site } := by
    rw [run, h1]
    simp [step, push, h0, Assoc.get_set_self]
  constructor
  · rw [run, h2]; simp [step]
  · rw [run, h2]; simp [step]

end Verif.Resume
