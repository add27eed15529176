import Verif.Failing.Spec
import Verif.Client.Props

/-! # What the client is told about runs that fail -/

namespace Verif.Failing

open Spec

/-- The answers of the kernel say that the last execution was an error exactly if ipyflow itself raised in it. -/
theorem told_iff (h : List Event) : told h = true ↔ LastBroke h := by
  unfold told
  induction h with
  | nil => simp [after, Kernel.init, LastBroke]
  | cons e h ih =>
    cases e with
    | run r =>
      obtain ⟨first, rewriter, setup, result, rest⟩ := r
      cases first <;> cases setup <;> simp_all [after, step, runCell, Kernel.note, LastBroke]
    | late => simp [after, step, Kernel.note, LastBroke]
    | control => simpa [after, step, LastBroke] using ih
    | ask => simpa [after, step, LastBroke] using ih
    | reset => simpa [after, step, LastBroke] using ih

/-- As long as nothing of ipyflow itself raises, no answer ever says that the last execution was an error, whatever
the cells raised. -/
theorem failures_untold (h : List Event) (hs : ∀ r, Event.run r ∈ h → Smooth r) : told h = false := by
  have : ¬ LastBroke h := by
    induction h with
    | nil => simp [LastBroke]
    | cons e h ih =>
      have ih := ih fun r hr => hs r (List.mem_cons_of_mem _ hr)
      cases e with
      | run r =>
        obtain ⟨h1, _, h3, h4⟩ := hs r (by simp)
        simp [LastBroke, h1, h3, h4]
      | late => simp [LastBroke]
      | control => exact ih
      | ask => exact ih
      | reset => exact ih
  cases ht : told h with
  | false => rfl
  | true => exact absurd ((told_iff h).1 ht) this

/-- Told that the last execution was an error, the client ends the reactive run. -/
theorem told_stops (n : Nat) (s : Client.St) (p : Client.Payload) (h : List Event) (hp : p.failed = told h)
    (hd : p.deferred = []) (hb : LastBroke h) : Stopped (Client.step n s p) := by
  have ht : p.failed = true := by rw [hp]; exact (told_iff h).2 hb
  simp [Client.step, hd, ht, Stopped]

theorem pick_some (p : Client.Payload) (s : Client.St) (l : List Nat) :
    ∀ (seen : Bool) (y : Nat), ∃ z, Client.pick p s seen (some y) l = some z := by
  induction l with
  | nil => intro seen y; exact ⟨y, rfl⟩
  | cons x l ih =>
    intro seen y
    simp only [Client.pick]
    by_cases he : Client.eligible p s seen x = true
    · rw [if_pos he]
      cases hc : p.count x with
      | none => exact ih _ _
      | some k => exact ih _ _
    · rw [if_neg he]; exact ih _ _

theorem pick_left (p : Client.Payload) (s : Client.St) (ho : p.ordered = false) (x : Nat)
    (hx : ∀ seen, Client.eligible p s seen x = true) (l : List Nat) :
    ∀ (seen : Bool) (y : Option Nat), x ∈ l → ∃ z, Client.pick p s seen y l = some z := by
  induction l with
  | nil => intro seen y h; cases h
  | cons a l ih =>
    intro seen y hm
    cases y with
    | some y => exact pick_some p s _ seen y
    | none =>
      simp only [Client.pick, ho]
      by_cases he : Client.eligible p s seen a = true
      · rw [if_pos he]
        exact pick_some p s l _ a
      · rw [if_neg he]
        rcases List.mem_cons.1 hm with rfl | hm
        · exact absurd (hx seen) he
        · exact ih _ _ hm

/-- After a cell raised, the client goes on running cells, as long as nothing of ipyflow itself raised and a cell is
left (one cell at a time, in any order). -/
theorem failed_goes_on (n : Nat) (s : Client.St) (p : Client.Payload) (h : List Event) (hp : p.failed = told h)
    (hd : p.deferred = []) (hs : ∀ r, Event.run r ∈ h → Smooth r) (hb : p.batch = false) (ho : p.ordered = false)
    {x : Nat} (hx : Left p s x) : GoesOn (Client.step n s p) := by
  obtain ⟨hr, hw, hc, hn, hl, he⟩ := hx
  have ht : p.failed = false := by rw [hp]; exact failures_untold h hs
  have hel : ∀ seen, Client.eligible p (Client.absorb s p) seen x = true := by
    intro seen
    have h1 : x ∉ (Client.absorb s p).executed := by
      intro hm
      rcases Client.mem_union.1 hm with hm | hm
      · exact he hm
      · simp only [Option.mem_toList] at hm
        exact hl hm
    have h2 : x ∈ (Client.absorb s p).newReady := by
      simp only [Client.absorb, hr, if_true]
      exact Client.mem_union.2 (Or.inr hn)
    simp [Client.eligible, ho, hc, h1, h2, hr]
  obtain ⟨z, hz⟩ := pick_left p (Client.absorb s p) ho x hel p.widgets false none hw
  simp [Client.step, hd, ht, hb, hz, GoesOn]

/-- In either mode, what the client does is what it would do if the cells had not raised. -/
theorem failed_same (n : Nat) (s : Client.St) (p : Client.Payload) (h h' : List Event)
    (hs : ∀ r, Event.run r ∈ h → Smooth r) (hs' : ∀ r, Event.run r ∈ h' → Smooth r) :
    Client.step n s { p with failed := told h } = Client.step n s { p with failed := told h' } := by
  rw [failures_untold h hs, failures_untold h' hs']

/-- The client ends the reactive run although the cell ran through, if something of ipyflow itself raised
afterwards. -/
theorem stopped_unasked (n : Nat) (s : Client.St) (p : Client.Payload) (h : List Event) (r : Run)
    (hp : p.failed = told (.run r :: h)) (hd : p.deferred = []) (h1 : r.first = false) (h2 : r.setup = false)
    (h3 : r.rest = true) :
    Stopped (Client.step n s p) ∧ (runCell (after h) r).2 = .returned r.result := by
  refine ⟨told_stops n s p _ hp hd (Or.inr ⟨h1, Or.inr h3⟩), ?_⟩
  simp [runCell, h1, h2]

/-- What ipyflow raises before there is a result is replaced by another exception, which is raised. -/
theorem setup_unbound (h : List Event) (r : Run) (h1 : r.first = false) (h2 : r.setup = true) :
    (runCell (after h) r).2 = .unbound ∧ told (.run r :: h) = true := by
  refine ⟨by simp [runCell, h1, h2], ?_⟩
  exact (told_iff _).2 (Or.inr ⟨h1, Or.inl h2⟩)

/-- A failing rewriter is not told. -/
theorem rewriter_untold (h : List Event) (r : Run) (h1 : r.first = false) (h2 : r.setup = false) (h3 : r.rest = false) :
    told (.run r :: h) = false := by
  cases ht : told (.run r :: h) with
  | false => rfl
  | true =>
    have := (told_iff _).1 ht
    simp [LastBroke, h1, h2, h3] at this

/-- The counter counts what ipyflow itself raised since it was read. -/
theorem counter_counts (h : List Event) : counted h = broken h := by
  unfold counted
  induction h with
  | nil => rfl
  | cons e h ih =>
    cases e with
    | run r =>
      obtain ⟨first, rewriter, setup, result, rest⟩ := r
      cases first <;> cases setup <;> cases rewriter <;> cases rest <;>
        simp [after, step, runCell, Kernel.note, broken, times, ← ih] <;> omega
    | late => simpa [after, step, Kernel.note, broken] using ih
    | control => simpa [after, step, broken] using ih
    | ask => simpa [after, step, broken] using ih
    | reset => simp [after, step, broken]

/-- Runs that raised are errors to the kernel. -/
theorem raised_isError (h : List Event) (r : Run) (h1 : r.first = false) (h2 : r.setup = false) :
    isError (.run r :: h) = true ↔ r.result = .inExec := by
  obtain ⟨first, rewriter, setup, result, rest⟩ := r
  simp only at h1 h2
  subst h1 h2
  cases rewriter <;> simp [isError, after, step, runCell, Kernel.note]

/-- Runs of code that could not be compiled are not. -/
theorem uncompiled_no_error (h : List Event) (r : Run) (h1 : r.first = false) (hr : r.result = .beforeExec) :
    isError (.run r :: h) = false := by
  obtain ⟨first, rewriter, setup, result, rest⟩ := r
  simp only at h1 hr
  subst h1 hr
  cases rewriter <;> cases setup <;> simp [isError, after, step, runCell, Kernel.note]

end Verif.Failing
