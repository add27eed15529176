import Verif.Failing.Props

/-! # Cases for the theorems on runs that fail -/

namespace Verif.Failing.Witness

open Spec

/-- A cell raises and nothing else does. -/
def fails : Run := ⟨false, false, false, .inExec, false⟩

/-- A cell with a syntax error. -/
def uncompiled : Run := ⟨false, false, false, .beforeExec, false⟩

/-- A cell runs through and the hook after it raises. -/
def broken : Run := ⟨false, true, false, .done, true⟩

/-- ipyflow raises before the cell runs. -/
def unready : Run := ⟨false, false, true, .done, false⟩

/-- The hook before the cell raises. -/
def early : Run := ⟨true, false, false, .done, false⟩

/-- A schedule: the cell 0 ran, the cell 1 has become ready. -/
def payload (h : List Event) : Client.Payload where
  tables := ⟨fun _ => none, fun _ => none, fun _ => true, fun _ => false, fun _ => false, fun _ => false, fun _ => [], fun _ => [], fun _ => []⟩
  cells := ⟨[0, 1], fun _ => true, fun x => some x⟩
  widgets := [0, 1]
  count := fun x => some x
  opts := ⟨false, false⟩
  anyOrder := true
  ordered := false
  batch := false
  reactive := true
  newReady := [1]
  forced := []
  cascading := []
  last := some 0
  failed := told h
  deferred := []

/-- Nothing was run so far. -/
def idle : Client.St := ⟨[], [], [], [], 0⟩

example : told [.ask, .run fails] = false := by decide
example : told [.ask, .run uncompiled] = false := by decide
example : told [.ask, .control, .run broken, .run fails] = true := by decide
example : told [.ask, .run early, .run broken] = true := by decide
example : told [.late, .run broken] = false := by decide
example : counted [.run unready, .run broken, .late, .run fails, .reset, .run broken] = 3 := by decide

/-- `told_iff`. -/
example : LastBroke [.ask, .run early, .run broken] := (told_iff _).1 (by decide)

/-- `failures_untold`. -/
example : told [.run uncompiled, .ask, .run fails] = false :=
  failures_untold _ (by
    intro r hr
    have : r = uncompiled ∨ r = fails := by simpa using hr
    rcases this with rfl | rfl <;> (unfold Smooth; decide))

theorem fails_smooth : ∀ r, Event.run r ∈ [Event.run fails] → Smooth r := by
  intro r hr
  have : r = fails := by simpa using hr
  subst this
  unfold Smooth
  decide

/-- `told_stops`. -/
example : Stopped (Client.step 5 idle (payload [.run broken])) :=
  told_stops 5 idle _ [.run broken] rfl rfl (Or.inr ⟨rfl, Or.inr rfl⟩)

theorem one_left : Left (payload [.run fails]) idle 1 :=
  ⟨rfl, by decide, rfl, by decide, by decide, by decide⟩

/-- `failed_goes_on`: the cell 0 raises and the cell 1 is run. -/
example : GoesOn (Client.step 5 idle (payload [.run fails])) :=
  failed_goes_on 5 idle _ [.run fails] rfl rfl fails_smooth rfl rfl one_left

/-- `failed_same`. -/
example : Client.step 5 idle { payload [] with failed := told [.run fails] } =
    Client.step 5 idle { payload [] with failed := told [] } :=
  failed_same 5 idle (payload []) [.run fails] [] fails_smooth (by intro r hr; cases hr)

/-- `stopped_unasked`. -/
example : Stopped (Client.step 5 idle (payload [.run broken])) ∧ (runCell (after []) broken).2 = .returned .done :=
  stopped_unasked 5 idle _ [] broken rfl rfl rfl rfl rfl

/-- `setup_unbound`. -/
example : (runCell (after [.run fails]) unready).2 = .unbound ∧ told [.run unready, .run fails] = true :=
  setup_unbound [.run fails] unready rfl rfl

/-- `rewriter_untold`. -/
example : told [.run ⟨false, true, false, .done, false⟩] = false := rewriter_untold [] _ rfl rfl rfl

/-- `counter_counts`. -/
example : counted [.run unready, .run broken] = 3 := counter_counts _

/-- `raised_isError` and `uncompiled_no_error`. -/
example : isError [.run fails] = true := (raised_isError [] fails rfl rfl).2 rfl
example : isError [.run uncompiled] = false := uncompiled_no_error [] uncompiled rfl rfl

/-- The claim: the kernel says that the last execution was an error exactly if the last cell raised. -/
def ToldClaim : Prop := ∀ h, told h = true ↔ LastFailed h

/-- Neither direction holds. -/
theorem told_claim_false : ¬ (∀ h, LastFailed h → told h = true) ∧ ¬ (∀ h, told h = true → LastFailed h) ∧ ¬ ToldClaim := by
  have h1 : ¬ (∀ h, LastFailed h → told h = true) := by
    intro h
    have := h [.run fails] (by simp [LastFailed, Failed, fails])
    revert this
    decide
  refine ⟨h1, ?_, fun h => h1 fun l hl => (h l).2 hl⟩
  intro h
  have := h [.run broken] (by decide)
  simp [LastFailed, Failed, broken] at this

/-- The claim: after a cell raised, the client runs nothing more. -/
def StopClaim : Prop := ∀ (n : Nat) (s : Client.St) (p : Client.Payload) (h : List Event), p.failed = told h → p.deferred = [] →
  LastFailed h → Stopped (Client.step n s p)

theorem stop_claim_false : ¬ StopClaim := by
  intro h
  have h1 := h 5 idle (payload [.run fails]) [.run fails] rfl rfl (by simp [LastFailed, Failed, fails])
  have h2 := failed_goes_on 5 idle _ [.run fails] rfl rfl fails_smooth rfl rfl one_left
  revert h1 h2
  cases Client.step 5 idle (payload [.run fails]) with
  | error e => intro h1; cases h1
  | ok r =>
    obtain ⟨s, a⟩ := r
    cases a <;> simp [Stopped, GoesOn]

end Verif.Failing.Witness
