import Verif.Session.Witness

/-!
# The end of several cells makes the client ask -/

namespace Verif.Session
open Spec

/-- A run of several cells at once, of a slice or in alternate mode in batches. -/
def Several (k : Kind) : Prop := k = .batch ∨ k = .slice ∨ k = .altAll ∨ k = .altOne

theorem log_append_ne {α : Type} (l : List α) (x : α) : l ≠ l ++ [x] := by
  intro h
  have := congrArg List.length h
  simp at this

theorem press_group (s : St) (code cells : Bool) (k : Kind) (md : Mode) (hk : Several k) (hl : (onPress code cells s).log = s.log ++ [⟨k, md⟩]) :
    (onPress code cells s).groups = s.groups + 1 := by
  revert hl
  unfold onPress
  by_cases h1 : s.connected = true <;> by_cases h2 : s.batch = true <;> by_cases h3 : code = true <;> by_cases h4 : cells = true <;>
    by_cases h5 : s.mode = .lazy <;> simp_all [note, group, toggle, Several] <;>
    (try (split <;> simp_all)) <;> (intro h _; subst h; simp at hk)

theorem done_asks (s : St) (h : 0 < s.groups) : (after s [.groupDone]).asks = s.asks + 1 := by
  have : s.groups ≠ 0 := by omega
  simp [after, step, onGroupDone, ask, this]

/-- **C121**: whatever the user did before, a command that starts a run of several cells – a batch with something to run, a slice, or alternate mode in batches – is followed, when the last
of these cells comes to its end, by one more request for a schedule. -/
theorem several_asks (m : Mode) (b : Bool) (es : List Ev) (e : Ev) (k : Kind) (md : Mode) (hk : Several k) (he : ∀ c, e ≠ .run c true)
    (hl : (after (init m b) (es ++ [e])).log = (after (init m b) es).log ++ [⟨k, md⟩]) :
    (after (init m b) (es ++ [e, .groupDone])).asks = (after (init m b) (es ++ [e])).asks + 1 := by
  have h2 : es ++ [e, .groupDone] = (es ++ [e]) ++ [.groupDone] := by simp
  rw [h2, after_append _ (es ++ [e])]
  suffices h : 0 < (after (init m b) (es ++ [e])).groups by
    exact done_asks _ h
  rw [after_append] at hl ⊢
  generalize after (init m b) es = s at hl
  simp only [after, List.foldl_cons, List.foldl_nil] at hl ⊢
  cases e with
  | establish => exact absurd hl (log_append_ne _ _)
  | tab =>
    by_cases h : s.connected = true <;> simp [step, h, ask] at hl
  | run c e =>
    cases e with
    | true => exact absurd rfl (he c)
    | false =>
      by_cases h1 : s.connected = true <;> by_cases h3 : s.mode = .reactive ∧ s.batch = true ∧ c = true <;>
        simp [step, onRun, h1, h3, note, group] at hl ⊢ <;> (rcases hk with h | h | h | h <;> rw [h] at hl <;> simp at hl)
  | press c => have := press_group s c false k md hk hl; simp only [step]; omega
  | slice c =>
    simp only [step, onSlice] at hl ⊢
    by_cases h1 : s.connected = true
    · by_cases h3 : s.mode = .lazy
      · simp [h1, h3, note, group]
      · simp only [h1, h3, Bool.not_true, Bool.false_eq_true, if_false] at hl ⊢
        have := press_group { s with connected := true, bumps := s.bumps + 1 } c true k md hk hl
        rw [this]; exact Nat.succ_pos _
    · simp [h1] at hl
  | singleDone =>
    by_cases h1 : s.singles = 0 <;> by_cases h3 : s.inProgress - 1 = 0 <;> simp [step, onSingleDone, h1, h3, ask] at hl
  | groupDone => by_cases h1 : s.groups = 0 <;> simp [step, onGroupDone, h1, ask] at hl
  | directDone => by_cases h1 : s.directs = 0 <;> simp [step, onDirectDone, h1] at hl
  | schedule t =>
    by_cases h1 : s.connected = true <;> by_cases h3 : s.deferred > 0 <;> by_cases h4 : t = true <;> by_cases h5 : s.alts = 0 <;> by_cases h6 : s.alts = 1 ∧ s.kbatch = false <;>
      simp_all [step, onSchedule, group, finish, unbump, unalt, toggle]
  | setMode m => simp [step] at hl
  | setBatch b => simp [step] at hl

/-- A batch after an ordinary run that is still under way. -/
example : (after (init .reactive true) ([.establish, .run false false] ++ [.run true false, .groupDone])).asks =
    (after (init .reactive true) ([.establish, .run false false] ++ [.run true false])).asks + 1 :=
  several_asks .reactive true _ _ .batch .reactive (.inl rfl) (by simp) (by decide)

/-- Alternate mode in batches. -/
example : (after (init .lazy true) ([.establish] ++ [.press true, .groupDone])).asks = (after (init .lazy true) ([.establish] ++ [.press true])).asks + 1 :=
  several_asks .lazy true _ _ .altAll .lazy (.inr (.inr (.inl rfl))) (by simp) (by decide)

end Verif.Session
