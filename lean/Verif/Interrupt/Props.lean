import Verif.Interrupt.Model
import Mathlib.Data.List.Basic
import Mathlib.Data.List.Induction

/-! # C43: interrupts are not swallowed forever -/

namespace Verif.Interrupt
variable {T N : Type} [DecidableEq T] [DecidableEq N]

/-! ## Specification -/

/-- Facts about Python's exception classes: the bases of `KeyboardInterrupt` are itself and `BaseException`, and a class is
not a direct subclass of itself; the placeholder is another class. -/
structure Python (C : Classes T) : Prop where
  ki_sub : ∀ t, C.sub C.ki t = true ↔ t = C.ki ∨ t = C.base
  irrefl : C.base ∉ C.direct
  ph_ki : C.ph ≠ C.ki
  ph_base : C.ph ≠ C.base

/-- The event is an interrupt at clause `n` whose expression is a tuple of exception classes. -/
def IsInterrupt (C : Classes T) (n : N) (e : Event T N) : Prop :=
  e.node = n ∧ e.exc = C.ki ∧ none ∉ e.types

instance (C : Classes T) (n : N) (e : Event T N) : Decidable (IsInterrupt C n e) := by
  unfold IsInterrupt; infer_instance

/-- The clause names `KeyboardInterrupt`. -/
def Names (C : Classes T) (e : Event T N) : Prop := some C.ki ∈ e.types

instance (C : Classes T) (e : Event T N) : Decidable (Names C e) := by
  unfold Names; infer_instance

/-- The number of interrupts that clause `n` swallowed in a history. -/
def swallowed (C : Classes T) (n : N) : List (Event T N) → List (Event T N) → Nat
  | _, [] => 0
  | before, e :: rest =>
    (if e.node = n ∧ e.exc = C.ki ∧ outcome C before e = .caught then 1 else 0) + swallowed C n (before ++ [e]) rest

/-! ## Lemmas -/

omit [DecidableEq T] in
theorem classes_eq (l : List (Option T)) : (none ∈ l ∧ classes l = none) ∨
    (none ∉ l ∧ ∃ ts, classes l = some ts ∧ l = ts.map some) := by
  induction l with
  | nil => exact .inr ⟨by simp, [], rfl, rfl⟩
  | cons a l ih =>
    cases a with
    | none => exact .inl ⟨by simp, rfl⟩
    | some t =>
      rcases ih with ⟨h1, h2⟩ | ⟨h1, ts, h2, h3⟩
      · exact .inl ⟨by simp [h1], by simp [classes, h2]⟩
      · exact .inr ⟨by simp [h1], t :: ts, by simp [classes, h2], by simp [h3]⟩

omit [DecidableEq T] in
theorem classes_map (ts : List T) : classes (ts.map some) = some ts := by
  induction ts with
  | nil => rfl
  | cons t ts ih => simp [classes, ih]

theorem remaining_passes {C : Classes T} (h : Python C) (ts : List T) :
    python C C.ki ((remaining C ts).map some) = .passed := by
  unfold python
  rw [classes_map]
  have : ∀ t ∈ remaining C ts, t ≠ C.ki ∧ t ≠ C.base := by
    intro t ht
    unfold remaining at ht
    by_cases hb : C.base ∈ ts
    · simp only [hb, if_true] at ht
      split at ht
      · simp only [List.mem_singleton] at ht; subst ht; exact ⟨h.ph_ki, h.ph_base⟩
      · simp only [List.mem_filter, List.mem_append, decide_eq_true_eq] at ht
        refine ⟨ht.1.2, ?_⟩
        rcases ht.1.1 with h1 | h1
        · exact h1.2
        · rintro rfl; exact h.irrefl h1
    · simp only [hb, if_false] at ht
      split at ht
      · simp only [List.mem_singleton] at ht; subst ht; exact ⟨h.ph_ki, h.ph_base⟩
      · simp only [List.mem_filter, decide_eq_true_eq] at ht
        exact ⟨ht.1.2, by rintro rfl; exact hb ht.1.1⟩
  simp only
  rw [if_neg]
  simp only [List.any_eq_true, not_exists, not_and]
  intro t ht hs
  rcases (h.ki_sub t).1 hs with rfl | rfl
  · exact (this _ ht).1 rfl
  · exact (this _ ht).2 rfl

theorem step_count (C : Classes T) (k : Counts N) (e : Event T N) (n : N) :
    (step C k e).2 n = k n + if IsInterrupt C n e then 1 else 0 := by
  unfold step handle IsInterrupt
  by_cases h1 : e.exc = C.ki
  · rcases classes_eq e.types with ⟨h2, h3⟩ | ⟨h2, ts, h3, h4⟩
    · simp [h1, h2, h3]
    · simp only [h1, ne_eq, not_true, if_false, h3, if_true]
      by_cases hn : n = e.node
      · subst hn
        by_cases ht : k e.node + 1 < threshold C ts <;> simp [ht, h2]
      · have hn' : ¬ e.node = n := fun h => hn h.symm
        by_cases ht : k e.node + 1 < threshold C ts <;> simp [ht, hn, hn']
  · simp [h1]

theorem foldl_count (C : Classes T) (h : List (Event T N)) (k : Counts N) (n : N) :
    h.foldl (fun k e => (step C k e).2) k n = k n + (h.filter fun e => IsInterrupt C n e).length := by
  induction h generalizing k with
  | nil => rfl
  | cons e h ih =>
    rw [List.foldl_cons, ih, step_count]
    by_cases hi : IsInterrupt C n e
    · rw [if_pos hi, List.filter_cons_of_pos (by simpa using hi), List.length_cons]; omega
    · rw [if_neg hi, List.filter_cons_of_neg (by simpa using hi)]; rfl

theorem after_count (C : Classes T) (h : List (Event T N)) (n : N) :
    after C h n = (h.filter fun e => IsInterrupt C n e).length := by
  unfold after; rw [foldl_count]; simp

/-! ## C43 -/

/-- **C43**, interrupts, exactly: an interrupt that reaches an `except` clause is swallowed iff the clause names
`KeyboardInterrupt` and no interrupt reached the clause before; otherwise it passes, whatever else the clause
names. -/
theorem interrupt_exact {C : Classes T} (hC : Python C) (h : List (Event T N)) (e : Event T N)
    (he : IsInterrupt C e.node e) :
    outcome C h e = if Names C e ∧ ∀ e' ∈ h, ¬ IsInterrupt C e.node e' then .caught else .passed := by
  obtain ⟨-, h1, h2⟩ := he
  rcases classes_eq e.types with ⟨h3, -⟩ | ⟨-, ts, h3, h4⟩
  · exact absurd h3 h2
  have hnames : Names C e ↔ C.ki ∈ ts := by
    unfold Names; rw [h4]; simp
  have hk := after_count C h e.node
  unfold outcome step handle
  simp only [h1, ne_eq, not_true, if_false, h3, if_true, hk]
  have hz : (h.filter fun e' => IsInterrupt C e.node e').length = 0 ↔ ∀ e' ∈ h, ¬ IsInterrupt C e.node e' := by
    rw [List.length_eq_zero_iff, List.filter_eq_nil_iff]; simp
  by_cases hn : C.ki ∈ ts
  · by_cases h0 : ∀ e' ∈ h, ¬ IsInterrupt C e.node e'
    · have hlt : (h.filter fun e' => IsInterrupt C e.node e').length + 1 < threshold C ts := by
        rw [hz.2 h0]; simp [threshold, hn]
      rw [if_pos hlt, if_pos ⟨hnames.2 hn, h0⟩]
      simp only [python, h3]
      rw [if_pos]
      exact List.any_eq_true.2 ⟨C.ki, hn, (hC.ki_sub _).2 (.inl rfl)⟩
    · have hlt : ¬ (h.filter fun e' => IsInterrupt C e.node e').length + 1 < threshold C ts := by
        have : (h.filter fun e' => IsInterrupt C e.node e').length ≠ 0 := fun h => h0 (hz.1 h)
        simp only [threshold, hn, if_true]; omega
      rw [if_neg hlt, if_neg (fun h => h0 h.2)]
      exact remaining_passes hC ts
  · have hlt : ¬ (h.filter fun e' => IsInterrupt C e.node e').length + 1 < threshold C ts := by
      simp [threshold, hn]
    rw [if_neg hlt, if_neg (fun h => hn (hnames.1 h.1))]
    exact remaining_passes hC ts

/-- **C43**, other exceptions: the instrumentation makes no difference for them. -/
theorem others_unchanged (C : Classes T) (h : List (Event T N)) (e : Event T N) (he : e.exc ≠ C.ki) :
    outcome C h e = python C e.exc e.types := by
  simp [outcome, step, handle, he]

/-- Nor for clauses whose expression is no class or tuple of classes: they raise `TypeError`. -/
theorem invalid_unchanged (C : Classes T) (h : List (Event T N)) (e : Event T N) (he : none ∈ e.types) :
    outcome C h e = .typeError := by
  rcases classes_eq e.types with ⟨h3, h4⟩ | ⟨h3, -⟩
  · by_cases h1 : e.exc = C.ki <;> simp [outcome, step, handle, python, h1, h4]
  · exact absurd he h3

theorem swallowed_le {C : Classes T} (hC : Python C) (n : N) (h before : List (Event T N)) :
    swallowed C n before h ≤ if ∀ e' ∈ before, ¬ IsInterrupt C n e' then 1 else 0 := by
  induction h generalizing before with
  | nil => simp [swallowed]
  | cons e h ih =>
    have h1 := ih (before ++ [e])
    unfold swallowed
    by_cases hc : e.node = n ∧ e.exc = C.ki ∧ outcome C before e = .caught
    · obtain ⟨rfl, h3, h4⟩ := hc
      have hv : none ∉ e.types := fun hm => by
        rw [invalid_unchanged C before e hm] at h4; cases h4
      have hi : IsInterrupt C e.node e := ⟨rfl, h3, hv⟩
      have h5 := interrupt_exact hC before e hi
      rw [h4] at h5
      have h6 : ∀ e' ∈ before, ¬ IsInterrupt C e.node e' := by
        by_contra h7
        rw [if_neg (fun h => h7 h.2)] at h5; cases h5
      have h8 : ¬ ∀ e' ∈ before ++ [e], ¬ IsInterrupt C e.node e' := fun h => h e (by simp) hi
      rw [if_neg h8] at h1
      rw [if_pos ⟨rfl, h3, h4⟩, if_pos h6]
      omega
    · rw [if_neg hc]
      by_cases hb : ∀ e' ∈ before, ¬ IsInterrupt C n e'
      · rw [if_pos hb]
        split at h1 <;> omega
      · have h8 : ¬ ∀ e' ∈ before ++ [e], ¬ IsInterrupt C n e' := fun h => hb fun e' he' => h e' (by simp [he'])
        rw [if_neg h8] at h1
        rw [if_neg hb]; omega

/-- **C43**: over its whole life an `except` clause swallows at most one interrupt, and none if it never names
`KeyboardInterrupt`, whatever its expression evaluates to each time. -/
theorem interrupts_bounded {C : Classes T} (hC : Python C) (n : N) (h : List (Event T N)) :
    swallowed C n [] h ≤ 1 ∧ ((∀ e ∈ h, e.node = n → ¬ Names C e) → swallowed C n [] h = 0) := by
  refine ⟨by simpa using swallowed_le hC n h [], ?_⟩
  suffices H : ∀ before, (∀ e ∈ h, e.node = n → ¬ Names C e) → swallowed C n before h = 0 from H []
  induction h with
  | nil => intro _ _; rfl
  | cons e h ih =>
    intro before hn
    unfold swallowed
    rw [ih _ fun e' he' => hn e' (List.mem_cons_of_mem _ he')]
    rw [if_neg]
    rintro ⟨rfl, h3, h4⟩
    have hv : none ∉ e.types := fun hm => by
      rw [invalid_unchanged C before e hm] at h4; cases h4
    have h5 := interrupt_exact hC before e ⟨rfl, h3, hv⟩
    rw [h4, if_neg (fun h => hn e List.mem_cons_self rfl h.1)] at h5
    cases h5

/-! ## Example -/

/-- Five classes: 0 `BaseException`, 1 `KeyboardInterrupt`, 2 `SystemExit`, 3 the placeholder, 4 `Exception`. -/
def five : Classes Nat where
  sub := fun a b => a = b || b = 0
  base := 0
  ki := 1
  exit := 2
  ph := 3
  direct := [1, 2, 3, 4]

example : Python five := by
  refine ⟨fun t => ?_, by decide, by decide, by decide⟩
  simp [five]; exact or_congr eq_comm Iff.rfl

/-- Clause 7, `except (KeyboardInterrupt, Exception)`, with three interrupts and an ordinary exception between. -/
def history : List (Event Nat Nat) :=
  [⟨7, 1, [some 1, some 4]⟩, ⟨7, 4, [some 1, some 4]⟩, ⟨7, 1, [some 1, some 4]⟩, ⟨7, 1, [some 1, some 4]⟩]

example : (List.range 4).map (fun i => (history[i]?).map (outcome five (history.take i))) =
    [some .caught, some .caught, some .passed, some .passed] := by decide

example : swallowed five 7 [] history = 1 := by decide

end Verif.Interrupt
