import Verif.Dirty.Spec

namespace Verif.Dirty
open Spec

theorem text_eq (n : Nat) (h : List Ev) : (after n h).text = text h := by
  induction h with
  | nil => rfl
  | cons e h ih =>
    cases e with
    | edit c t => funext d; simp only [after, step, text, ih]
    | run c => exact (show (after n h).text = text h from ih).trans (funext fun _ => rfl)
    | settle =>
      have hs : (settle n (after n h)).text = (after n h).text := by
        unfold settle; split <;> rfl
      exact (hs.trans ih).trans (funext fun _ => rfl)
    | connect => exact (show (after n h).text = text h from ih).trans (funext fun _ => rfl)

theorem ran_eq (n : Nat) (h : List Ev) : (after n h).ran = ranWith h := by
  induction h with
  | nil => rfl
  | cons e h ih =>
    cases e with
    | edit c t => exact (show (after n h).ran = ranWith h from ih).trans (funext fun _ => rfl)
    | run c =>
      funext d
      simp only [after, step, ranWith, ih, text_eq]
      by_cases q : d = c
      · simp [q]
      · simp [q]
    | settle =>
      have hs : (settle n (after n h)).ran = (after n h).ran := by
        unfold settle; split <;> rfl
      exact (hs.trans ih).trans (funext fun _ => rfl)
    | connect => exact (show (after n h).ran = ranWith h from ih).trans (funext fun _ => rfl)

theorem isDirty_iff (n : Nat) (h : List Ev) (c : Nat) : isDirty (after n h) c = true ↔ Edited h c := by
  unfold isDirty Edited
  rw [ran_eq, text_eq]
  cases ranWith h c with
  | none => simp
  | some t => simp

theorem same_some {n : Nat} {f g : Nat → Nat} : same n (some f) g = true ↔ ∀ c, c < n → f c = g c := by
  simp [same, List.all_eq_true]

/-- What is kept of the texts is what they were when the notebook last came to rest. -/
theorem last_eq (n : Nat) (h : List Ev) :
    ((after n h).last = none → ∀ c, restedText h c = none) ∧ ∀ f, (after n h).last = some f → ∀ c, c < n → restedText h c = some (f c) := by
  induction h with
  | nil => exact ⟨fun _ _ => rfl, fun f q => by cases q⟩
  | cons e h ih =>
    cases e with
    | edit c t => exact ih
    | run c => exact ih
    | settle =>
      simp only [after, step, settle, restedText]
      cases hs : same n (after n h).last (after n h).text with
      | true =>
        simp only [if_true]
        cases hl : (after n h).last with
        | none => rw [hl] at hs; cases hs
        | some f =>
          refine ⟨fun q => (by cases q), ?_⟩
          intro g hg c hc
          injection hg with hg; subst hg
          rw [hl, same_some] at hs
          rw [hs c hc, text_eq]
      | false =>
        simp only [Bool.false_eq_true, if_false]
        refine ⟨fun q => (by cases q), ?_⟩
        intro g hg c _
        injection hg with hg
        rw [← hg, text_eq]
    | connect => exact ⟨fun _ _ => rfl, fun f q => by cases q⟩

/-- A cell is taken to be edited if it was when the notebook last came to rest. -/
def Kept (n : Nat) (h : List Ev) : Prop :=
  ∀ f, (after n h).last = some f → ∀ c, c < n → ((after n h).dirty c = true ↔ ∃ t, ranWith h c = some t ∧ t ≠ f c)

theorem rest_text (n : Nat) (h : List Ev) (hr : atRest h) : ∀ f, (after n h).last = some f → ∀ c, c < n → f c = text h c := by
  induction h with
  | nil => intro f q; cases q
  | cons e h ih =>
    cases e with
    | edit c t => exact hr.elim
    | run c => exact ih hr
    | settle =>
      intro f hf c hc
      have := (last_eq n (.settle :: h)).2 f hf c hc
      simp only [restedText, Option.some.injEq] at this
      exact this.symm
    | connect => intro f q; cases q

theorem kept_calm (n : Nat) (h : List Ev) (hc : Calm h) : Kept n h := by
  induction h with
  | nil => intro f q; cases q
  | cons e h ih =>
    cases e with
    | edit c t => exact ih hc
    | run c =>
      intro f hf d hd
      have hf' : (after n h).last = some f := hf
      simp only [after, step, ranWith]
      by_cases q : d = c
      · subst q
        simp only [if_true, Bool.false_eq_true, Option.some.injEq, false_iff, not_exists, not_and]
        rintro t rfl
        simpa using (rest_text n h hc.1 f hf' d hd).symm
      · simp only [q, if_false]
        exact ih hc.2 f hf' d hd
    | settle =>
      intro f hf d hd
      simp only [after, step, settle] at hf ⊢
      cases hs : same n (after n h).last (after n h).text with
      | true =>
        simp only [hs, if_true] at hf ⊢
        exact ih hc f hf d hd
      | false =>
        simp only [hs, Bool.false_eq_true, if_false, Option.some.injEq, hd, if_true] at hf ⊢
        rw [isDirty_iff, ← hf, text_eq]
        rfl
    | connect => intro f q; cases q

/-- **C189** (partial): if cells are only run when the notebook is at rest, then whenever it has come to rest the cells that the command runs are exactly those which were edited since they were
run. -/
theorem stale_partial (n : Nat) (h : List Ev) (hc : Calm h) (c : Nat) : c ∈ staleCells n (after n (.settle :: h)) ↔ c < n ∧ Edited h c := by
  simp only [staleCells, List.mem_filter, List.mem_range, and_congr_right_iff]
  intro hn
  simp only [after, step, settle]
  cases hs : same n (after n h).last (after n h).text with
  | false =>
    simp only [Bool.false_eq_true, if_false, hn, if_true]
    exact isDirty_iff n h c
  | true =>
    simp only [if_true]
    cases hl : (after n h).last with
    | none => rw [hl] at hs; cases hs
    | some f =>
      rw [kept_calm n h hc f hl c hn]
      rw [hl, same_some] at hs
      rw [hs c hn, text_eq]
      rfl

/-- **C189** (partial): whenever cells were run, it is so if the notebook comes to rest with a text that is not the one it had when it last came to rest. -/
theorem stale_new_partial (n : Nat) (h : List Ev) (d : Nat) (hd : d < n) (hx : restedText h d ≠ some (text h d)) (c : Nat) :
    c ∈ staleCells n (after n (.settle :: h)) ↔ c < n ∧ Edited h c := by
  simp only [staleCells, List.mem_filter, List.mem_range, and_congr_right_iff]
  intro hn
  simp only [after, step, settle]
  cases hs : same n (after n h).last (after n h).text with
  | false =>
    simp only [Bool.false_eq_true, if_false, hn, if_true]
    exact isDirty_iff n h c
  | true =>
    cases hl : (after n h).last with
    | none => rw [hl] at hs; cases hs
    | some f =>
      rw [hl, same_some] at hs
      exact absurd (by rw [(last_eq n h).2 f hl d hd, hs d hd, text_eq]) hx

/-- **C189**: what was just run is not taken to be edited, and what is not edited or run is taken as before. -/
theorem run_settles (n : Nat) (h : List Ev) (c d : Nat) :
    c ∉ staleCells n (after n (.run c :: h)) ∧ (d ≠ c → (d ∈ staleCells n (after n (.run c :: h)) ↔ d ∈ staleCells n (after n h))) := by
  refine ⟨by simp [staleCells, after, step], ?_⟩
  intro hne
  simp [staleCells, after, step, hne]

/-- Coming to rest again and again. -/
def rests : Nat → List Ev → List Ev
  | 0, h => h
  | k + 1, h => .settle :: rests k h

theorem rests_same {n : Nat} {h : List Ev} (hs : same n (after n h).last (after n h).text = true) (k : Nat) : after n (rests k h) = after n h := by
  induction k with
  | zero => rfl
  | succ k ih => simp only [rests, after, step, ih, settle, hs, if_true]

/-- **C189** (violated): if a cell is edited, run and edited back before the notebook comes to rest, it is not taken to be edited, whatever was done before and however often the notebook comes to rest. -/
theorem taken_back (n : Nat) (h : List Ev) (c : Nat) (y : Nat) (hy : y ≠ text h c) (k : Nat) :
    Edited (.edit c (text h c) :: .run c :: .edit c y :: .settle :: h) c ∧
      c ∉ staleCells n (after n (rests k (.edit c (text h c) :: .run c :: .edit c y :: .settle :: h))) := by
  refine ⟨⟨y, by simp [ranWith, text], by simpa [text] using hy⟩, ?_⟩
  have hs : same n (after n (.edit c (text h c) :: .run c :: .edit c y :: .settle :: h)).last (after n (.edit c (text h c) :: .run c :: .edit c y :: .settle :: h)).text = true := by
    have hl : (after n (.edit c (text h c) :: .run c :: .edit c y :: .settle :: h)).last = (after n (.settle :: h)).last := rfl
    rw [hl, text_eq]
    cases hq : (after n (.settle :: h)).last with
    | none =>
      have := (last_eq n (.settle :: h)).1 hq c
      simp [restedText] at this
    | some f =>
      rw [same_some]
      intro d hd
      have := (last_eq n (.settle :: h)).2 f hq d hd
      simp only [restedText, Option.some.injEq] at this
      simp only [text]
      by_cases q : d = c
      · subst q; simp [this]
      · simp [q, this]
  rw [rests_same hs]
  simp [staleCells, after, step]

/-- **C189** (violated): after a new connection no cell is taken to be edited until the notebook comes to rest, whatever else is done. -/
theorem reconnected (n : Nat) (h more : List Ev) (hm : ∀ e ∈ more, e ≠ .settle) : staleCells n (after n (more ++ .connect :: h)) = [] := by
  have : ∀ c, (after n (more ++ .connect :: h)).dirty c = false := by
    induction more with
    | nil => intro c; rfl
    | cons e more ih =>
      have ih := ih fun x q => hm x (List.mem_cons_of_mem _ q)
      cases e with
      | edit d t => exact ih
      | run d =>
        intro c
        simp only [List.cons_append, after, step]
        by_cases q : c = d <;> simp [q, ih]
      | settle => exact absurd rfl (hm .settle (List.mem_cons_self ..))
      | connect => intro c; rfl
  simp [staleCells, this]

/-- **C189** (violated): a cell that is edited is not taken to be until the notebook comes to rest. -/
theorem too_soon (n : Nat) (h : List Ev) (hc : Calm h) (c t x : Nat) (hr : ranWith h c = some x) (hx : text h c = x) (ht : t ≠ x) :
    Edited (.edit c t :: .settle :: h) c ∧ c ∉ staleCells n (after n (.edit c t :: .settle :: h)) := by
  refine ⟨⟨x, by simpa [ranWith] using hr, by simpa [text] using Ne.symm ht⟩, ?_⟩
  intro q
  obtain ⟨-, y, h1, h2⟩ := (stale_partial n h hc c).1 q
  rw [hr] at h1
  injection h1 with h1
  exact h2 (h1 ▸ hx.symm)

end Verif.Dirty
