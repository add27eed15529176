import Verif.Hold.Lemmas

/-! # Lemmas about what is shown -/

namespace Verif.Hold

/-- What a run captures, puts in `Out` and shows. -/
theorem run_out (r : Run) (σ : Sys) :
    (∀ d, d ≤ σ.ctr → Assoc.get (run r σ).captured d = Assoc.get σ.captured d ∧ Assoc.get (run r σ).outs d = Assoc.get σ.outs d) ∧
    (holds σ r = false → (σ.warn && detected σ r) = false → Assoc.get (run r σ).captured (σ.ctr + 1) = some r.texts ∧ (run r σ).shown = Spec.output r) ∧
    (holds σ r = false → ∀ x, r.result = some x → Assoc.get (run r σ).outs (σ.ctr + 1) = some x) ∧
    (holds σ r = false → prev σ r.cell = none → (run r σ).shown = Spec.output r) ∧
    (prev σ r.cell = none → Assoc.get (run r σ).captured (σ.ctr + 1) = some (if holds σ r then [] else r.texts)) ∧
    (holds σ r = true → prev σ r.cell = none → (run r σ).shown = []) ∧
    (∀ p ts, p ≤ σ.ctr → prev σ r.cell = some p → Assoc.get σ.captured p = some ts → (σ.warn && detected σ r) = true →
      Assoc.get (run r σ).captured (σ.ctr + 1) = some ((if holds σ r then [] else r.texts) ++ ts) ∧
      (holds σ r = false → (run r σ).shown = Spec.output r ++ ts.map .text ++ ((Assoc.get σ.outs p).map Item.result).toList) ∧
      (holds σ r = true → (∀ x, Assoc.get σ.outs p = some x → Assoc.get (run r σ).outs (σ.ctr + 1) = some x) ∧
        (run r σ).shown = ((Assoc.get σ.outs p).map Item.result).toList ++ ts.map .text ++ ((Assoc.get σ.outs p).map Item.result).toList)) := by
  have hold_det : holds σ r = true → (σ.warn && detected σ r) = true := by
    intro h; simp only [holds, Bool.and_eq_true] at h; simp [h.1.1, h.1.2]
  -- the run without what is shown after it
  have E : ∀ σ' : Sys, σ' = execute r (begin r σ) →
      (∀ d, Assoc.get σ'.captured d = if d = σ.ctr + 1 then some r.texts else Assoc.get σ.captured d) ∧
      (∀ d, Assoc.get σ'.outs d = if d = σ.ctr + 1 then r.result.or (Assoc.get σ.outs d) else Assoc.get σ.outs d) ∧ σ'.shown = Spec.output r ∧ σ'.ctr = σ.ctr + 1 := by
    rintro σ' rfl
    have hc := (same_execute r (begin r σ)).ctr
    simp only [execute] at hc ⊢
    obtain ⟨_, _, h1, h2, h3⟩ := result_env (assign (begin r σ).ctr { begin r σ with captured := Assoc.set (begin r σ).captured (begin r σ).ctr r.texts, shown := r.texts.map .text } r.sets).ctr r.result
      (assign (begin r σ).ctr { begin r σ with captured := Assoc.set (begin r σ).captured (begin r σ).ctr r.texts, shown := r.texts.map .text } r.sets)
    obtain ⟨a1, a2, a3⟩ := assign_rest (begin r σ).ctr r.sets { begin r σ with captured := Assoc.set (begin r σ).captured (begin r σ).ctr r.texts, shown := r.texts.map .text }
    have a4 := (same_assign (begin r σ).ctr r.sets { begin r σ with captured := Assoc.set (begin r σ).captured (begin r σ).ctr r.texts, shown := r.texts.map .text }).ctr
    refine ⟨fun d => ?_, fun d => ?_, ?_, hc⟩
    · rw [h1, a2]; exact Assoc.get_set _ _ _ _
    · rw [h3, a1, a4]; rfl
    · rw [h2, a3]; rfl
  have N : ∀ σ' : Sys, σ' = instead none (begin r σ) →
      (∀ d, Assoc.get σ'.captured d = if d = σ.ctr + 1 then some [] else Assoc.get σ.captured d) ∧ (∀ d, Assoc.get σ'.outs d = Assoc.get σ.outs d) ∧
      σ'.shown = [] ∧ σ'.ctr = σ.ctr + 1 := by
    rintro σ' rfl
    exact ⟨fun d => Assoc.get_set _ _ _ _, fun _ => rfl, rfl, rfl⟩
  have H : ∀ p, ∀ σ' : Sys, σ' = instead (some p) (begin r σ) →
      (∀ d, Assoc.get σ'.captured d = if d = σ.ctr + 1 then some [] else Assoc.get σ.captured d) ∧
      (∀ d, Assoc.get σ'.outs d = if d = σ.ctr + 1 then (Assoc.get σ.outs p).or (Assoc.get σ.outs d) else Assoc.get σ.outs d) ∧
      σ'.shown = ((Assoc.get σ.outs p).map Item.result).toList ∧ σ'.ctr = σ.ctr + 1 := by
    rintro p σ' rfl
    have hc := (same_instead (some p) (begin r σ)).ctr
    simp only [instead] at hc ⊢
    obtain ⟨_, _, h1, h2, h3⟩ := result_env (begin r σ).ctr (Assoc.get (begin r σ).outs p) { begin r σ with captured := Assoc.set (begin r σ).captured (begin r σ).ctr [], shown := [] }
    refine ⟨fun d => ?_, fun d => ?_, ?_, hc⟩
    · rw [h1]; exact Assoc.get_set _ _ _ _
    · rw [h3]; rfl
    · rw [h2]; rfl
  have W : ∀ (p : Nat) (σ' : Sys), σ'.ctr = σ.ctr + 1 → (∀ d, d ≠ σ.ctr + 1 → Assoc.get σ'.captured d = Assoc.get σ.captured d) →
      ∀ d, d ≤ σ.ctr → Assoc.get (showBefore (some p) σ').captured d = Assoc.get σ'.captured d ∧ Assoc.get (showBefore (some p) σ').outs d = Assoc.get σ'.outs d := by
    intro p σ' hc _ d hd
    simp only [showBefore]
    cases Assoc.get σ'.captured p with
    | none => exact ⟨rfl, rfl⟩
    | some ts =>
      dsimp only
      rw [Assoc.get_set_ne _ _ (by omega)]
      refine ⟨rfl, ?_⟩
      cases Assoc.get σ'.outs p with
      | none => rfl
      | some x => dsimp only; rw [Assoc.get_set_ne _ _ (by omega)]
  have T : ∀ (p : Nat) (ts : List Nat) (σ' : Sys), σ'.ctr = σ.ctr + 1 → Assoc.get σ'.captured p = some ts → p ≤ σ.ctr →
      Assoc.get (showBefore (some p) σ').captured (σ.ctr + 1) = some ((Assoc.get σ'.captured (σ.ctr + 1)).getD [] ++ ts) ∧
      (showBefore (some p) σ').shown = σ'.shown ++ ts.map .text ++ ((Assoc.get σ'.outs p).map Item.result).toList ∧
      Assoc.get (showBefore (some p) σ').outs (σ.ctr + 1) = Assoc.get σ'.outs (σ.ctr + 1) := by
    intro p ts σ' hc hp hle
    simp only [showBefore, hp, hc, Assoc.get_set_self]
    refine ⟨trivial, trivial, ?_⟩
    cases Assoc.get σ'.outs p with
    | none => rfl
    | some x => dsimp only; rw [Assoc.get_set_ne _ _ (by omega)]
  cases hh : holds σ r with
  | false =>
    obtain ⟨e1, e2, e3, e4⟩ := E _ rfl
    cases hd : (σ.warn && detected σ r) with
    | false =>
      have hrun : run r σ = execute r (begin r σ) := by simp [run, hh, hd]
      rw [hrun]
      refine ⟨fun d hd => ⟨by rw [e1, if_neg (by omega)], by rw [e2, if_neg (by omega)]⟩, fun _ _ => ⟨by rw [e1, if_pos rfl], e3⟩, fun _ x hx => by rw [e2, if_pos rfl, hx]; rfl,
        fun _ _ => e3, fun _ => by rw [e1, if_pos rfl]; simp, by simp, by simp⟩
    | true =>
      cases hp : prev σ r.cell with
      | none =>
        have hrun : run r σ = execute r (begin r σ) := by simp [run, hh, hd, hp, showBefore]
        rw [hrun]
        refine ⟨fun d hd => ⟨by rw [e1, if_neg (by omega)], by rw [e2, if_neg (by omega)]⟩, by simp, fun _ x hx => by rw [e2, if_pos rfl, hx]; rfl,
          fun _ _ => e3, fun _ => by rw [e1, if_pos rfl]; simp, by simp, by simp⟩
      | some p =>
        have hrun : run r σ = showBefore (some p) (execute r (begin r σ)) := by simp [run, hh, hd, hp]
        rw [hrun]
        refine ⟨fun d hd => ?_, by simp, fun _ x hx => ?_, by simp, by simp, by simp, ?_⟩
        · obtain ⟨w1, w2⟩ := W p _ e4 (fun d hd => by rw [e1, if_neg hd]) d hd
          exact ⟨by rw [w1, e1, if_neg (by omega)], by rw [w2, e2, if_neg (by omega)]⟩
        · have : Assoc.get (showBefore (some p) (execute r (begin r σ))).outs (σ.ctr + 1) = Assoc.get (execute r (begin r σ)).outs (σ.ctr + 1) := by
            simp only [showBefore]
            cases Assoc.get (execute r (begin r σ)).captured p with
            | none => rfl
            | some ts =>
              dsimp only
              cases Assoc.get (execute r (begin r σ)).outs p with
              | none => rfl
              | some x => dsimp only; rw [Assoc.get_set_ne _ _ (by omega)]
          rw [this, e2, if_pos rfl, hx]; rfl
        · intro p' ts hle hpp hc _
          simp only [Option.some.injEq] at hpp
          subst hpp
          obtain ⟨t1, t2, t3⟩ := T p ts _ e4 (by rw [e1, if_neg (by omega)]; exact hc) hle
          refine ⟨by rw [t1, e1, if_pos rfl]; rfl, fun _ => ?_, by simp⟩
          rw [t2, e3, e2, if_neg (by omega)]
  | true =>
    have hd := hold_det hh
    cases hp : prev σ r.cell with
    | none =>
      have hrun : run r σ = instead none (begin r σ) := by simp [run, hh, hd, hp, showBefore]
      obtain ⟨e1, e2, e3, e4⟩ := N _ rfl
      rw [hrun]
      refine ⟨fun d hd => ⟨by rw [e1, if_neg (by omega)], by rw [e2]⟩, by simp, by simp, by simp, fun _ => by rw [e1, if_pos rfl]; simp, fun _ _ => e3, by simp⟩
    | some p =>
      obtain ⟨e1, e2, e3, e4⟩ := H p _ rfl
      have hrun : run r σ = showBefore (some p) (instead (some p) (begin r σ)) := by simp [run, hh, hd, hp]
      rw [hrun]
      refine ⟨fun d hd => ?_, by simp, by simp, by simp, by simp, by simp, ?_⟩
      · obtain ⟨w1, w2⟩ := W p _ e4 (fun d hd => by rw [e1, if_neg hd]) d hd
        exact ⟨by rw [w1, e1, if_neg (by omega)], by rw [w2, e2, if_neg (by omega)]⟩
      · intro p' ts hle hpp hc _
        simp only [Option.some.injEq] at hpp
        subst hpp
        obtain ⟨t1, t2, t3⟩ := T p ts _ e4 (by rw [e1, if_neg (by omega)]; exact hc) hle
        refine ⟨by rw [t1, e1, if_pos rfl]; rfl, by simp, fun _ => ⟨fun x hx => ?_, ?_⟩⟩
        · rw [t3, e2, if_pos rfl, hx]; rfl
        · rw [t2, e3, e2, if_neg (by omega)]

/-- What holds of captured output after every history. -/
def Kept (h : List Event) (σ : Sys) : Prop :=
  ∀ k c reads, Spec.lastRun true h k = some (c, reads) → c ≤ Spec.runs h ∧ ∃ ts, Assoc.get σ.captured c = some ts ∧ (Spec.executed h k = none → ts = []) ∧
    ∀ q, Spec.executed h k = some q → (Spec.clean h k = true → ts = q.texts) ∧ ∀ x, q.result = some x → Assoc.get σ.outs c = some x

theorem prev_eq {h : List Event} {σ : Sys} (I : Inv h σ) (k : Nat) : prev σ k = (Spec.lastRun true h k).map Prod.fst := by rw [prev, I.version]

theorem executed_none {h : List Event} {k : Nat} (hk : Spec.lastRun true h k = none) : Spec.executed h k = none ∧ Spec.clean h k = true := by
  induction h with
  | nil => exact ⟨rfl, rfl⟩
  | cons e h ih =>
    cases e with
    | place p => exact ih hk
    | warn on => exact ih hk
    | run r =>
      simp only [Spec.lastRun, Bool.true_or, and_true] at hk
      split at hk
      · cases hk
      · rename_i hne
        simp only [Spec.executed, Spec.clean, hne, false_and, if_false]
        exact ih hk

theorem kept_after (h : List Event) : Kept h (after h) := by
  induction h with
  | nil => intro k c reads hk; simp [Spec.lastRun] at hk
  | cons e h K =>
    have I := inv_after h
    cases e with
    | place p => exact K
    | warn on => exact K
    | run r =>
      obtain ⟨o1, o2, o3, o4, o5, o6, o7⟩ := run_out r (after h)
      rw [holds_eq I, I.warn, detected_eq I, I.ctr] at *
      intro k c reads hk
      simp only [Spec.lastRun, Bool.true_or, and_true] at hk
      by_cases hr : r.cell = k
      · rw [if_pos hr] at hk
        simp only [Option.some.injEq, Prod.mk.injEq] at hk
        obtain ⟨rfl, rfl⟩ := hk
        refine ⟨Nat.le_refl _, ?_⟩
        simp only [Spec.executed, Spec.clean, hr, true_and]
        show ∃ ts, Assoc.get (run r (after h)).captured _ = some ts ∧ _
        cases hh : Spec.held h r with
        | false =>
          simp only [if_true]
          rw [hh] at o2 o3 o5 o7
          simp only [reduceCtorEq, false_implies, true_and, Option.some.injEq]
          cases hp : prev (after h) r.cell with
          | none => exact ⟨r.texts, by simpa using o5 hp, fun q hq => by subst hq; exact ⟨fun _ => rfl, fun x hx => o3 rfl x hx⟩⟩
          | some p =>
            cases hw : (Spec.warned h && Spec.below h r) with
            | false => exact ⟨r.texts, (o2 rfl hw).1, fun q hq => by subst hq; exact ⟨fun _ => rfl, fun x hx => o3 rfl x hx⟩⟩
            | true =>
              have hp' := hp
              rw [prev_eq I] at hp'
              cases hl : Spec.lastRun true h r.cell with
              | none => rw [hl] at hp'; cases hp'
              | some cr =>
                rw [hl] at hp'
                simp only [Option.map_some, Option.some.injEq] at hp'
                obtain ⟨hle, ts, hts, _⟩ := K r.cell cr.1 cr.2 hl
                rw [hp'] at hle hts
                exact ⟨_, (o7 p ts hle hp hts hw).1, fun q hq => by subst hq; exact ⟨by simp, fun x hx => o3 rfl x hx⟩⟩
        | true =>
          simp only [Bool.true_eq_false, if_false]
          rw [hh] at o5 o7
          have hd : (Spec.warned h && Spec.below h r) = true := by
            simp only [Spec.held, Spec.heldBack, Bool.and_eq_true] at hh
            simp only [Spec.below, Bool.and_eq_true]
            exact hh.1
          cases hp : prev (after h) r.cell with
          | none =>
            have hl : Spec.lastRun true h k = none := by
              rw [prev_eq I, hr] at hp
              simpa using hp
            refine ⟨[], by simpa using o5 hp, fun _ => rfl, fun q hq => ?_⟩
            rw [(executed_none hl).1] at hq
            cases hq
          | some p =>
            have hp' := hp
            rw [prev_eq I, hr] at hp'
            cases hl : Spec.lastRun true h k with
            | none => rw [hl] at hp'; cases hp'
            | some cr =>
              rw [hl] at hp'
              simp only [Option.map_some, Option.some.injEq] at hp'
              obtain ⟨hle, ts, hts, hn, hq⟩ := K k cr.1 cr.2 hl
              rw [hp'] at hle hts hq
              obtain ⟨a1, _, a2⟩ := o7 p ts hle hp hts hd
              exact ⟨ts, by simpa using a1, hn, fun q hq' => ⟨(hq q hq').1, fun x hx => (a2 rfl).1 x ((hq q hq').2 x hx)⟩⟩
      · rw [if_neg hr] at hk
        obtain ⟨hle, ts, hts, hn, hq⟩ := K k c reads hk
        simp only [Spec.executed, Spec.clean, hr, false_and, if_false, Spec.runs]
        obtain ⟨a1, a2⟩ := o1 c hle
        refine ⟨by omega, ts, a1.trans hts, hn, fun q hq' => ⟨(hq q hq').1, fun x hx => a2.trans ((hq q hq').2 x hx)⟩⟩

end Verif.Hold
