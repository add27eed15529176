import Verif.Hold.OutLemmas

/-! # Proofs about cells that are held back -/

namespace Verif.Hold

/-- **C132.** After every history, the user's variables have the values they have if exactly the runs to be held back do nothing. -/
theorem values_eq (h : List Event) (v : Nat) : Assoc.get (after h).env v = Spec.value h v := (inv_after h).env v

/-- **C132.** A run of the same code in the same cell right after a run is executed. -/
theorem run_again (h : List Event) (r r' : Run) (hc : r'.cell = r.cell) (hd : r'.code = r.code) (v : Nat) :
    Assoc.get (after (.run r' :: .run r :: h)).env v = Spec.assigned (Assoc.get (after (.run r :: h)).env v) v r'.sets := by
  rw [values_eq, values_eq, Spec.value]
  have : Spec.held (.run r :: h) r' = false := by simp [Spec.held, Spec.heldBack, Spec.latest, hc, hd]
  rw [this]
  simp

/-- **C132, violated.** A run is executed without a warning though it uses a value from further down, if the cells were moved since the last run and that was of the same cell. -/
theorem not_held_after_moving (h : List Event) (r : Run) (pos : List (Nat × Nat)) (v : Nat) :
    Assoc.get (after (.run r :: .place pos :: .run r :: h)).env v = Spec.assigned (Assoc.get (after (.run r :: h)).env v) v r.sets := by
  rw [values_eq, values_eq, Spec.value]
  have : Spec.held (.place pos :: .run r :: h) r = false := by simp [Spec.held, Spec.heldBack, Spec.latest]
  rw [this]
  rfl

/-- **C132.** A run that uses nothing from further down shows what the code shows. -/
theorem shows_own (h : List Event) (r : Run) (hb : Spec.below h r = false) : (after (.run r :: h)).shown = Spec.output r := by
  have I := inv_after h
  obtain ⟨_, o2, _⟩ := run_out r (after h)
  rw [holds_eq I, I.warn, detected_eq I, hb] at o2
  refine (o2 ?_ (by simp)).2
  have : Spec.held h r = (Spec.warned h && Spec.below h r && decide (Spec.latest h ≠ some (r.cell, r.code))) := rfl
  rw [this, hb]
  simp

theorem held_below {h : List Event} {r : Run} (hh : Spec.held h r = true) : (Spec.warned h && Spec.below h r) = true := by
  simp only [Spec.held, Spec.heldBack, Bool.and_eq_true] at hh
  simp only [Spec.below, Bool.and_eq_true]
  exact hh.1

/-- **C132.** A run that is held back in a cell that was never executed shows nothing printed. -/
theorem shows_nothing_printed (h : List Event) (r : Run) (hh : Spec.held h r = true) (hn : Spec.executed h r.cell = none) : ∀ t, .text t ∉ (after (.run r :: h)).shown := by
  have I := inv_after h
  obtain ⟨_, _, _, _, _, o6, o7⟩ := run_out r (after h)
  rw [holds_eq I, I.warn, detected_eq I, I.ctr] at *
  intro t ht
  have ht : .text t ∈ (run r (after h)).shown := ht
  cases hl : Spec.lastRun true h r.cell with
  | none => rw [o6 hh (by rw [prev_eq I, hl]; rfl)] at ht; cases ht
  | some cr =>
    obtain ⟨hle, ts, hts, hn', _⟩ := kept_after h r.cell cr.1 cr.2 hl
    obtain ⟨_, _, a⟩ := o7 cr.1 ts hle (by rw [prev_eq I, hl]; rfl) hts (held_below hh)
    rw [(a hh).2, hn' hn] at ht
    cases hx : Assoc.get (after h).outs cr.1 with
    | none => rw [hx] at ht; simp at ht
    | some x => rw [hx] at ht; simp at ht

/-- **C132.** A run that is held back shows again what the last execution of the cell printed, and nothing else printed, unless that execution was one that had been held back. -/
theorem shows_previous_partial (h : List Event) (r q : Run) (hh : Spec.held h r = true) (hq : Spec.executed h r.cell = some q) (hc : Spec.clean h r.cell = true) :
    (after (.run r :: h)).shown.filter (fun i => match i with | .text _ => true | .result _ => false) = q.texts.map .text ∧
      ∀ x, q.result = some x → .result x ∈ (after (.run r :: h)).shown := by
  have I := inv_after h
  obtain ⟨_, _, _, _, _, _, o7⟩ := run_out r (after h)
  rw [holds_eq I, I.warn, detected_eq I, I.ctr] at *
  show (run r (after h)).shown.filter _ = _ ∧ ∀ x, _ → _ ∈ (run r (after h)).shown
  cases hl : Spec.lastRun true h r.cell with
  | none => rw [(executed_none hl).1] at hq; cases hq
  | some cr =>
    obtain ⟨hle, ts, hts, _, hk⟩ := kept_after h r.cell cr.1 cr.2 hl
    obtain ⟨_, _, a⟩ := o7 cr.1 ts hle (by rw [prev_eq I, hl]; rfl) hts (held_below hh)
    rw [(a hh).2, (hk q hq).1 hc]
    refine ⟨?_, fun x hx => by rw [(hk q hq).2 x hx]; simp⟩
    rw [List.filter_append, List.filter_append]
    have h1 : ∀ o : Option Nat, ((o.map Item.result).toList).filter (fun i => match i with | .text _ => true | .result _ => false) = [] := by
      intro o; cases o <;> rfl
    have h2 : (q.texts.map Item.text).filter (fun i => match i with | .text _ => true | .result _ => false) = q.texts.map .text := by
      rw [List.filter_eq_self]
      intro i hi
      obtain ⟨t, _, rfl⟩ := List.mem_map.mp hi
      rfl
    rw [h1, h2]
    simp

/-- **C132, violated.** The result of the last execution is shown twice, before what was printed and after it. -/
theorem result_twice (h : List Event) (r q : Run) (x : Nat) (hh : Spec.held h r = true) (hq : Spec.executed h r.cell = some q) (hc : Spec.clean h r.cell = true)
    (hx : q.result = some x) : (after (.run r :: h)).shown = .result x :: Spec.output q := by
  have I := inv_after h
  obtain ⟨_, _, _, _, _, _, o7⟩ := run_out r (after h)
  rw [holds_eq I, I.warn, detected_eq I, I.ctr] at *
  show (run r (after h)).shown = _
  cases hl : Spec.lastRun true h r.cell with
  | none => rw [(executed_none hl).1] at hq; cases hq
  | some cr =>
    obtain ⟨hle, ts, hts, _, hk⟩ := kept_after h r.cell cr.1 cr.2 hl
    obtain ⟨_, _, a⟩ := o7 cr.1 ts hle (by rw [prev_eq I, hl]; rfl) hts (held_below hh)
    rw [(a hh).2, (hk q hq).1 hc, (hk q hq).2 x hx, Spec.output, hx]
    rfl

/-- **C132, violated.** When a run that was held back is made again and executed, what an earlier execution printed and resulted in is shown below what this one does. -/
theorem old_below_new (h : List Event) (r r' q : Run) (x : Nat) (hh : Spec.held h r = true) (hc' : r'.cell = r.cell) (hd : r'.code = r.code)
    (hr : r'.reads = r.reads) (hq : Spec.executed h r.cell = some q) (hc : Spec.clean h r.cell = true) (hx : q.result = some x) :
    (after (.run r' :: .run r :: h)).shown = Spec.output r' ++ Spec.output q := by
  have I := inv_after (.run r :: h)
  obtain ⟨_, _, _, _, _, _, o7⟩ := run_out r' (after (.run r :: h))
  have hheld : Spec.held (.run r :: h) r' = false := by simp [Spec.held, Spec.heldBack, Spec.latest, hc', hd]
  have hb : (Spec.warned (.run r :: h) && Spec.below (.run r :: h) r') = true := by
    have := held_below hh
    have hset : Spec.setter (.run r :: h) = Spec.setter h := by
      funext v
      have : Spec.heldBack (Spec.setter h) h r = true := hh
      simp only [Spec.setter, this, if_true]
    simp only [Spec.below, Spec.fromBelow, hset, hr, hc'] at this ⊢
    exact this
  have hl : Spec.lastRun true (.run r :: h) r'.cell = some (Spec.runs h + 1, r.reads) := by simp [Spec.lastRun, hc']
  have hq' : Spec.executed (.run r :: h) r'.cell = some q := by simp [Spec.executed, hc', hh, hq]
  have hcl : Spec.clean (.run r :: h) r'.cell = true := by simp [Spec.clean, hc', hh, hc]
  rw [holds_eq I, I.warn, detected_eq I, I.ctr] at *
  obtain ⟨hle, ts, hts, _, hk⟩ := kept_after _ _ _ _ hl
  obtain ⟨_, a, _⟩ := o7 _ ts hle (by rw [prev_eq I, hl]; rfl) hts hb
  have a := a hheld
  rw [(hk q hq').1 hcl, (hk q hq').2 x hx] at a
  show (run r' (after (.run r :: h))).shown = _
  rw [a, Spec.output, Spec.output, hx]
  simp

/-- When a cell was last run or executed. -/
theorem lastRun_le {all : Bool} {h : List Event} {k c : Nat} {reads : List Nat} (hl : Spec.lastRun all h k = some (c, reads)) : c ≤ Spec.runs h := by
  induction h with
  | nil => simp [Spec.lastRun] at hl
  | cons e h ih =>
    cases e with
    | place p => exact ih hl
    | warn on => exact ih hl
    | run r =>
      simp only [Spec.lastRun] at hl
      simp only [Spec.runs]
      split at hl
      · simp only [Option.some.injEq, Prod.mk.injEq] at hl; omega
      · have := ih hl; omega

theorem setAt_le {h : List Event} {v w : Nat} (hl : Spec.setAt h v = some w) : w ≤ Spec.runs h := by
  induction h with
  | nil => simp [Spec.setAt] at hl
  | cons e h ih =>
    cases e with
    | place p => exact ih hl
    | warn on => exact ih hl
    | run r =>
      simp only [Spec.setAt] at hl
      simp only [Spec.runs]
      split at hl
      · simp only [Option.some.injEq] at hl; omega
      · have := ih hl; omega

theorem ready_iff {h : List Event} {k : Nat} : ready (after h) k = true ↔
    ∃ c reads v w k', Spec.lastRun true h k = some (c, reads) ∧ v ∈ reads ∧ Spec.setAt h v = some w ∧ c < w ∧ Spec.setter h v = some k' ∧ Spec.place h k' ≤ Spec.place h k := by
  have I := inv_after h
  unfold ready
  rw [I.version]
  cases hl : Spec.lastRun true h k with
  | none => simp
  | some cr =>
    obtain ⟨c, reads⟩ := cr
    simp only [List.any_eq_true]
    constructor
    · rintro ⟨v, hv, hu⟩
      rw [updatedAt_eq I] at hu
      cases hs : Spec.setAt h v with
      | none => rw [hs] at hu; simp at hu
      | some w =>
        cases hk : Spec.setter h v with
        | none => rw [hs, hk] at hu; simp at hu
        | some k' =>
          rw [hs, hk] at hu
          simp only [Bool.and_eq_true, decide_eq_true_eq, I.pos] at hu
          exact ⟨c, reads, v, w, k', rfl, hv, hs, hu.2, hk, hu.1⟩
    · rintro ⟨c', reads', v, w, k', he, hv, hs, hlt, hk, hp⟩
      simp only [Option.some.injEq, Prod.mk.injEq] at he
      obtain ⟨rfl, rfl⟩ := he
      refine ⟨v, hv, ?_⟩
      rw [updatedAt_eq I, hs, hk]
      simp only [Bool.and_eq_true, decide_eq_true_eq, I.pos]
      exact ⟨hp, hlt⟩

/-- The last run of the cell was not held back. -/
theorem lastRun_same {h : List Event} {k : Nat} (hl : Spec.lastRun true h k = Spec.lastRun false h k) : ready (after h) k = true ↔ Spec.Outdated h k := by
  rw [ready_iff, hl]; rfl

/-- **C133.** If the last run of a cell was not held back, the cell is reported to be run again exactly if its execution is out of date. -/
theorem reported_partial (h : List Event) (k : Nat) (hl : ∀ more past r, h = more ++ .run r :: past → r.cell = k → (∀ r', .run r' ∈ more → r'.cell ≠ k) → Spec.held past r = false) :
    ready (after h) k = true ↔ Spec.Outdated h k := by
  apply lastRun_same
  induction h with
  | nil => rfl
  | cons e h ih =>
    have ih' : (∀ r, e = .run r → r.cell ≠ k) → Spec.lastRun true h k = Spec.lastRun false h k := by
      intro he
      refine ih fun more past r hm hr hno => hl (e :: more) past r (by rw [hm]; rfl) hr fun r' hin => ?_
      rcases List.mem_cons.mp hin with h | h
      · exact he r' h.symm
      · exact hno r' h
    cases e with
    | place p => exact ih' (by simp)
    | warn on => exact ih' (by simp)
    | run r =>
      simp only [Spec.lastRun]
      by_cases hr : r.cell = k
      · have := hl [] h r rfl hr (by simp)
        simp [hr, this]
      · simp only [hr, false_and, if_false]
        exact ih' (fun r' hr' => by cases hr'; exact hr)

/-- **C133, violated.** Right after a run that was held back the cell is not reported, whatever is out of date. -/
theorem forgotten (h : List Event) (r : Run) (hh : Spec.held h r = true) : ready (after (.run r :: h)) r.cell = false := by
  rw [Bool.eq_false_iff]
  intro hr
  obtain ⟨c, reads, v, w, k', hl, _, hs, hlt, _⟩ := ready_iff.mp hr
  simp only [Spec.lastRun, Bool.true_or, and_true, if_true, Option.some.injEq, Prod.mk.injEq] at hl
  have hs : (if Spec.held h r = false ∧ v ∈ r.sets.map Prod.fst then some (Spec.runs h + 1) else Spec.setAt h v) = some w := hs
  rw [hh] at hs
  simp only [Bool.true_eq_false, false_and, if_false] at hs
  have := setAt_le hs
  omega

end Verif.Hold
