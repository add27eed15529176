import Verif.Hold.Spec
import Mathlib.Tactic.SplitIfs

/-! # Lemmas about cells that are held back -/

namespace Verif.Hold

/-- The parts of the state that the execution and what is shown after it do not touch. -/
structure Same (σ σ' : Sys) : Prop where
  warn : σ'.warn = σ.warn
  ctr : σ'.ctr = σ.ctr
  last : σ'.last = σ.last
  ran : σ'.ran = σ.ran
  pos : σ'.pos = σ.pos
  version : σ'.version = σ.version

theorem Same.refl (σ : Sys) : Same σ σ := ⟨rfl, rfl, rfl, rfl, rfl, rfl⟩

theorem Same.trans {a b c : Sys} (h : Same a b) (h' : Same b c) : Same a c :=
  ⟨h'.warn.trans h.warn, h'.ctr.trans h.ctr, h'.last.trans h.last, h'.ran.trans h.ran, h'.pos.trans h.pos, h'.version.trans h.version⟩

theorem same_assign (c : Nat) (l : List (Nat × Nat)) (σ : Sys) : Same σ (assign c σ l) := by
  induction l generalizing σ with
  | nil => exact Same.refl σ
  | cons p l ih =>
    exact Same.trans (b := { σ with env := Assoc.set σ.env p.1 p.2, stamp := Assoc.set σ.stamp p.1 c }) ⟨rfl, rfl, rfl, rfl, rfl, rfl⟩ (ih _)

theorem same_result (c : Nat) (x : Option Nat) (σ : Sys) : Same σ (result c x σ) := by
  cases x <;> exact ⟨rfl, rfl, rfl, rfl, rfl, rfl⟩

theorem same_execute (r : Run) (σ : Sys) : Same σ (execute r σ) :=
  Same.trans (b := assign σ.ctr { σ with captured := Assoc.set σ.captured σ.ctr r.texts, shown := r.texts.map .text } r.sets)
    (Same.trans (b := { σ with captured := Assoc.set σ.captured σ.ctr r.texts, shown := r.texts.map .text }) ⟨rfl, rfl, rfl, rfl, rfl, rfl⟩ (same_assign _ _ _))
    (same_result _ _ _)

theorem same_instead (p : Option Nat) (σ : Sys) : Same σ (instead p σ) := by
  cases p with
  | none => exact ⟨rfl, rfl, rfl, rfl, rfl, rfl⟩
  | some p =>
    exact Same.trans (b := { σ with captured := Assoc.set σ.captured σ.ctr [], shown := [] }) ⟨rfl, rfl, rfl, rfl, rfl, rfl⟩ (same_result _ _ _)

theorem same_showBefore (p : Option Nat) (σ : Sys) : Same σ (showBefore p σ) := by
  cases p with
  | none => exact Same.refl σ
  | some p =>
    simp only [showBefore]
    cases Assoc.get σ.captured p with
    | none => exact Same.refl σ
    | some ts => exact ⟨rfl, rfl, rfl, rfl, rfl, rfl⟩

theorem same_run (r : Run) (σ : Sys) : Same (begin r σ) (run r σ) := by
  simp only [run]
  have : Same (begin r σ) (if holds σ r then instead (prev σ r.cell) (begin r σ) else execute r (begin r σ)) := by
    split
    · exact same_instead _ _
    · exact same_execute _ _
  split
  · exact this.trans (same_showBefore _ _)
  · exact this

/-- The variables and the timestamps of symbols. -/
theorem env_assign (c : Nat) (l : List (Nat × Nat)) (σ : Sys) (v : Nat) :
    Assoc.get (assign c σ l).env v = Spec.assigned (Assoc.get σ.env v) v l ∧
      Assoc.get (assign c σ l).stamp v = if v ∈ l.map Prod.fst then some c else Assoc.get σ.stamp v := by
  induction l generalizing σ with
  | nil => exact ⟨rfl, by simp [assign]⟩
  | cons p l ih =>
    obtain ⟨v', x⟩ := p
    obtain ⟨h1, h2⟩ := ih { σ with env := Assoc.set σ.env v' x, stamp := Assoc.set σ.stamp v' c }
    refine ⟨?_, ?_⟩
    · rw [assign, h1, Assoc.get_set]
      simp only [Spec.assigned]
      by_cases h : v = v'
      · subst h; simp
      · rw [if_neg h, if_neg (Ne.symm h)]
    · rw [assign, h2, Assoc.get_set]
      by_cases h : v = v'
      · subst h; simp
      · rw [if_neg h]
        by_cases hv : v ∈ l.map Prod.fst
        · rw [if_pos hv, if_pos (show v ∈ List.map Prod.fst ((v', x) :: l) from List.mem_cons_of_mem _ hv)]
        · rw [if_neg hv, if_neg]
          rintro (_ | ⟨_, hm⟩)
          · exact h rfl
          · exact hv hm

theorem assign_rest (c : Nat) (l : List (Nat × Nat)) (σ : Sys) :
    (assign c σ l).outs = σ.outs ∧ (assign c σ l).captured = σ.captured ∧ (assign c σ l).shown = σ.shown := by
  induction l generalizing σ with
  | nil => exact ⟨rfl, rfl, rfl⟩
  | cons p l ih => exact ih _

theorem result_env (c : Nat) (x : Option Nat) (σ : Sys) :
    (result c x σ).env = σ.env ∧ (result c x σ).stamp = σ.stamp ∧ (result c x σ).captured = σ.captured ∧
      (result c x σ).shown = σ.shown ++ (x.map Item.result).toList ∧ ∀ d, Assoc.get (result c x σ).outs d = if d = c then x.or (Assoc.get σ.outs d) else Assoc.get σ.outs d := by
  cases x with
  | none => exact ⟨rfl, rfl, rfl, by simp [result], fun d => by simp [result]⟩
  | some x => exact ⟨rfl, rfl, rfl, by simp [result], fun d => by simp [result, Assoc.get_set]⟩

theorem env_showBefore (p : Option Nat) (σ : Sys) : (showBefore p σ).env = σ.env ∧ (showBefore p σ).stamp = σ.stamp := by
  cases p with
  | none => exact ⟨rfl, rfl⟩
  | some p =>
    simp only [showBefore]
    cases Assoc.get σ.captured p with
    | none => exact ⟨rfl, rfl⟩
    | some ts => exact ⟨rfl, rfl⟩

theorem env_run (r : Run) (σ : Sys) (v : Nat) :
    Assoc.get (run r σ).env v = (if holds σ r then Assoc.get σ.env v else Spec.assigned (Assoc.get σ.env v) v r.sets) ∧
      Assoc.get (run r σ).stamp v = if holds σ r then Assoc.get σ.stamp v else if v ∈ r.sets.map Prod.fst then some (σ.ctr + 1) else Assoc.get σ.stamp v := by
  have key : Assoc.get (if holds σ r then instead (prev σ r.cell) (begin r σ) else execute r (begin r σ)).env v =
        (if holds σ r then Assoc.get σ.env v else Spec.assigned (Assoc.get σ.env v) v r.sets) ∧
      Assoc.get (if holds σ r then instead (prev σ r.cell) (begin r σ) else execute r (begin r σ)).stamp v =
        if holds σ r then Assoc.get σ.stamp v else if v ∈ r.sets.map Prod.fst then some (σ.ctr + 1) else Assoc.get σ.stamp v := by
    by_cases h : holds σ r = true
    · simp only [if_pos h]
      cases prev σ r.cell with
      | none => exact ⟨rfl, rfl⟩
      | some p =>
        simp only [instead]
        rw [(result_env _ _ _).1, (result_env _ _ _).2.1]
        exact ⟨rfl, rfl⟩
    · simp only [if_neg h, execute]
      rw [(result_env _ _ _).1, (result_env _ _ _).2.1]
      exact env_assign _ _ _ _
  simp only [run]
  split
  · rw [(env_showBefore _ _).1, (env_showBefore _ _).2]; exact key
  · exact key

/-- What holds of the state after every history, but for what is shown. -/
structure Inv (h : List Event) (σ : Sys) : Prop where
  warn : σ.warn = Spec.warned h
  ctr : σ.ctr = Spec.runs h
  last : σ.last = Spec.latest h
  pos : ∀ k, position σ.pos k = Spec.place h k
  stamp : ∀ v, Assoc.get σ.stamp v = Spec.setAt h v
  setter : ∀ v, Spec.setter h v = (Spec.setAt h v).bind (Assoc.get σ.ran)
  ran : ∀ w k, Assoc.get σ.ran w = some k → w ≤ Spec.runs h
  ran' : ∀ v w, Spec.setAt h v = some w → (Assoc.get σ.ran w).isSome
  version : ∀ k, Assoc.get σ.version k = Spec.lastRun true h k
  env : ∀ v, Assoc.get σ.env v = Spec.value h v

theorem updatedAt_eq {h : List Event} {σ : Sys} (I : Inv h σ) (v : Nat) (p : Nat → Int → Bool) :
    updatedAt σ v p = match Spec.setAt h v, Spec.setter h v with
      | some w, some k => p w (Spec.place h k)
      | _, _ => false := by
  unfold updatedAt
  rw [I.stamp v, I.setter v]
  cases Spec.setAt h v with
  | none => rfl
  | some w =>
    simp only [Option.bind_some]
    cases Assoc.get σ.ran w with
    | none => rfl
    | some k => simp only [I.pos]

theorem setAt_setter {h : List Event} {σ : Sys} (I : Inv h σ) {v k : Nat} (hk : Spec.setter h v = some k) : ∃ w, Spec.setAt h v = some w := by
  rw [I.setter v] at hk
  cases hs : Spec.setAt h v with
  | none => rw [hs] at hk; cases hk
  | some w => exact ⟨w, rfl⟩

theorem detected_eq {h : List Event} {σ : Sys} (I : Inv h σ) (r : Run) : detected σ r = Spec.below h r := by
  unfold detected Spec.below Spec.fromBelow
  congr 1
  funext v
  rw [updatedAt_eq I, I.pos]
  cases hk : Spec.setter h v with
  | none => cases Spec.setAt h v <;> rfl
  | some k =>
    obtain ⟨w, hw⟩ := setAt_setter I hk
    rw [hw]

theorem holds_eq {h : List Event} {σ : Sys} (I : Inv h σ) (r : Run) : holds σ r = Spec.held h r := by
  unfold holds Spec.held Spec.heldBack
  rw [I.warn, I.last, detected_eq I]
  rfl

theorem inv_after (h : List Event) : Inv h (after h) := by
  induction h with
  | nil => exact ⟨rfl, rfl, rfl, fun _ => rfl, fun _ => rfl, fun _ => rfl, fun _ _ h => by simp [after, Sys.empty] at h, fun _ _ h => by simp [Spec.setAt] at h, fun _ => rfl, fun _ => rfl⟩
  | cons e h I =>
    cases e with
    | place pos => exact ⟨I.warn, I.ctr, I.last, fun _ => rfl, I.stamp, I.setter, I.ran, I.ran', I.version, I.env⟩
    | warn on => exact ⟨rfl, I.ctr, I.last, I.pos, I.stamp, I.setter, I.ran, I.ran', I.version, I.env⟩
    | run r =>
      have S := same_run r (after h)
      have hh := holds_eq I r
      have hstamp : ∀ v, Assoc.get (run r (after h)).stamp v = Spec.setAt (.run r :: h) v := by
        intro v
        rw [(env_run r (after h) v).2, hh, I.ctr, I.stamp]
        simp only [Spec.setAt]
        cases Spec.held h r
        · by_cases hv : v ∈ r.sets.map Prod.fst
          · rw [if_neg (by simp), if_pos hv, if_pos ⟨rfl, hv⟩]
          · rw [if_neg (by simp), if_neg hv, if_neg (fun h => hv h.2)]
        · simp
      have hran : ∀ w, Assoc.get (run r (after h)).ran w = if w = Spec.runs h + 1 then some r.cell else Assoc.get (after h).ran w := by
        intro w
        rw [S.ran]
        show Assoc.get (Assoc.set _ _ _) w = _
        rw [Assoc.get_set, I.ctr]
      refine ⟨?_, ?_, ?_, ?_, hstamp, ?_, ?_, ?_, ?_, ?_⟩
      · exact S.warn.trans I.warn
      · show (run r (after h)).ctr = Spec.runs h + 1
        rw [S.ctr]
        show (after h).ctr + 1 = _
        rw [I.ctr]
      · exact S.last
      · intro k
        show position (run r (after h)).pos k = _
        rw [S.pos]
        exact I.pos k
      · intro v
        show _ = (Spec.setAt (.run r :: h) v).bind (Assoc.get (run r (after h)).ran)
        have old : Spec.setter h v = (Spec.setAt h v).bind (Assoc.get (run r (after h)).ran) := by
          rw [I.setter v]
          cases hs : Spec.setAt h v with
          | none => rfl
          | some w =>
            simp only [Option.bind_some]
            rw [hran]
            have := I.ran' v w hs
            cases hg : Assoc.get (after h).ran w with
            | none => rw [hg] at this; simp at this
            | some k =>
              have := I.ran w k hg
              rw [if_neg (by omega)]
        simp only [Spec.setter, Spec.setAt]
        show (if Spec.held h r = true then _ else _) = _
        cases Spec.held h r with
        | true => simpa using old
        | false =>
          by_cases hv : v ∈ r.sets.map Prod.fst
          · rw [if_neg (by simp), if_pos hv, if_pos ⟨rfl, hv⟩]
            simp [hran]
          · rw [if_neg (by simp), if_neg hv, if_neg (fun h => hv h.2)]
            exact old
      · intro w k hk
        have hk : Assoc.get (run r (after h)).ran w = some k := hk
        rw [hran] at hk
        simp only [Spec.runs]
        split at hk
        · omega
        · have := I.ran w k hk; omega
      · intro v w hw
        show (Assoc.get (run r (after h)).ran w).isSome
        rw [hran]
        split
        · rfl
        · rename_i hne
          simp only [Spec.setAt] at hw
          split at hw
          · simp only [Option.some.injEq] at hw; omega
          · exact I.ran' v w hw
      · intro k
        show Assoc.get (run r (after h)).version k = _
        rw [S.version]
        show Assoc.get (Assoc.set _ _ _) k = _
        rw [Assoc.get_set, I.ctr, I.version]
        simp only [Spec.lastRun, Bool.true_or, and_true]
        by_cases hk : k = r.cell
        · subst hk; simp
        · rw [if_neg hk, if_neg (Ne.symm hk)]
      · intro v
        show Assoc.get (run r (after h)).env v = _
        rw [(env_run r (after h) v).1, hh, I.env]
        simp only [Spec.value]

end Verif.Hold
