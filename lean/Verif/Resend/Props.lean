import Verif.Resend.Spec

/-!
# Messages after the channel was closed -/

namespace Verif.Resend
open Spec

/-- The messages among what is on the way. -/
def datas : List Item → List Nat
  | [] => []
  | .opening :: w => datas w
  | .data m :: w => m :: datas w

theorem datas_append (u v : List Item) : datas (u ++ v) = datas u ++ datas v := by
  induction u with
  | nil => rfl
  | cons x u ih => cases x <;> simp [datas, ih]

/-- What is on the way while the channel has just been opened and nothing else happens. -/
theorem plain_after (σ : Sys) (hd : σ.disconnected = false) (hp : σ.disposed = false) :
    ∀ ms, Plain ms →
      let τ := ms.foldr (fun e s => step s e) σ
      τ.disconnected = false ∧ τ.disposed = false ∧ τ.held = σ.held ∧
        τ.got ++ datas τ.wire = σ.got ++ datas σ.wire ++ sends ms := by
  intro ms
  induction ms with
  | nil => intro _; exact ⟨hd, hp, rfl, by simp [sends]⟩
  | cons e ms ih =>
    intro hpl
    obtain ⟨h1, h2, h3, h4⟩ := ih (fun x hx => hpl x (List.mem_cons_of_mem _ hx))
    simp only [List.foldr_cons]
    generalize List.foldr (fun e s => step s e) σ ms = τ at h1 h2 h3 h4 ⊢
    rcases hpl e (List.mem_cons_self ..) with rfl | ⟨m, rfl⟩
    · simp only [step, takeOne, sends]
      cases hw : τ.wire with
      | nil => exact ⟨h1, h2, h3, by rw [hw] at h4; simpa [hw] using h4⟩
      | cons x w =>
        rw [hw] at h4
        cases x with
        | opening => exact ⟨h1, h2, h3, by simpa [datas] using h4⟩
        | data n => exact ⟨h1, h2, h3, by simpa [datas] using h4⟩
    · simp only [step, safeSend, h1, h2, sends, Bool.false_eq_true, if_false]
      refine ⟨trivial, trivial, h3, ?_⟩
      rw [datas_append, ← List.append_assoc, h4]
      simp [datas]

/-- The kernel has answered once it has taken anything. -/
theorem answered (σ : Sys) (w : List Item) (hw : σ.wire = .opening :: w) :
    ∀ ms, Plain ms → .deliver ∈ ms → (ms.foldr (fun e s => step s e) σ).replies ≠ 0 := by
  have keep : ∀ (τ : Sys) e, (e = .deliver ∨ ∃ m, e = .send m) → τ.replies ≠ 0 → (step τ e).replies ≠ 0 := by
    intro τ e he hr
    rcases he with rfl | ⟨m, rfl⟩
    · simp only [step, takeOne]
      cases τ.wire with
      | nil => exact hr
      | cons x w => cases x <;> simp [hr]
    · simp only [step, safeSend]
      split
      · exact hr
      · split <;> exact hr
  have first : ∀ ms, Plain ms → .deliver ∉ ms → ∃ v, (ms.foldr (fun e s => step s e) σ).wire = .opening :: v := by
    intro ms
    induction ms with
    | nil => intro _ _; exact ⟨w, hw⟩
    | cons e ms ih =>
      intro hpl hn
      obtain ⟨v, hv⟩ := ih (fun x hx => hpl x (List.mem_cons_of_mem _ hx)) (fun hx => hn (List.mem_cons_of_mem _ hx))
      simp only [List.foldr_cons]
      generalize List.foldr (fun e s => step s e) σ ms = τ at hv ⊢
      rcases hpl e (List.mem_cons_self ..) with rfl | ⟨m, rfl⟩
      · exact absurd (List.mem_cons_self ..) hn
      · simp only [step, safeSend]
        split
        · exact ⟨v, hv⟩
        · split
          · exact ⟨v ++ [.opening], by simp [hv]⟩
          · exact ⟨v ++ [.data m], by simp [hv]⟩
  intro ms
  induction ms with
  | nil => intro _ h; cases h
  | cons e ms ih =>
    intro hpl hm
    have hpl' : Plain ms := fun x hx => hpl x (List.mem_cons_of_mem _ hx)
    by_cases hin : Event.deliver ∈ ms
    · exact keep _ e (hpl e (List.mem_cons_self ..)) (ih hpl' hin)
    · have he : e = .deliver := by
        rcases List.mem_cons.1 hm with h | h
        · exact h.symm
        · exact absurd h hin
      subst he
      obtain ⟨v, hv⟩ := first ms hpl' hin
      simp only [List.foldr_cons]
      generalize List.foldr (fun e s => step s e) σ ms = τ at hv ⊢
      simp [step, takeOne, hv]

theorem run_append (ms h : List Event) : run (ms ++ h) = ms.foldr (fun e s => step s e) (run h) := by
  induction ms with
  | nil => rfl
  | cons e ms ih => simp only [List.cons_append, run, ih, List.foldr_cons]

theorem disconnected_iff (h : List Event) : (run h).disconnected = true ↔ .disconnect ∈ h := by
  have ss : ∀ σ m, (safeSend σ m).disconnected = σ.disconnected := by
    intro σ m
    simp only [safeSend]
    split
    · rfl
    · split <;> rfl
  have sh : ∀ σ, (sendHeld σ).disconnected = σ.disconnected := by
    intro σ
    simp only [sendHeld]
    split
    · rfl
    · rw [ss]
  induction h with
  | nil => simp [run, start]
  | cons e h ih =>
    simp only [run]
    cases e with
    | send m => simp [step, ss, ih]
    | deliver =>
      simp only [step, takeOne]
      split <;> simp [ih]
    | answer a r =>
      simp only [step]
      split
      · simp [ih]
      · simp only [establish]
        split
        · simp [ih]
        · simp [ss, sh, ih]
    | lost => simp [step, ih]
    | disconnect => simp [step]

theorem fold_answer (σ : Sys) (hd : σ.disconnected = false) (hp : σ.disposed = false) (hr : σ.replies ≠ 0) (a r : Nat) :
    let τ := step σ (.answer a r)
    τ.disconnected = false ∧ τ.disposed = false ∧
      τ.got ++ datas τ.wire = σ.got ++ datas σ.wire ++ a :: σ.held.toList ++ [r] := by
  cases hh : σ.held with
  | none => simp [step, hr, establish, hd, sendHeld, safeSend, hp, hh, datas_append, datas]
  | some p => simp [step, hr, establish, hd, sendHeld, safeSend, hp, hh, datas_append, datas]

/-- **In order as long as the kernel lives.** As long as neither the kernel nor the connection goes away, the kernel gets what the client has to send in the order in which it was
to be sent; what it has not got yet is on the way. -/
theorem unbroken_in_order_partial (ms ks : List Event) (a r : Nat) (hm : Plain ms) (hk : Plain ks) (hd : .deliver ∈ ms)
    (hw : (run (ks ++ .answer a r :: ms)).wire = []) :
    (run (ks ++ .answer a r :: ms)).got = sends ms ++ a :: r :: sends ks := by
  rw [run_append] at hw ⊢
  simp only [run] at hw ⊢
  have e0 : run ms = ms.foldr (fun e s => step s e) start := by
    have := run_append ms []
    rwa [List.append_nil] at this
  have h0 := plain_after start rfl rfl ms hm
  have hr := answered start [] rfl ms hm hd
  rw [← e0] at hr
  simp only [← e0] at h0
  obtain ⟨h1, h2, h3, h4⟩ := h0
  obtain ⟨g1, g2, g3⟩ := fold_answer (run ms) h1 h2 hr a r
  obtain ⟨_, _, _, f⟩ := plain_after _ g1 g2 ks hk
  rw [hw, g3, h4, h3] at f
  simpa [datas, start] using f

/-- **The first message after a loss is overtaken.** If the client has a message to send after the kernel went away, then the next kernel gets it after all that the client had to
send before the new channel was answered, and after the message about the active cell that is made on the answer. -/
theorem first_overtaken (h ms ks : List Event) (p a r : Nat) (hc : .disconnect ∉ h) (hm : Plain ms) (hk : Plain ks) (hd : .deliver ∈ ms)
    (hw : (run (ks ++ .answer a r :: (ms ++ .send p :: .lost :: h))).wire = []) :
    (run (ks ++ .answer a r :: (ms ++ .send p :: .lost :: h))).got = sends ms ++ a :: p :: r :: sends ks := by
  rw [run_append] at hw ⊢
  simp only [run, run_append ms] at hw ⊢
  have hdc : (run h).disconnected = false := by
    cases hx : (run h).disconnected with
    | false => rfl
    | true => exact absurd ((disconnected_iff h).1 hx) hc
  have es : step (step (run h) .lost) (.send p) = ⟨false, false, some p, [.opening], 0, []⟩ := by
    simp [step, safeSend, hdc]
  rw [es] at hw ⊢
  have h0 := plain_after ⟨false, false, some p, [.opening], 0, []⟩ rfl rfl ms hm
  have hr := answered ⟨false, false, some p, [.opening], 0, []⟩ [] rfl ms hm hd
  simp only at h0
  generalize ms.foldr (fun e s => step s e) ⟨false, false, some p, [.opening], 0, []⟩ = σ at h0 hr hw ⊢
  obtain ⟨h1, h2, h3, h4⟩ := h0
  obtain ⟨g1, g2, g3⟩ := fold_answer σ h1 h2 hr a r
  obtain ⟨_, _, _, f⟩ := plain_after _ g1 g2 ks hk
  rw [hw, g3, h4, h3] at f
  simpa [datas] using f

/-- **Never in order after a loss.** So the order is not the one in which the messages were to be sent, whatever was sent, unless the first message and all up to the answer are
the same. -/
theorem never_in_order (h ms ks : List Event) (p a r : Nat) (hc : .disconnect ∉ h) (hm : Plain ms) (hk : Plain ks) (hd : .deliver ∈ ms) (hne : a ≠ p)
    (hw : (run (ks ++ .answer a r :: (ms ++ .send p :: .lost :: h))).wire = []) :
    (run (ks ++ .answer a r :: (ms ++ .send p :: .lost :: h))).got ≠ p :: (sends ms ++ a :: r :: sends ks) := by
  rw [first_overtaken h ms ks p a r hc hm hk hd hw]
  intro he
  have := congrArg (fun l => l[(sends ms).length + 1]?) he
  simp at this
  exact hne this.symm

/-- The messages the client still means to send: what it keeps for the answer to an open channel. -/
def kept (σ : Sys) : List Nat := if σ.disposed then [] else σ.held.toList

/-- How often a message is anywhere. -/
def total (m : Nat) (σ : Sys) : Nat := List.count m σ.got + List.count m (datas σ.wire) + List.count m (kept σ)

theorem total_safeSend (m n : Nat) (σ : Sys) (hd : σ.disconnected = false) : total m (safeSend σ n) ≤ total m σ + List.count m [n] := by
  cases hp : σ.disposed <;> simp [safeSend, hd, hp, total, kept, datas_append, datas] <;> omega

theorem total_sendHeld (m : Nat) (σ : Sys) (hd : σ.disconnected = false) (hp : σ.disposed = false) : total m (sendHeld σ) = total m σ := by
  cases hh : σ.held with
  | none => simp [sendHeld, hh]
  | some p => simp [sendHeld, safeSend, hh, hd, hp, total, kept, datas_append, datas]; omega

theorem flags_safeSend (σ : Sys) (n : Nat) (hd : σ.disconnected = false) : (safeSend σ n).disconnected = false ∧ (safeSend σ n).disposed = false := by
  cases hp : σ.disposed <;> simp [safeSend, hd, hp]

theorem flags_sendHeld (σ : Sys) (hd : σ.disconnected = false) (hp : σ.disposed = false) : (sendHeld σ).disconnected = false := by
  cases hh : σ.held with
  | none => simp [sendHeld, hh, hd]
  | some p => simp [sendHeld, safeSend, hh, hd, hp]

theorem replies_safeSend (σ : Sys) (n : Nat) : (safeSend σ n).replies = σ.replies := by
  simp only [safeSend]
  split
  · rfl
  · split <;> rfl

theorem total_takeOne (m : Nat) (σ : Sys) : total m (takeOne σ) = total m σ := by
  cases hw : σ.wire with
  | nil => simp [takeOne, hw]
  | cons x w =>
    cases x with
    | opening => simp [takeOne, hw, total, kept, datas]
    | data n => simp [takeOne, hw, total, kept, datas, List.count_cons]; omega

theorem count_inv (m : Nat) (h : List Event) : total m (run h) ≤ List.count m (due h) := by
  induction h with
  | nil => simp [run, start, total, kept, datas, due]
  | cons e h ih =>
    have off := disconnected_iff h
    simp only [run]
    generalize run h = σ at ih off ⊢
    cases hd : σ.disconnected with
    | true =>
      have hm : .disconnect ∈ h := off.1 hd
      cases e with
      | send n => simp [step, safeSend, hd, due, hm, ih]
      | deliver => simpa [step, due, total_takeOne] using ih
      | answer a r =>
        simp only [step, due, hm, if_true, establish, hd]
        split
        · exact ih
        · exact ih
      | lost => simp [step, total, kept, datas, due]
      | disconnect =>
        simp only [step, due]
        refine Nat.le_trans ?_ ih
        simp [total, kept]
    | false =>
      have hm : .disconnect ∉ h := fun hx => by rw [off.2 hx] at hd; cases hd
      cases e with
      | send n =>
        have := total_safeSend m n σ hd
        simp only [step, due, hm, if_false, List.count_cons]
        simp only [List.count_cons, List.count_nil] at this
        omega
      | deliver => simpa [step, due, total_takeOne] using ih
      | answer a r =>
        simp only [step, due, hm, if_false, List.count_cons]
        split
        · omega
        · let τ : Sys := { σ with replies := σ.replies - 1 }
          have ht : total m τ = total m σ := rfl
          have h1 := total_safeSend m a τ hd
          obtain ⟨f1, f2⟩ := flags_safeSend τ a hd
          have h2 := total_sendHeld m _ f1 f2
          have h3 := total_safeSend m r _ (flags_sendHeld _ f1 f2)
          have he : establish τ a r = safeSend (sendHeld (safeSend τ a)) r := by
            simp only [establish]
            rw [if_neg]
            simp [τ, hd]
          have : total m (establish τ a r) ≤ List.count m (due h) + List.count m [a] + List.count m [r] := by
            rw [he]; omega
          simp only [List.count_cons, List.count_nil] at this
          show total m (establish τ a r) ≤ _
          omega
      | lost => simp [step, total, kept, datas, due]
      | disconnect =>
        simp only [step, due]
        refine Nat.le_trans ?_ ih
        simp [total, kept]

/-- **Never more than once, and nothing else.** The kernel gets no message more often than it was to be sent since this kernel started, and nothing that was to be sent only after
the connection was given up. -/
theorem at_most_once (h : List Event) (m : Nat) : List.count m (run h).got ≤ List.count m (due h) := by
  have := count_inv m h
  simp only [total] at this
  omega

theorem due_unsent (p : Nat) (es h : List Event) (hu : Unsent p es) : p ∉ due (es ++ .lost :: h) := by
  induction es with
  | nil => simp [due]
  | cons e es ih =>
    have ih := ih (fun x hx => hu x (List.mem_cons_of_mem _ hx))
    obtain ⟨h1, h2⟩ := hu e (List.mem_cons_self ..)
    cases e with
    | send m =>
      have hne : p ≠ m := fun hx => h1 (by rw [hx])
      simp only [List.cons_append, due]
      split
      · exact ih
      · simp [hne, ih]
    | answer a r =>
      obtain ⟨ha, hr⟩ := h2 a r rfl
      simp only [List.cons_append, due]
      split
      · exact ih
      · simp [Ne.symm ha, Ne.symm hr, ih]
    | deliver => exact ih
    | lost => simp [due]
    | disconnect => exact ih

/-- **A message can be lost for good.** The first message after a loss has not reached the kernel as long as the new channel is not answered; if this kernel goes away too before that,
then the message reaches no kernel, whatever happens afterwards, unless it is to be sent again. -/
theorem kept_is_forgotten (h ms es : List Event) (p : Nat) (hc : .disconnect ∉ h) (hm : Plain ms) (hp : p ∉ sends ms) (he : Unsent p es) :
    p ∉ (run (ms ++ .send p :: .lost :: h)).got ∧ p ∉ (run (es ++ .lost :: (ms ++ .send p :: .lost :: h))).got := by
  constructor
  · have hdc : (run h).disconnected = false := by
      cases hx : (run h).disconnected with
      | false => rfl
      | true => exact absurd ((disconnected_iff h).1 hx) hc
    have es : step (step (run h) .lost) (.send p) = ⟨false, false, some p, [.opening], 0, []⟩ := by
      simp [step, safeSend, hdc]
    simp only [run_append ms, run]
    rw [es]
    obtain ⟨_, _, _, h4⟩ := plain_after ⟨false, false, some p, [.opening], 0, []⟩ rfl rfl ms hm
    intro hx
    have h5 := List.mem_append_left (datas (ms.foldr (fun e s => step s e) ⟨false, false, some p, [.opening], 0, []⟩).wire) hx
    rw [h4] at h5
    exact hp (by simpa [datas] using h5)
  · intro hx
    have h1 := at_most_once (es ++ .lost :: (ms ++ .send p :: .lost :: h)) p
    rw [List.count_eq_zero_of_not_mem (due_unsent p es _ he)] at h1
    exact absurd (List.count_pos_iff.2 hx) (by omega)

/-- **Given up is given up.** Once the connection is given up, nothing that the client has to send afterwards reaches a kernel. -/
theorem nothing_after_disconnect (h es : List Event) (m : Nat) (hn : m ∉ due h) : m ∉ (run (es ++ .disconnect :: h)).got := by
  have hd : m ∉ due (es ++ .disconnect :: h) := by
    induction es with
    | nil => exact hn
    | cons e es ih =>
      have hm : Event.disconnect ∈ es ++ .disconnect :: h := by simp
      cases e with
      | send x => simpa [due, hm] using ih
      | answer a r => simpa [due, hm] using ih
      | deliver => exact ih
      | lost => simp [due]
      | disconnect => exact ih
  intro hx
  have h1 := at_most_once (es ++ .disconnect :: h) m
  rw [List.count_eq_zero_of_not_mem hd] at h1
  exact absurd (List.count_pos_iff.2 hx) (by omega)

end Verif.Resend
