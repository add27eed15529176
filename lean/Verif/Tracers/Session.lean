import Verif.Tracers.Lemmas

/-!
# Tracers: sessions -/

namespace Verif.Tracers

/-- What the state has to do with the session. -/
structure Inv (σ : State) (h : List Event) : Prop where
  reg : Reg σ (log h)
  on : σ.on = tracking h
  old : ∀ t ∈ σ.started, t.2 < σ.next
  quiet : InTraced h → σ.pending = false
  has : InTraced h → σ.started ≠ [] → ∀ c ∈ σ.registered, (c = recorder → firstSince h ≠ some true) → ∃ n, σ.inst c = some n ∧ (c, n) ∈ σ.started
  none : InTraced h → σ.started = [] → firstSince h = some false → σ.registered = []
  first : InTraced h → σ.started ≠ [] → firstSince h ≠ Option.none
  captured : InTraced h → firstSince h = some true → (∃ c ∈ σ.registered, c ≠ recorder) → σ.started ≠ [] ∧ ∀ n, (recorder, n) ∉ σ.started

theorem inv_traced {σ h} (hi : Inv σ h) : (σ.on = true ∧ σ.only = false) ↔ Traced h := by
  unfold Traced
  rw [hi.on, ← hi.reg.only]
  simp

theorem inv_init : Inv .init [] := by
  refine ⟨⟨by decide, ?_, ?_, by simp [State.init, log, OnlySyntax]⟩, rfl, by simp [State.init], fun _ => rfl, by simp [State.init], ?_, by simp [State.init], ?_⟩
  · intro c
    simp [State.init, log, Registered]
  · intro c n hn
    simp only [State.init] at hn ⊢
    split at hn
    · have := Option.some.inj hn
      omega
    · simp at hn
  · intro _ _ h
    simp [firstSince] at h
  · intro _ h
    simp [firstSince] at h

theorem inv_cell {σ h} (hi : Inv σ h) (capture : Bool) (acts : List Act) : Inv (step σ (.cell capture acts)) (.cell capture acts :: h) := by
  have hlog : log (.cell capture acts :: h) = acts.reverse ++ log h := rfl
  have htr : tracking (.cell capture acts :: h) = onAfter (tracking h) acts.reverse := rfl
  by_cases ht : Traced h
  · have hb := (inv_traced hi).2 ht
    obtain ⟨σ', ts, he, e1, e2, e3, e4, e5, e6, e7, e8, e9, e10, -⟩ := enter_traced hi.reg hb.1 hb.2 capture
    obtain ⟨a1, a2, a3, a4, a5, a6⟩ := acts_spec acts e1
    have hst : ∀ t ∈ σ'.started, t.2 < σ'.next := by
      intro t hm
      by_cases hs : σ.started = []
      · rw [e8 hs] at hm
        exact e1.fresh _ _ ((e7 t).1 hm).2
      · rw [e9 hs] at hm
        have := hi.old t hm
        omega
    have hstep : step σ (.cell capture acts) = leave (acts.foldl act σ') (.traced ts) := by
      show leave (acts.foldl act (enter σ capture).1) (enter σ capture).2 = _
      rw [he]
    rw [hstep]
    by_cases hc : ∃ a ∈ acts, Changes a
    · have hp := a5 hc
      have hl : leave (acts.foldl act σ') (.traced ts) = { acts.foldl act σ' with started := [], pending := false } := by
        unfold leave
        rw [if_pos hp]
      rw [hl]
      have hf : firstSince (.cell capture acts :: h) = Option.none := by
        rw [firstSince, if_pos ht, if_pos hc]
      refine ⟨⟨a1.names, a1.mem, a1.fresh, a1.only⟩, ?_, by simp, fun _ => rfl, by simp, ?_, by simp, ?_⟩
      · show (acts.foldl act σ').on = _
        rw [a3, e4, hi.on]; rfl
      · intro _ _ hn
        rw [hf] at hn; simp at hn
      · intro _ hn
        rw [hf] at hn; simp at hn
    · have hc' : ∀ a ∈ acts, ¬ Changes a := fun a ha hx => hc ⟨a, ha, hx⟩
      obtain ⟨b1, b2, b3⟩ := a6 hc'
      have hf : firstSince (.cell capture acts :: h) = match firstSince h with | Option.none => some capture | some b => some b := by
        rw [firstSince, if_pos ht, if_neg hc]
        cases firstSince h <;> rfl
      -- either nothing is pending, and the end changes nothing, or it is, and not all was in traced cells
      by_cases hp : σ.pending = true
      · have hq : ¬ InTraced (.cell capture acts :: h) := by
          rintro ⟨_, hq⟩
          rw [hi.quiet hq] at hp
          simp at hp
        have hl : leave (acts.foldl act σ') (.traced ts) = { acts.foldl act σ' with started := [], pending := false } := by
          unfold leave
          rw [if_pos (by rw [b1, e3]; exact hp)]
        rw [hl]
        exact ⟨⟨a1.names, a1.mem, a1.fresh, a1.only⟩, by show (acts.foldl act σ').on = _; rw [a3, e4, hi.on]; rfl, by simp, fun h => absurd h hq,
          fun h => absurd h hq, fun h => absurd h hq, fun h => absurd h hq, fun h => absurd h hq⟩
      · have hl : leave (acts.foldl act σ') (.traced ts) = acts.foldl act σ' := by
          unfold leave
          rw [if_neg (by rw [b1, e3]; exact hp)]
        rw [hl]
        refine ⟨a1, by rw [a3, e4, hi.on]; rfl, ?_, ?_, ?_, ?_, ?_, ?_⟩
        · intro t hm
          rw [a2] at hm
          have := hst t hm
          omega
        · intro _
          rw [b1, e3]
          simpa using hp
        · rintro ⟨_, hq⟩ hs c hm hr
          rw [a2] at hs ⊢
          rw [b2, e2] at hm
          rw [b3]
          by_cases hs0 : σ.started = []
          · rw [e8 hs0]
            -- started in this cell
            have hcap : startable capture c := by
              intro hrec
              have hne := hr hrec
              rw [hf] at hne
              rcases hfs : firstSince h with _ | b
              · rw [hfs] at hne
                cases capture
                · rfl
                · exact absurd rfl hne
              · rw [hfs] at hne
                cases b
                · have := hi.none hq hs0 hfs
                  rw [this] at hm
                  simp at hm
                · exact absurd rfl hne
            exact e10 c hm hcap
          · rw [e9 hs0]
            obtain ⟨n, h1, h2⟩ := hi.has hq hs0 c hm (fun hrec hfs => by
              have hne := hr hrec
              rw [hf, hfs] at hne
              exact hne rfl)
            exact ⟨n, e5 _ _ h1, h2⟩
        · rintro ⟨_, hq⟩ hs hfs
          rw [a2] at hs
          rw [b2, e2]
          rw [hf] at hfs
          have hs0 : σ.started = [] := by
            by_cases hs0 : σ.started = []
            · exact hs0
            · rw [e9 hs0] at hs
              exact absurd hs hs0
          rcases hfs' : firstSince h with _ | b
          · rw [hfs'] at hfs
            have hcap : capture = false := Option.some.inj hfs
            rw [e8 hs0] at hs
            by_contra hne
            obtain ⟨c, hc⟩ := List.exists_mem_of_ne_nil _ hne
            obtain ⟨n, _, this⟩ := e10 c hc (fun _ => hcap)
            rw [hs] at this
            simp at this
          · rw [hfs'] at hfs
            rw [Option.some.inj hfs] at hfs'
            exact hi.none hq hs0 hfs'
        · rintro ⟨_, hq⟩ _
          rw [hf]
          cases firstSince h <;> simp
        · rintro ⟨_, hq⟩ hfs hex
          rw [hf] at hfs
          rw [a2]
          rw [b2, e2] at hex
          obtain ⟨c, hc1, hc2⟩ := hex
          rcases hfs' : firstSince h with _ | b
          · rw [hfs'] at hfs
            have hcap : capture = true := Option.some.inj hfs
            have hs0 : σ.started = [] := by
              by_contra hs0
              exact hi.first hq hs0 hfs'
            rw [e8 hs0]
            refine ⟨?_, ?_⟩
            · obtain ⟨n, _, hn⟩ := e10 c hc1 (fun e => absurd e hc2)
              exact List.ne_nil_of_mem hn
            · intro n hm
              have := ((e7 _).1 hm).1.2 rfl
              rw [hcap] at this
              simp at this
          · rw [hfs'] at hfs
            rw [Option.some.inj hfs] at hfs'
            obtain ⟨h1, h2⟩ := hi.captured hq hfs' ⟨c, hc1, hc2⟩
            rw [e9 h1]
            exact ⟨h1, h2⟩
  · have hb : ¬ (σ.on = true ∧ σ.only = false) := fun hb => ht ((inv_traced hi).1 hb)
    obtain ⟨u1, u2⟩ := enter_untraced hb capture
    have hstep : step σ (.cell capture acts) = acts.foldl act σ := by
      show leave (acts.foldl act (enter σ capture).1) (enter σ capture).2 = _
      rw [u1]
      rcases hx : (enter σ capture).2 with _ | _ | ts
      · rfl
      · rfl
      · exact absurd hx (u2 ts)
    rw [hstep]
    obtain ⟨a1, a2, a3, a4, a5, a6⟩ := acts_spec acts hi.reg
    have hf : firstSince (.cell capture acts :: h) = firstSince h := by
      rw [firstSince, if_neg ht]
    have hno : InTraced (.cell capture acts :: h) → InTraced h ∧ ∀ a ∈ acts, ¬ Changes a := fun hq => ⟨hq.2, hq.1.resolve_left ht⟩
    refine ⟨a1, by rw [a3, hi.on]; rfl, ?_, ?_, ?_, ?_, ?_, ?_⟩
    · intro t hm
      rw [a2] at hm
      have := hi.old t hm
      omega
    · intro hq
      obtain ⟨h1, h2⟩ := hno hq
      rw [(a6 h2).1]
      exact hi.quiet h1
    · intro hq
      obtain ⟨h1, h2⟩ := hno hq
      obtain ⟨_, b2, b3⟩ := a6 h2
      rw [a2, b2, b3, hf]
      exact hi.has h1
    · intro hq
      obtain ⟨h1, h2⟩ := hno hq
      obtain ⟨_, b2, b3⟩ := a6 h2
      rw [a2, b2, hf]
      exact hi.none h1
    · intro hq
      rw [a2, hf]
      exact hi.first (hno hq).1
    · intro hq
      obtain ⟨h1, h2⟩ := hno hq
      obtain ⟨_, b2, b3⟩ := a6 h2
      rw [a2, b2, hf]
      exact hi.captured h1

theorem inv_of : ∀ h, Inv (run h) h
  | [] => inv_init
  | .cell capture acts :: h => inv_cell (inv_of h) capture acts
  | .attach :: h => by
    have hi := inv_of h
    exact ⟨⟨hi.reg.names, hi.reg.mem, hi.reg.fresh, hi.reg.only⟩, rfl, hi.old, hi.quiet, hi.has, hi.none, hi.first, hi.captured⟩
  | .disconnect :: h => by
    have hi := inv_of h
    exact ⟨⟨hi.reg.names, hi.reg.mem, hi.reg.fresh, hi.reg.only⟩, rfl, hi.old, hi.quiet, hi.has, hi.none, hi.first, hi.captured⟩

end Verif.Tracers
