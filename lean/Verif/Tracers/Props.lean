import Verif.Tracers.Session

/-!
# Theorems about tracers (C154) and debuggers (C155) -/

namespace Verif.Tracers

/-- Who sees a statement, in terms of the state. -/
theorem mem_sees {h : List Event} {capture : Bool} {pre : List Act} {c : Cls} : c ∈ sees h capture pre ↔
    Should h capture pre c ∧ ((run h).started = [] ∨ ∃ n, (run h).inst c = some n ∧ (c, n) ∈ (run h).started) := by
  have hi := inv_of h
  by_cases ht : Traced h
  · have hb := (inv_traced hi).2 ht
    obtain ⟨σ', ts, he, e1, e2, e3, e4, e5, e6, e7, e8, e9, e10, e11⟩ := enter_traced hi.reg hb.1 hb.2 capture
    obtain ⟨a1, a2, -⟩ := acts_spec pre e1
    have hs : sees h capture pre = (ts.filter (fun t => t ∈ (pre.foldl act σ').started ∧ t.1 ∈ (pre.foldl act σ').registered)).map (·.1) := by
      unfold sees
      rw [he]
      rfl
    rw [hs, List.mem_map]
    constructor
    · rintro ⟨t, hm, rfl⟩
      rw [List.mem_filter] at hm
      simp only [decide_eq_true_eq] at hm
      obtain ⟨h1, h2, h3⟩ := hm
      obtain ⟨⟨h4, h5⟩, h6⟩ := (e7 t).1 h1
      refine ⟨⟨ht, (hi.reg.mem _).1 h4, (a1.mem _).1 h3, h5⟩, ?_⟩
      by_cases h0 : (run h).started = []
      · exact Or.inl h0
      · rw [a2, e9 h0] at h2
        refine Or.inr ⟨t.2, (e11 _ _ h6).resolve_right (fun hn => ?_), h2⟩
        have := hi.old t h2
        omega
    · rintro ⟨⟨_, h1, h2, h3⟩, h7⟩
      obtain ⟨m, h8, h9⟩ := e10 c ((hi.reg.mem _).2 h1) h3
      refine ⟨(c, m), ?_, rfl⟩
      rw [List.mem_filter]
      simp only [decide_eq_true_eq]
      refine ⟨h9, ?_, (a1.mem _).2 h2⟩
      rw [a2]
      by_cases h0 : (run h).started = []
      · rw [e8 h0]; exact h9
      · rw [e9 h0]
        obtain ⟨n, h10, h11⟩ := h7.resolve_left h0
        have := e5 _ _ h10
        rw [h8] at this
        rw [Option.some.inj this]
        exact h11
  · have hb : ¬ ((run h).on = true ∧ (run h).only = false) := fun hb => ht ((inv_traced hi).1 hb)
    have hs : sees h capture pre = [] := by
      unfold sees
      rcases hx : (enter (run h) capture).2 with _ | _ | ts
      · simp only [hx]; rfl
      · simp only [hx]; rfl
      · exact absurd hx ((enter_untraced hb capture).2 ts)
    rw [hs]
    constructor
    · intro h; simp at h
    · rintro ⟨⟨h, _⟩, _⟩; exact absurd h ht

/-! ### C154 -/

/-- **C154.** A statement is seen by registered tracers only, in cells that are traced only. -/
theorem sees_sound {h : List Event} {capture : Bool} {pre : List Act} {c : Cls} (hc : c ∈ sees h capture pre) : Should h capture pre c :=
  (mem_sees.1 hc).1

/-- **C154 (partial).** If tracers were registered and deregistered in traced cells only, and the first traced cell since the last such one did not begin with `%%capture`,
a statement is seen by exactly the registered tracers. Missing: see `late_registration` and `capture_first`. -/
theorem sees_partial {h : List Event} (hq : InTraced h) {c : Cls} (hr : c = recorder → firstSince h ≠ some true) (capture : Bool) (pre : List Act) :
    c ∈ sees h capture pre ↔ Should h capture pre c := by
  refine ⟨sees_sound, fun hs => mem_sees.2 ⟨hs, ?_⟩⟩
  have hi := inv_of h
  by_cases h0 : (run h).started = []
  · exact Or.inl h0
  · exact Or.inr (hi.has hq h0 c ((hi.reg.mem c).2 hs.2.1) hr)

/-- **C154.** After a traced cell that registers or deregisters a tracer all is right, whatever happened before. -/
theorem after_change {h : List Event} (ht : Traced h) (cap : Bool) {acts : List Act} (hc : ∃ a ∈ acts, Changes a) (capture : Bool) (pre : List Act) (c : Cls) :
    c ∈ sees (.cell cap acts :: h) capture pre ↔ Should (.cell cap acts :: h) capture pre c := by
  refine ⟨sees_sound, fun hs => mem_sees.2 ⟨hs, Or.inl ?_⟩⟩
  have hi := inv_of h
  have hb := (inv_traced hi).2 ht
  obtain ⟨σ', ts, he, e1, -⟩ := enter_traced hi.reg hb.1 hb.2 cap
  obtain ⟨-, -, -, -, a5, -⟩ := acts_spec acts e1
  show (leave (acts.foldl act (enter (run h) cap).1) (enter (run h) cap).2).started = []
  rw [he]
  unfold leave
  dsimp only
  rw [if_pos (a5 hc)]

/-- **C154.** Of tracers with the same name one at most sees a statement: a class that is defined again takes the place of the old one. -/
theorem one_of_a_name {h : List Event} {capture : Bool} {pre : List Act} {c d : Cls} (hc : c ∈ sees h capture pre) (hd : d ∈ sees h capture pre)
    (hn : c.name = d.name) : c = d := by
  have hi := inv_of h
  have h1 := (hi.reg.mem c).2 (sees_sound hc).2.1
  have h2 := (hi.reg.mem d).2 (sees_sound hd).2.1
  exact List.inj_on_of_nodup_map hi.reg.names h1 h2 hn

/-- Some tracer other than the recorder was started. -/
theorem started_of {h : List Event} (hq : InTraced h) {b : Bool} (hf : firstSince h = some b) {d : Cls} (hd : Registered (log h) d) (hne : d ≠ recorder) :
    (run h).started ≠ [] := by
  have hi := inv_of h
  have hd' := (hi.reg.mem d).2 hd
  cases b with
  | true => exact (hi.captured hq hf ⟨d, hd', hne⟩).1
  | false =>
    intro h0
    rw [hi.none hq h0 hf] at hd'
    simp at hd'

/-- If the first traced cell begins with `%%capture`, output is not recorded in any cell, until a tracer is registered or deregistered. -/
theorem capture_first {h : List Event} (hq : InTraced h) (hf : firstSince h = some true) {d : Cls} (hd : Registered (log h) d) (hne : d ≠ recorder)
    (capture : Bool) (pre : List Act) : recorder ∉ sees h capture pre := by
  intro hc
  have hi := inv_of h
  obtain ⟨h1, h2⟩ := hi.captured hq hf ⟨d, (hi.reg.mem d).2 hd, hne⟩
  rcases (mem_sees.1 hc).2 with h3 | ⟨n, _, h3⟩
  · exact h1 h3
  · exact h2 n h3

/-- A tracer that is registered while tracking is off does not see the next cell after it was switched on. -/
theorem late_registration {h : List Event} (hq : InTraced h) {b : Bool} (hf : firstSince h = some b) {d : Cls} (hd : Registered (log h) d) (hne : d ≠ recorder)
    (ht : ¬ Traced h) (c : Cls) (cap cap' capture : Bool) (pre : List Act) : c ∉ sees (.cell cap' [.on] :: .cell cap [.register c] :: h) capture pre := by
  intro hc
  have h0 := started_of hq hf hd hne
  have hi := inv_of h
  have hb : ¬ ((run h).on = true ∧ (run h).only = false) := fun hb => ht ((inv_traced hi).1 hb)
  obtain ⟨u1, u2⟩ := enter_untraced hb cap
  have h1 : run (.cell cap [.register c] :: h) = act (run h) (.register c) := by
    show leave ([Act.register c].foldl act (enter (run h) cap).1) (enter (run h) cap).2 = _
    rw [u1]
    rcases hx : (enter (run h) cap).2 with _ | _ | ts
    · rfl
    · rfl
    · exact absurd hx (u2 ts)
  have ht' : ¬ Traced (.cell cap [.register c] :: h) := ht
  have hi' := inv_of (.cell cap [.register c] :: h)
  have hb' : ¬ ((run (.cell cap [.register c] :: h)).on = true ∧ (run (.cell cap [.register c] :: h)).only = false) := fun hb => ht' ((inv_traced hi').1 hb)
  obtain ⟨v1, v2⟩ := enter_untraced hb' cap'
  have h2 : run (.cell cap' [.on] :: .cell cap [.register c] :: h) = act (act (run h) (.register c)) .on := by
    show leave ([Act.on].foldl act (enter (run (.cell cap [.register c] :: h)) cap').1) (enter (run (.cell cap [.register c] :: h)) cap').2 = _
    rw [v1, h1]
    rcases hx : (enter (run (.cell cap [.register c] :: h)) cap').2 with _ | _ | ts
    · rw [h1] at hx; rw [hx]; rfl
    · rw [h1] at hx; rw [hx]; rfl
    · exact absurd hx (v2 ts)
  obtain ⟨-, s1, -⟩ := act_spec hi.reg (.register c)
  have hst : (run (.cell cap' [.on] :: .cell cap [.register c] :: h)).started = (run h).started := by rw [h2]; exact s1
  have hin : ∀ n, (run (.cell cap' [.on] :: .cell cap [.register c] :: h)).inst c = some n → (run h).next ≤ n := by
    intro n hn
    rw [h2] at hn
    have hn' : (instanceOf (deregisterFor c (run h)) c).1.inst c = some n := hn
    obtain ⟨-, -, d3, d4, -⟩ := dropAll_spec (c :: (run h).registered.filter (fun d => d.name = c.name)) { run h with pending := true } hi.reg.nodup
    have hx : (deregisterFor c (run h)).inst c = none := by
      unfold deregisterFor deregister
      rw [d3, if_pos List.mem_cons_self]
    have hnx : (deregisterFor c (run h)).next = (run h).next := d4
    rcases (instanceOf_spec (deregisterFor c (run h)) c).2.2.2.2.2.2.2.2 c n hn' with h' | ⟨_, h', _⟩
    · rw [hx] at h'; simp at h'
    · omega
  rcases (mem_sees.1 hc).2 with h3 | ⟨n, h3, h4⟩
  · exact h0 (hst ▸ h3)
  · rw [hst] at h4
    have := hi.old _ h4
    have := hin n h3
    dsimp only at *
    omega

/-! ### C155 -/

theorem orderly_tracking : ∀ {h : List Event}, Orderly h → tracking h = (wish h && !attached h)
  | [], _ => rfl
  | .attach :: h, _ => by simp [tracking, attached]
  | .disconnect :: h, ho => by
    rw [tracking, wish, attached, ho.1]; rfl
  | .cell _ acts :: h, ho => by
    have ih := orderly_tracking ho.2
    rw [tracking, wish, attached, ih]
    rcases ha : attached h with _ | _
    · simp
    · simp [ho.1 ha]

theorem plain_registered : ∀ {l : List Act}, (∀ a ∈ l, ¬ Changes a ∧ a ≠ .only) → Registered l dataflow ∧ ¬ OnlySyntax l
  | [], _ => ⟨Or.inr (Or.inl rfl), fun h => h⟩
  | a :: l, h => by
    have ih := plain_registered (fun b hb => h b (List.mem_cons_of_mem _ hb))
    have ha := h a List.mem_cons_self
    cases a with
    | stmt => exact ih
    | on => exact ⟨ih.1, fun h => h⟩
    | off => exact ih
    | only => exact absurd rfl ha.2
    | register c => exact absurd trivial ha.1
    | deregister c => exact absurd trivial ha.1
    | deregisterAll => exact absurd trivial ha.1

theorem plain_inTraced : ∀ {h : List Event}, Plain h → InTraced h
  | [], _ => trivial
  | .attach :: h, hp => plain_inTraced (h := h) hp
  | .disconnect :: h, hp => plain_inTraced (h := h) hp
  | .cell _ _ :: h, hp => ⟨Or.inr (fun a ha => (hp a (List.mem_append_left _ (List.mem_reverse.2 ha))).1),
      plain_inTraced (h := h) (fun a ha => hp a (List.mem_append_right _ ha))⟩

theorem plain_sees {h : List Event} (hp : Plain h) (capture : Bool) : dataflow ∈ sees h capture [] ↔ tracking h = true := by
  rw [sees_partial (plain_inTraced hp) (fun e => by cases e) capture []]
  have := plain_registered hp
  constructor
  · exact fun hs => hs.1.1
  · exact fun ht => ⟨⟨ht, this.2⟩, this.1, this.1, fun e => by cases e⟩

/-- **C155 (partial).** If the user does not switch tracking on while a debugger is attached, nor has it off when one is disconnected, then dataflow of a cell is tracked
exactly if the user asked for it last and no debugger is attached. Missing: see `disconnect_switches_on` and `on_while_attached`. -/
theorem debugger_partial {h : List Event} (hp : Plain h) (ho : Orderly h) (capture : Bool) :
    dataflow ∈ sees h capture [] ↔ wish h = true ∧ attached h = false := by
  rw [plain_sees hp, orderly_tracking ho]
  simp

/-- When a debugger is disconnected, dataflow is tracked, whatever the user had asked for. -/
theorem disconnect_switches_on {h : List Event} (hp : Plain h) (capture : Bool) : dataflow ∈ sees (.disconnect :: h) capture [] :=
  (plain_sees (h := .disconnect :: h) hp capture).2 rfl

/-- When tracking is switched on while a debugger is attached, dataflow is tracked. -/
theorem on_while_attached {h : List Event} (hp : Plain h) (cap capture : Bool) : dataflow ∈ sees (.cell cap [.on] :: .attach :: h) capture [] :=
  (plain_sees (h := .cell cap [.on] :: .attach :: h) (by
    intro a ha
    rcases List.mem_append.1 (show a ∈ [Act.on] ++ log h from ha) with ha | ha
    · rw [List.mem_singleton] at ha
      subst ha
      exact ⟨fun h => h, by decide⟩
    · exact hp a ha) capture).2 rfl

end Verif.Tracers
