import Verif.Declare.Spec

/-!
# Lemmas about declared reads and writes -/

namespace Verif.Declare

theorem truthy_of {o : Option (List Ref)} {rs : List Ref} (h : truthy o = some rs) : o = truthy o := by
  unfold truthy at h ⊢
  split at h
  · rfl
  · cases h

theorem truthy_some {o : Option (List Ref)} : (truthy o).isSome ↔ ∃ r rs, o = some (r :: rs) := by
  constructor
  · intro h
    unfold truthy at h
    split at h
    · exact ⟨_, _, rfl⟩
    · cases h
  · rintro ⟨r, rs, rfl⟩
    rfl

theorem truthy_getD (o : Option (List Ref)) : (truthy o).getD [] = o.getD [] := by
  rcases o with _ | ⟨_ | ⟨r, rs⟩⟩ <;> rfl

theorem names_iff {m : Meta} : Names m ↔ (truthy m.live).isSome ∨ (truthy m.dead).isSome := by
  rw [truthy_some, truthy_some]
  rfl

theorem relevant_of_names {m : Meta} (h : Names m) : relevant m = true := by
  unfold relevant
  rcases names_iff.1 h with h | h <;> simp [h]

theorem relevant_iff {m : Meta} : relevant m = true ↔ m.code = true ∨ Names m := by
  unfold relevant
  rw [names_iff]
  simp [Bool.or_eq_true, or_assoc]

theorem setLive_some (ms : List Meta) : ∀ (σ : State) (j : Id), ((setLive ms σ).1 j).isSome = (σ j).isSome := by
  induction ms with
  | nil => intro σ j; rfl
  | cons m ms ih =>
    intro σ j
    rw [setLive]
    split
    · exact ih σ j
    · split
      · rfl
      · rename_i c hc
        rw [ih]
        unfold upd
        split
        · rename_i e
          rw [e, hc]
          rfl
        · rfl

theorem setLive_ok (ms : List Meta) : ∀ σ : State, (setLive ms σ).2 = true ↔ ∀ m ∈ ms, (truthy m.live).isSome → (σ m.id).isSome := by
  induction ms with
  | nil => intro σ; simp [setLive]
  | cons m ms ih =>
    intro σ
    rw [setLive]
    split
    · rename_i ht
      rw [ih, List.forall_mem_cons]
      simp [ht]
    · rename_i rs ht
      split
      · rename_i hn
        constructor
        · intro h
          cases h
        · intro h
          have := h m (by simp) (by rw [ht]; rfl)
          rw [hn] at this
          cases this
      · rename_i c hc
        rw [ih, List.forall_mem_cons]
        have hup : ∀ j, ((upd σ m.id (some { c with live := some rs })) j).isSome = (σ j).isSome := by
          intro j
          unfold upd
          split
          · rename_i e
            rw [e, hc]
            rfl
          · rfl
        simp only [hup]
        exact ⟨fun h => ⟨fun _ => by rw [hc]; rfl, h⟩, fun h => h.2⟩

theorem setLive_other (ms : List Meta) {i : Id} : ∀ σ : State, (∀ m ∈ ms, m.id = i → truthy m.live = none) → (setLive ms σ).1 i = σ i := by
  induction ms with
  | nil => intro σ _; rfl
  | cons m ms ih =>
    intro σ h
    rw [setLive]
    split
    · exact ih σ (fun m hm => h m (by simp [hm]))
    · rename_i rs ht
      split
      · rfl
      · rw [ih _ (fun m hm => h m (by simp [hm]))]
        unfold upd
        rw [if_neg]
        intro e
        have := h m (by simp) e.symm
        rw [ht] at this
        cases this

theorem setLive_at (ms : List Meta) {m : Meta} {rs : List Ref} (hx : truthy m.live = some rs) : ∀ σ : State, (ms.map (·.id)).Nodup → m ∈ ms → (setLive ms σ).2 = true →
    (setLive ms σ).1 m.id = (σ m.id).map (fun c => { c with live := some rs }) := by
  induction ms with
  | nil => intro σ _ h; cases h
  | cons a ms ih =>
    intro σ hd hm hok
    rw [List.map_cons, List.nodup_cons] at hd
    rcases List.mem_cons.1 hm with rfl | hm
    · rw [setLive, hx] at hok ⊢
      dsimp only at hok ⊢
      rcases hc : σ m.id with _ | c
      · rw [hc] at hok
        cases hok
      · dsimp only
        rw [setLive_other]
        · unfold upd
          rw [if_pos rfl]
          rfl
        · intro q hq e
          exact absurd (List.mem_map.2 ⟨q, hq, e⟩) hd.1
    · have hne : m.id ≠ a.id := fun e => hd.1 (List.mem_map.2 ⟨m, hm, e⟩)
      rw [setLive] at hok ⊢
      split
      · rename_i ht
        rw [ht] at hok
        exact ih σ hd.2 hm hok
      · rename_i bs ht
        rw [ht] at hok
        dsimp only at hok
        rcases hc : σ a.id with _ | c
        · rw [hc] at hok
          cases hok
        · rw [hc] at hok
          dsimp only at hok ⊢
          rw [ih _ hd.2 hm hok]
          unfold upd
          rw [if_neg hne]

theorem setLive_sound (ms : List Meta) : ∀ (σ : State) (j : Id) (c : Cell), (setLive ms σ).1 j = some c →
    ∃ d, σ j = some d ∧ c.dead = d.dead ∧ (c.live = d.live ∨ ∃ m ∈ ms, m.id = j ∧ m.live = c.live ∧ (truthy m.live).isSome) := by
  induction ms with
  | nil => intro σ j c h; exact ⟨c, h, rfl, .inl rfl⟩
  | cons m ms ih =>
    intro σ j c h
    rw [setLive] at h
    split at h
    · obtain ⟨d, h1, h2, h3⟩ := ih σ j c h
      refine ⟨d, h1, h2, h3.imp id ?_⟩
      rintro ⟨q, hq, hr⟩
      exact ⟨q, by simp [hq], hr⟩
    · rename_i rs ht
      split at h
      · exact ⟨c, h, rfl, .inl rfl⟩
      · rename_i a ha
        obtain ⟨d, h1, h2, h3⟩ := ih _ j c h
        unfold upd at h1
        split at h1
        · rename_i e
          injection h1 with h1
          subst h1
          refine ⟨a, by rw [e, ha], h2, .inr ?_⟩
          rcases h3 with h3 | ⟨q, hq, hr⟩
          · refine ⟨m, by simp, e.symm, ?_, by rw [ht]; rfl⟩
            rw [h3]
            dsimp only
            rw [← ht]
            exact truthy_of ht
          · exact ⟨q, by simp [hq], hr⟩
        · refine ⟨d, h1, h2, h3.imp id ?_⟩
          rintro ⟨q, hq, hr⟩
          exact ⟨q, by simp [hq], hr⟩

theorem setDead_some (ms : List Meta) : ∀ (σ : State) (j : Id), ((setDead ms σ).1 j).isSome = (σ j).isSome := by
  induction ms with
  | nil => intro σ j; rfl
  | cons m ms ih =>
    intro σ j
    rw [setDead]
    split
    · exact ih σ j
    · split
      · rfl
      · rename_i c hc
        rw [ih]
        unfold upd
        split
        · rename_i e
          rw [e, hc]
          rfl
        · rfl

theorem setDead_ok (ms : List Meta) : ∀ σ : State, (setDead ms σ).2 = true ↔ ∀ m ∈ ms, (truthy m.dead).isSome → (σ m.id).isSome := by
  induction ms with
  | nil => intro σ; simp [setDead]
  | cons m ms ih =>
    intro σ
    rw [setDead]
    split
    · rename_i ht
      rw [ih, List.forall_mem_cons]
      simp [ht]
    · rename_i rs ht
      split
      · rename_i hn
        constructor
        · intro h
          cases h
        · intro h
          have := h m (by simp) (by rw [ht]; rfl)
          rw [hn] at this
          cases this
      · rename_i c hc
        rw [ih, List.forall_mem_cons]
        have hup : ∀ j, ((upd σ m.id (some { c with dead := some rs })) j).isSome = (σ j).isSome := by
          intro j
          unfold upd
          split
          · rename_i e
            rw [e, hc]
            rfl
          · rfl
        simp only [hup]
        exact ⟨fun h => ⟨fun _ => by rw [hc]; rfl, h⟩, fun h => h.2⟩

theorem setDead_other (ms : List Meta) {i : Id} : ∀ σ : State, (∀ m ∈ ms, m.id = i → truthy m.dead = none) → (setDead ms σ).1 i = σ i := by
  induction ms with
  | nil => intro σ _; rfl
  | cons m ms ih =>
    intro σ h
    rw [setDead]
    split
    · exact ih σ (fun m hm => h m (by simp [hm]))
    · rename_i rs ht
      split
      · rfl
      · rw [ih _ (fun m hm => h m (by simp [hm]))]
        unfold upd
        rw [if_neg]
        intro e
        have := h m (by simp) e.symm
        rw [ht] at this
        cases this

theorem setDead_at (ms : List Meta) {m : Meta} {rs : List Ref} (hx : truthy m.dead = some rs) : ∀ σ : State, (ms.map (·.id)).Nodup → m ∈ ms → (setDead ms σ).2 = true →
    (setDead ms σ).1 m.id = (σ m.id).map (fun c => { c with dead := some rs }) := by
  induction ms with
  | nil => intro σ _ h; cases h
  | cons a ms ih =>
    intro σ hd hm hok
    rw [List.map_cons, List.nodup_cons] at hd
    rcases List.mem_cons.1 hm with rfl | hm
    · rw [setDead, hx] at hok ⊢
      dsimp only at hok ⊢
      rcases hc : σ m.id with _ | c
      · rw [hc] at hok
        cases hok
      · dsimp only
        rw [setDead_other]
        · unfold upd
          rw [if_pos rfl]
          rfl
        · intro q hq e
          exact absurd (List.mem_map.2 ⟨q, hq, e⟩) hd.1
    · have hne : m.id ≠ a.id := fun e => hd.1 (List.mem_map.2 ⟨m, hm, e⟩)
      rw [setDead] at hok ⊢
      split
      · rename_i ht
        rw [ht] at hok
        exact ih σ hd.2 hm hok
      · rename_i bs ht
        rw [ht] at hok
        dsimp only at hok
        rcases hc : σ a.id with _ | c
        · rw [hc] at hok
          cases hok
        · rw [hc] at hok
          dsimp only at hok ⊢
          rw [ih _ hd.2 hm hok]
          unfold upd
          rw [if_neg hne]

theorem setDead_sound (ms : List Meta) : ∀ (σ : State) (j : Id) (c : Cell), (setDead ms σ).1 j = some c →
    ∃ d, σ j = some d ∧ c.live = d.live ∧ (c.dead = d.dead ∨ ∃ m ∈ ms, m.id = j ∧ m.dead = c.dead ∧ (truthy m.dead).isSome) := by
  induction ms with
  | nil => intro σ j c h; exact ⟨c, h, rfl, .inl rfl⟩
  | cons m ms ih =>
    intro σ j c h
    rw [setDead] at h
    split at h
    · obtain ⟨d, h1, h2, h3⟩ := ih σ j c h
      refine ⟨d, h1, h2, h3.imp id ?_⟩
      rintro ⟨q, hq, hr⟩
      exact ⟨q, by simp [hq], hr⟩
    · rename_i rs ht
      split at h
      · exact ⟨c, h, rfl, .inl rfl⟩
      · rename_i a ha
        obtain ⟨d, h1, h2, h3⟩ := ih _ j c h
        unfold upd at h1
        split at h1
        · rename_i e
          injection h1 with h1
          subst h1
          refine ⟨a, by rw [e, ha], h2, .inr ?_⟩
          rcases h3 with h3 | ⟨q, hq, hr⟩
          · refine ⟨m, by simp, e.symm, ?_, by rw [ht]; rfl⟩
            rw [h3]
            dsimp only
            rw [← ht]
            exact truthy_of ht
          · exact ⟨q, by simp [hq], hr⟩
        · refine ⟨d, h1, h2, h3.imp id ?_⟩
          rintro ⟨q, hq, hr⟩
          exact ⟨q, by simp [hq], hr⟩

theorem create_at (ms : List Meta) : ∀ (σ : State) (i : Id),
    create ms σ i = match σ i with | some c => some c | none => if ∃ m ∈ ms, m.id = i then some ⟨none, none⟩ else none := by
  induction ms with
  | nil =>
    intro σ i
    rw [create]
    rcases σ i with _ | c
    · simp
    · rfl
  | cons m ms ih =>
    intro σ i
    rw [create]
    rcases hm : σ m.id with _ | c
    · dsimp only
      rw [ih]
      unfold upd
      by_cases e : i = m.id
      · rw [if_pos e, e, hm]
        dsimp only
        rw [if_pos ⟨m, by simp, rfl⟩]
      · rw [if_neg e]
        rcases σ i with _ | d
        · dsimp only
          have : (∃ q ∈ m :: ms, q.id = i) ↔ ∃ q ∈ ms, q.id = i := by
            have hne : m.id ≠ i := fun h => e h.symm
            simp [hne]
          simp only [this]
        · rfl
    · dsimp only
      rw [ih]
      rcases hi : σ i with _ | d
      · dsimp only
        have : (∃ q ∈ m :: ms, q.id = i) ↔ ∃ q ∈ ms, q.id = i := by
          have hne : m.id ≠ i := fun e => by rw [← e, hm] at hi; cases hi
          simp [hne]
        simp only [this]
      · rfl

theorem handle_ok (nb : List Meta) (σ : State) : (handle nb σ).2 = true ↔ ∀ m ∈ nb, Names m → (σ m.id).isSome := by
  have hl := setLive_ok (nb.filter relevant) σ
  have hd := setDead_ok (nb.filter relevant) (setLive (nb.filter relevant) σ).1
  simp only [setLive_some] at hd
  unfold handle
  dsimp only
  rcases h1 : setLive (nb.filter relevant) σ with ⟨σ1, b1⟩
  rw [h1] at hl hd
  have key : (∀ m ∈ nb, Names m → (σ m.id).isSome) ↔ b1 = true ∧ (setDead (nb.filter relevant) σ1).2 = true := by
    rw [hl, hd]
    constructor
    · intro h
      refine ⟨fun m hm hx => ?_, fun m hm hx => ?_⟩
      · exact h m (List.mem_filter.1 hm).1 (names_iff.2 (.inl hx))
      · exact h m (List.mem_filter.1 hm).1 (names_iff.2 (.inr hx))
    · rintro ⟨ha, hb⟩ m hm hn
      have hf : m ∈ nb.filter relevant := List.mem_filter.2 ⟨hm, relevant_of_names hn⟩
      rcases names_iff.1 hn with hx | hx
      · exact ha m hf hx
      · exact hb m hf hx
  rw [key]
  cases b1
  · simp
  · dsimp only
    rcases h2 : setDead (nb.filter relevant) σ1 with ⟨σ2, b2⟩
    cases b2 <;> simp

/-- What a message that is done without an error does. -/
theorem handle_eq {nb : List Meta} {σ : State} (h : (handle nb σ).2 = true) :
    (setLive (nb.filter relevant) σ).2 = true ∧ (setDead (nb.filter relevant) (setLive (nb.filter relevant) σ).1).2 = true ∧
    (handle nb σ).1 = create (nb.filter relevant) (setDead (nb.filter relevant) (setLive (nb.filter relevant) σ).1).1 := by
  unfold handle at h ⊢
  dsimp only at h ⊢
  rcases h1 : setLive (nb.filter relevant) σ with ⟨σ1, b1⟩
  rw [h1] at h
  cases b1
  · cases h
  · dsimp only at h ⊢
    rcases h2 : setDead (nb.filter relevant) σ1 with ⟨σ2, b2⟩
    rw [h2] at h
    cases b2
    · cases h
    · exact ⟨rfl, rfl, rfl⟩

/-- Cells stay known, and no other cells become known if there is an error. -/
theorem handle_some {nb : List Meta} {σ : State} (i : Id) :
    ((handle nb σ).1 i).isSome = ((σ i).isSome || ((handle nb σ).2 && decide (∃ m ∈ nb, relevant m = true ∧ m.id = i))) := by
  have hs1 := setLive_some (nb.filter relevant) σ i
  have hs2 := setDead_some (nb.filter relevant) (setLive (nb.filter relevant) σ).1 i
  by_cases h : (handle nb σ).2 = true
  · obtain ⟨-, -, h3⟩ := handle_eq h
    rw [h, h3, create_at]
    rw [hs1] at hs2
    rcases hx : (setDead (nb.filter relevant) (setLive (nb.filter relevant) σ).1).1 i with _ | c
    · rw [hx] at hs2
      rw [← hs2]
      have : (∃ m ∈ nb.filter relevant, m.id = i) ↔ ∃ m ∈ nb, relevant m = true ∧ m.id = i := by
        simp [List.mem_filter, and_assoc]
      by_cases hy : ∃ m ∈ nb, relevant m = true ∧ m.id = i
      · dsimp only
        rw [if_pos (this.2 hy)]
        simp [hy]
      · dsimp only
        rw [if_neg (fun h => hy (this.1 h))]
        simp [hy]
    · rw [hx] at hs2
      rw [← hs2]
      rfl
  · have hf : (handle nb σ).2 = false := by simpa using h
    rw [hf]
    simp only [Bool.false_and, Bool.or_false]
    unfold handle at hf ⊢
    dsimp only at hf ⊢
    rcases h1 : setLive (nb.filter relevant) σ with ⟨σ1, b1⟩
    rw [h1] at hf hs1 hs2
    cases b1
    · exact hs1
    · dsimp only at hf ⊢
      rcases h2 : setDead (nb.filter relevant) σ1 with ⟨σ2, b2⟩
      rw [h2] at hf hs2
      cases b2
      · exact hs2.trans hs1
      · cases hf

/-- What is known of a cell for which a message names nothing. -/
theorem handle_other {nb : List Meta} {σ : State} {i : Id} (hn : ∀ m ∈ nb, m.id = i → ¬Names m) {c : Cell} (hc : σ i = some c) : (handle nb σ).1 i = some c := by
  have h1 : (setLive (nb.filter relevant) σ).1 i = some c := by
    rw [setLive_other _ _ (fun m hm e => ?_), hc]
    have := hn m (List.mem_filter.1 hm).1 e
    rw [names_iff] at this
    push Not at this
    simpa using this.1
  have h2 : (setDead (nb.filter relevant) (setLive (nb.filter relevant) σ).1).1 i = some c := by
    rw [setDead_other _ _ (fun m hm e => ?_), h1]
    have := hn m (List.mem_filter.1 hm).1 e
    rw [names_iff] at this
    push Not at this
    simpa using this.2
  unfold handle
  dsimp only
  rcases e1 : setLive (nb.filter relevant) σ with ⟨σ1, b1⟩
  rw [e1] at h1 h2
  cases b1
  · exact h1
  · dsimp only
    rcases e2 : setDead (nb.filter relevant) σ1 with ⟨σ2, b2⟩
    rw [e2] at h2
    cases b2
    · exact h2
    · show create _ σ2 i = _
      rw [create_at]
      rw [show σ2 i = some c from h2]

theorem seen_iff : ∀ (h : List Event) (i : Id), Seen h i ↔ (run h i).isSome
  | [], i => by simp [Seen, run]
  | .run j :: h, i => by
    rw [Seen, run, seen_iff h i]
    unfold upd
    by_cases e : i = j <;> simp [e]
  | .told nb :: h, i => by
    rw [Seen, run, handle_some, Bool.or_eq_true, Bool.and_eq_true, handle_ok, decide_eq_true_iff, seen_iff h i]
    have : (∀ m ∈ nb, Names m → Seen h m.id) ↔ ∀ m ∈ nb, Names m → (run h m.id).isSome := by
      simp only [seen_iff h]
    rw [this]
    refine or_congr_right' fun hni => and_congr_right fun hf => ?_
    constructor
    · rintro ⟨m, hm, e, hc⟩
      exact ⟨m, hm, relevant_iff.2 (.inl hc), e⟩
    · rintro ⟨m, hm, hr, e⟩
      rcases relevant_iff.1 hr with hc | hn
      · exact ⟨m, hm, e, hc⟩
      · have := hf m hm hn
        rw [e] at this
        exact absurd this hni

theorem fine_iff {h : List Event} {nb : List Meta} : Fine h nb ↔ (handle nb (run h)).2 = true := by
  rw [handle_ok]
  unfold Fine
  simp only [seen_iff h]

theorem clean_none : ∀ {h : List Event} {i : Id}, Clean h i → ∀ c, run h i = some c → c = ⟨none, none⟩
  | [], _, _, c, hr => by cases hr
  | .run j :: h, i, hc, c, hr => by
    rw [run] at hr
    unfold upd at hr
    split at hr
    · injection hr with hr
      exact hr.symm
    · rename_i hne
      rcases hc with hc | hc
      · exact absurd hc hne
      · exact clean_none hc c hr
  | .told nb :: h, i, hc, c, hr => by
    rcases ho : run h i with _ | d
    · have hs : ((run (.told nb :: h)) i).isSome := by rw [hr]; rfl
      rw [run, handle_some, ho] at hs
      have hok : (handle nb (run h)).2 = true := by
        rcases hb : (handle nb (run h)).2 with _ | _
        · rw [hb] at hs
          cases hs
        · rfl
      obtain ⟨-, -, h3⟩ := handle_eq hok
      rw [run, h3, create_at] at hr
      have h1 := setLive_some (nb.filter relevant) (run h) i
      have h2 := setDead_some (nb.filter relevant) (setLive (nb.filter relevant) (run h)).1 i
      rw [h1, ho] at h2
      rcases hx : (setDead (nb.filter relevant) (setLive (nb.filter relevant) (run h)).1).1 i with _ | e
      · rw [hx] at hr
        dsimp only at hr
        split at hr
        · injection hr with hr
          exact hr.symm
        · cases hr
      · rw [hx] at h2
        cases h2
    · rw [run, handle_other hc.2 ho] at hr
      injection hr with hr
      subst hr
      exact clean_none hc.1 d ho

/-- What is known of a cell after a message that names something for it. -/
theorem handle_at {nb : List Meta} {σ : State} (hd : Distinct nb) (hok : (handle nb σ).2 = true) {m : Meta} (hm : m ∈ nb) {c : Cell} (hc : σ m.id = some c) :
    (handle nb σ).1 m.id = some ⟨(truthy m.live).or c.live, (truthy m.dead).or c.dead⟩ := by
  obtain ⟨h1, h2, h3⟩ := handle_eq hok
  have hd' : ((nb.filter relevant).map (·.id)).Nodup := hd.sublist (List.filter_sublist.map _)
  have huniq : ∀ q ∈ nb.filter relevant, q.id = m.id → q = m := fun q hq e =>
    List.inj_on_of_nodup_map hd (List.mem_filter.1 hq).1 hm e
  have a1 : (setLive (nb.filter relevant) σ).1 m.id = some { c with live := (truthy m.live).or c.live } := by
    rcases hx : truthy m.live with _ | rs
    · rw [setLive_other _ _ (fun q hq e => by rw [huniq q hq e, hx]), hc]
      rfl
    · have hf : m ∈ nb.filter relevant := List.mem_filter.2 ⟨hm, relevant_of_names (names_iff.2 (.inl (by rw [hx]; rfl)))⟩
      rw [setLive_at _ hx _ hd' hf h1, hc]
      rfl
  have a2 : (setDead (nb.filter relevant) (setLive (nb.filter relevant) σ).1).1 m.id = some ⟨(truthy m.live).or c.live, (truthy m.dead).or c.dead⟩ := by
    rcases hx : truthy m.dead with _ | rs
    · rw [setDead_other _ _ (fun q hq e => by rw [huniq q hq e, hx]), a1]
      rfl
    · have hf : m ∈ nb.filter relevant := List.mem_filter.2 ⟨hm, relevant_of_names (names_iff.2 (.inr (by rw [hx]; rfl)))⟩
      rw [setDead_at _ hx _ hd' hf h2, a1]
      rfl
  rw [h3, create_at, a2]

/-- What is named for a cell was named in a message. -/
theorem run_sound : ∀ (h : List Event) (i : Id) (c : Cell), run h i = some c →
    (∀ l, c.live = some l → ∃ nb, Event.told nb ∈ h ∧ ∃ m ∈ nb, m.id = i ∧ m.live = some l) ∧
    ∀ l, c.dead = some l → ∃ nb, Event.told nb ∈ h ∧ ∃ m ∈ nb, m.id = i ∧ m.dead = some l
  | [], _, _, hr => by cases hr
  | .run j :: h, i, c, hr => by
    rw [run] at hr
    unfold upd at hr
    split at hr
    · injection hr with hr
      subst hr
      exact ⟨fun l h => (by cases h), fun l h => (by cases h)⟩
    · obtain ⟨h1, h2⟩ := run_sound h i c hr
      refine ⟨fun l hl => ?_, fun l hl => ?_⟩
      · obtain ⟨nb, hn, hx⟩ := h1 l hl
        exact ⟨nb, by simp [hn], hx⟩
      · obtain ⟨nb, hn, hx⟩ := h2 l hl
        exact ⟨nb, by simp [hn], hx⟩
  | .told nb :: h, i, c, hr => by
    rw [run] at hr
    have key : ∀ c, ((setLive (nb.filter relevant) (run h)).1 i = some c ∨ (setDead (nb.filter relevant) (setLive (nb.filter relevant) (run h)).1).1 i = some c) →
        (∀ l, c.live = some l → ∃ nb', Event.told nb' ∈ Event.told nb :: h ∧ ∃ m ∈ nb', m.id = i ∧ m.live = some l) ∧
        ∀ l, c.dead = some l → ∃ nb', Event.told nb' ∈ Event.told nb :: h ∧ ∃ m ∈ nb', m.id = i ∧ m.dead = some l := by
      have k1 : ∀ c, (setLive (nb.filter relevant) (run h)).1 i = some c →
          (∀ l, c.live = some l → ∃ nb', Event.told nb' ∈ Event.told nb :: h ∧ ∃ m ∈ nb', m.id = i ∧ m.live = some l) ∧
          ∀ l, c.dead = some l → ∃ nb', Event.told nb' ∈ Event.told nb :: h ∧ ∃ m ∈ nb', m.id = i ∧ m.dead = some l := by
        intro c hx
        obtain ⟨d, g1, g2, g3⟩ := setLive_sound _ _ _ _ hx
        obtain ⟨i1, i2⟩ := run_sound h i d g1
        refine ⟨fun l hl => ?_, fun l hl => ?_⟩
        · rcases g3 with g3 | ⟨m, hm, e, g4, -⟩
          · obtain ⟨nb', hn, hy⟩ := i1 l (g3 ▸ hl)
            exact ⟨nb', by simp [hn], hy⟩
          · exact ⟨nb, by simp, m, (List.mem_filter.1 hm).1, e, g4.trans hl⟩
        · obtain ⟨nb', hn, hy⟩ := i2 l (g2 ▸ hl)
          exact ⟨nb', by simp [hn], hy⟩
      intro c hx
      rcases hx with hx | hx
      · exact k1 c hx
      · obtain ⟨d, g1, g2, g3⟩ := setDead_sound _ _ _ _ hx
        obtain ⟨i1, i2⟩ := k1 d g1
        refine ⟨fun l hl => i1 l (g2 ▸ hl), fun l hl => ?_⟩
        rcases g3 with g3 | ⟨m, hm, e, g4, -⟩
        · exact i2 l (g3 ▸ hl)
        · exact ⟨nb, by simp, m, (List.mem_filter.1 hm).1, e, g4.trans hl⟩
    unfold handle at hr
    dsimp only at hr
    rcases h1 : setLive (nb.filter relevant) (run h) with ⟨σ1, b1⟩
    rw [h1] at hr key
    cases b1
    · exact key c (.inl hr)
    · dsimp only at hr key
      rcases h2 : setDead (nb.filter relevant) σ1 with ⟨σ2, b2⟩
      rw [h2] at hr key
      cases b2
      · exact key c (.inr hr)
      · have hr : create (nb.filter relevant) σ2 i = some c := hr
        rw [create_at] at hr
        rcases hy : σ2 i with _ | d
        · rw [hy] at hr
          dsimp only at hr
          split at hr
          · injection hr with hr
            subst hr
            exact ⟨fun l h => (by cases h), fun l h => (by cases h)⟩
          · cases hr
        · rw [hy] at hr
          exact key c (.inr (hy.trans hr))

end Verif.Declare
