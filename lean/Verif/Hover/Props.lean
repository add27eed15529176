import Verif.Hover.Session

/-!
# Pointing at a bar lights the linked cells, and leaving it darkens them (C151, C152) -/

namespace Verif.Hover

theorem byId_iff {w : World} (h : WF w) (i n : Nat) : byId w.widgets i = some n ↔ ∃ v ∈ w.widgets, v.id = i ∧ v.node = n := by
  unfold byId
  constructor
  · intro hb
    obtain ⟨v, hv, rfl⟩ := Option.map_eq_some_iff.1 hb
    exact ⟨v, List.mem_reverse.1 (find_id hv).1, (find_id hv).2, rfl⟩
  · rintro ⟨v, hv, rfl, rfl⟩
    rcases hf : w.widgets.reverse.find? (fun x => x.id = v.id) with _ | v'
    · rw [List.find?_eq_none] at hf
      exact absurd (by simp) (hf v (List.mem_reverse.2 hv))
    · obtain rfl := eq_of_id h (List.mem_reverse.1 (find_id hf).1) hv (find_id hf).2
      exact Option.map_eq_some_iff.2 ⟨_, hf, rfl⟩

theorem tint_iff (d : Data) (l c) : Tint d l c ↔ c = colourOf d.waiting l := by
  unfold Tint colourOf
  rcases d.waiting l with _ | _ <;> simp

theorem reach_sound {made : Nat → Part → Bool} {b p wt} : ∀ {ls : List Nat} {m q c}, reach made b p wt ls m q c →
    ∃ l ∈ ls, b l = some m ∧ q = p ∧ c = colourOf wt l
  | [], _, _, _, h => h.elim
  | l :: ls, m, q, c, ⟨n, h1, _, h3⟩ => by
    rcases h3 with ⟨rfl, h4, h5⟩ | h3
    · exact ⟨l, List.mem_cons_self, h1, h4, h5⟩
    · obtain ⟨l', hl', h⟩ := reach_sound h3
      exact ⟨l', List.mem_cons_of_mem _ hl', h⟩

theorem reach_complete {made : Nat → Part → Bool} {b p wt} : ∀ {ls : List Nat}, (∀ l ∈ ls, ∃ n, b l = some n ∧ made n p = true) →
    ∀ {l m}, l ∈ ls → b l = some m → reach made b p wt ls m p (colourOf wt l)
  | [], _, _, _, h, _ => by simp at h
  | x :: ls, ha, l, m, hl, hb => by
    obtain ⟨n, h1, h2⟩ := ha x List.mem_cons_self
    refine ⟨n, h1, h2, ?_⟩
    rcases List.mem_cons.1 hl with rfl | hl
    · rw [hb] at h1
      exact Or.inl ⟨Option.some.inj h1, rfl, rfl⟩
    · exact Or.inr (reach_complete (fun l hl => ha l (List.mem_cons_of_mem _ hl)) hl hb)

/-- Nothing that the user sees is lit before the pointer comes, and what is lit then is what the listeners get to. -/
theorem lights_over {h : List Event} (hu : Undisturbed h) (hp : (run h).pointer = none) {i p j q c}
    (hl : Lights (run (.over i p :: h)) j q c) :
    ∃ v ∈ (run h).widgets, v.id = i ∧ ∃ v' ∈ (run h).widgets, v'.id = j ∧
      Touched (run h).made .over ((run h).listeners v.node p) v'.node q c := by
  obtain ⟨v', hv', hj, hl⟩ := hl
  have hw := wf_run h
  have hdark : ∀ x ∈ (run h).widgets, ∀ q c, (run h).lit x.node q c ≠ true := fun x hx q c hx' => by
    obtain ⟨_, _, h1, _⟩ := dark_run h hu x hx q c hx'
    rw [hp] at h1
    exact absurd h1 (by simp)
  have hrun : run (.over i p :: h) = pointAt (run h) i p := rfl
  rw [hrun] at hv' hl
  rcases pointAt_cases (run h) i p with he | ⟨v, hv, hi, _, _, he⟩
  · rw [he] at hv' hl
    exact absurd hl (hdark v' hv' q c)
  · rw [he] at hv' hl
    refine ⟨v, hv, hi, v', hv', hj, ?_⟩
    by_cases ht : Touched (run h).made .over ((run h).listeners v.node p) v'.node q c
    · exact ht
    · have hl : fire (run h).made .over ((run h).listeners v.node p) (run h).lit v'.node q c = true := hl
      rw [(fire_hit _ _ _ _ _ _ _ (hw.right v.node p)).2 ht] at hl
      exact absurd hl (hdark v' hv' q c)

/-- C151, one half: whatever happened before, pointing at a bar lights nothing but what the schedule of the last refresh says, in the colours that
it says. (A cell may be removed under the pointer; until the next refresh it may then leave bars lit, see `deleted_leaves`.) -/
theorem pointed_sound {h : List Event} (hu : Undisturbed h) (hp : (run h).pointer = none) {i p j q c}
    (hl : Lights (run (.over i p :: h)) j q c) : Shows (run (upToRefresh h)).data i p j q c := by
  obtain ⟨v, hv, rfl, v', hv', rfl, ht⟩ := lights_over hu hp hl
  have hs := since_run h
  have hr := wf_run (upToRefresh h)
  have hw := wf_run h
  by_cases hm : v ∈ (run (upToRefresh h)).widgets
  · rw [hs.heard v hv hm, attach_touched] at ht
    obtain ⟨_, hmk, ht⟩ := ht
    have link : ∀ {l : Nat}, byId (run (upToRefresh h)).widgets l = some v'.node → l = v'.id := by
      intro l hb
      obtain ⟨x, hx, h1, h2⟩ := (byId_iff hr l v'.node).1 hb
      have hx' : v' ∈ (run (upToRefresh h)).widgets := hs.old v' hv' (h2 ▸ hr.below x hx)
      rw [← eq_of_node hr hx hx' h2, h1]
    rcases ht with ht | ⟨hre, ht | ht⟩
    · rw [state_touched] at ht
      obtain ⟨_, _, h1, h2⟩ := ht
      have hvv : v' = v := eq_of_node hw hv' hv h1
      subst hvv
      rcases h2 with ⟨rfl, rfl, rfl, h3⟩ | ⟨rfl, rfl, rfl, h3⟩ | ⟨rfl, rfl, rfl, h3, h4⟩
      · exact Shows.output _ hmk h3
      · exact Shows.waits _ hmk h3
      · exact Shows.ready _ hmk h3 h4
    · rw [waiter_touched] at ht
      obtain ⟨ls, h1, _, h3⟩ := ht
      obtain ⟨l, hin, h4, rfl, rfl⟩ := reach_sound h3
      rw [link h4] at hin ⊢
      exact Shows.waiter _ _ _ _ _ hmk hre h1 hin ((tint_iff _ _ _).2 rfl)
    · rw [maker_touched] at ht
      obtain ⟨ls, h1, rfl, _, r, h3⟩ := ht
      obtain ⟨l, hin, h4, rfl, rfl⟩ := reach_sound h3
      rw [link h4] at hin ⊢
      exact Shows.maker _ _ _ _ _ hmk hre h1 hin ((tint_iff _ _ _).2 rfl)
  · rw [hs.silent v hv hm] at ht
    exact absurd ht Touched_nil

/-- What was shown at the last refresh is lit, if the cell was rendered by then and the linked cells are there. -/
theorem pointed_complete {h : List Event} (hp : (run h).pointer = none) {i : Nat}
    (hi : ThereSince (run (upToRefresh h)) (run h) i)
    (hk : ∀ j, Linked (run (upToRefresh h)).data i j → ThereNow (run (upToRefresh h)) (run h) j) {p j q c}
    (hsh : Shows (run (upToRefresh h)).data i p j q c) : Lights (run (.over i p :: h)) j q c := by
  obtain ⟨v, hv0, hv, rfl, hc, hmade⟩ := hi
  have hs := since_run h
  have hr := wf_run (upToRefresh h)
  have hw := wf_run h
  have hall : ∀ r, (run (upToRefresh h)).made v.node r = true := fun r => hr.both v hv0 hc _ r hmade
  have key : ∀ v' ∈ (run h).widgets, v'.id = j → Touched (run h).made .over ((run h).listeners v.node p) v'.node q c →
      Lights (run (.over v.id p :: h)) j q c := by
    intro v' hv' hj ht
    have he : run (.over v.id p :: h) = _ := pointAt_can hw hv hp (hs.made _ _ (hall p))
    rw [he]
    refine ⟨v', hv', hj, ?_⟩
    show fire (run h).made .over ((run h).listeners v.node p) (run h).lit v'.node q c = true
    rw [(fire_hit _ _ _ _ _ _ _ (hw.right v.node p)).1 ht]
    rfl
  have links : ∀ (ls : List Nat) (r : Part), (∀ l ∈ ls, Linked (run (upToRefresh h)).data v.id l) → j ∈ ls →
      ∃ v' ∈ (run h).widgets, v'.id = j ∧ reach (run h).made (byId (run (upToRefresh h)).widgets) r (run (upToRefresh h)).data.waiting ls v'.node r
        (colourOf (run (upToRefresh h)).data.waiting j) := by
    intro ls r hls hjl
    obtain ⟨v', h1, h2, h3, _, _⟩ := hk j (hls j hjl)
    refine ⟨v', h2, h3, reach_complete ?_ hjl ((byId_iff hr _ _).2 ⟨v', h1, h3, rfl⟩)⟩
    intro l hl
    obtain ⟨x, h1, h2, h3, h4, h5⟩ := hk l (hls l hl)
    exact ⟨x.node, (byId_iff hr _ _).2 ⟨x, h1, h3, rfl⟩, hw.both x h2 h4 _ r h5⟩
  have hat := hs.heard v hv hv0 p
  cases hsh with
  | output hmk h1 =>
    refine key v hv rfl ?_
    rw [hat, attach_touched, state_touched]
    exact ⟨hc, hmk, Or.inl ⟨hall _, hall _, rfl, Or.inl ⟨rfl, rfl, rfl, h1⟩⟩⟩
  | waits hmk h1 =>
    refine key v hv rfl ?_
    rw [hat, attach_touched, state_touched]
    exact ⟨hc, hmk, Or.inl ⟨hall _, hall _, rfl, Or.inr (Or.inl ⟨rfl, rfl, rfl, h1⟩)⟩⟩
  | ready hmk h1 h2 =>
    refine key v hv rfl ?_
    rw [hat, attach_touched, state_touched]
    exact ⟨hc, hmk, Or.inl ⟨hall _, hall _, rfl, Or.inr (Or.inr ⟨rfl, rfl, rfl, h1, h2⟩)⟩⟩
  | waiter _ _ _ ls hmk hre h1 h2 h3 =>
    obtain ⟨v', hv', hj, hrch⟩ := links ls .input (fun l hl => Or.inl ⟨ls, h1, hl⟩) h2
    rw [(tint_iff _ _ _).1 h3] at key ⊢
    refine key v' hv' hj ?_
    rw [hat, attach_touched, waiter_touched]
    exact ⟨hc, hmk, Or.inr ⟨hre, Or.inl ⟨ls, h1, hall _, hrch⟩⟩⟩
  | maker _ _ _ ls hmk hre h1 h2 h3 =>
    obtain ⟨v', hv', hj, hrch⟩ := links ls q (fun l hl => Or.inr ⟨ls, h1, hl⟩) h2
    rw [(tint_iff _ _ _).1 h3] at key ⊢
    refine key v' hv' hj ?_
    rw [hat, attach_touched, maker_touched]
    exact ⟨hc, hmk, Or.inr ⟨hre, Or.inr ⟨ls, h1, rfl, hall _, q, hrch⟩⟩⟩

/-- C151. Pointing at a bar of a code cell lights exactly the bars that the last schedule calls for, in its colours. The full statement has no
conditions but that the cell is there; needed are: the client has refreshed what is shown since the schedule, and the cell had been rendered by
then (`late_cell_silent`, `stale_links`); all linked cells are there and rendered (`stops_at_missing`); and no cell was removed from under the
pointer since (`deleted_leaves`). -/
theorem pointed_partial {h : List Event} (hu : Undisturbed h) (hp : (run h).pointer = none)
    (hd : (run h).data = (run (upToRefresh h)).data) {i : Nat} (hi : ThereSince (run (upToRefresh h)) (run h) i)
    (hk : ∀ j, Linked (run h).data i j → ThereNow (run (upToRefresh h)) (run h) j) (p j q c) :
    Lights (run (.over i p :: h)) j q c ↔ Shows (run h).data i p j q c := by
  rw [hd] at hk ⊢
  exact ⟨pointed_sound hu hp, pointed_complete hp hi hk⟩

/-- C152. When the pointer is on no bar, no bar is lit. The full statement holds of every session; needed is that no cell was removed from under the
pointer since the last refresh. -/
theorem nothing_left_partial {h : List Event} (hu : Undisturbed h) (hp : (run h).pointer = none) (j q c) : ¬ Lights (run h) j q c := by
  rintro ⟨v, hv, _, hl⟩
  obtain ⟨_, _, h1, _⟩ := dark_run h hu v hv q c hl
  rw [hp] at h1
  exact absurd h1 (by simp)

/-- C152: leaving a bar darkens everything, whatever happened while the pointer was on it. -/
theorem leaving_darkens {h : List Event} (hu : Undisturbed h) (j q c) : ¬ Lights (run (.out :: h)) j q c := by
  refine nothing_left_partial (h := .out :: h) hu ?_ j q c
  show (leave (run h)).pointer = none
  unfold leave
  rcases hp : (run h).pointer with _ | ⟨n, p⟩
  · exact hp
  · rfl

/-- C152, violated: if a cell is removed while the pointer is on its bar, what it lit stays lit. -/
theorem deleted_leaves (h : List Event) {i : Nat} (hp : PointsAt (run h) i) {j q c} (hj : j ≠ i) (hl : Lights (run h) j q c) :
    (run (.delete i :: h)).pointer = none ∧ Lights (run (.delete i :: h)) j q c := by
  constructor
  · obtain ⟨v, hv, h1, p, h2⟩ := hp
    show (match (run h).pointer with
      | some (n, p) => if (run h).widgets.any (fun v => v.id = i && v.node = n) then none else some (n, p)
      | none => none) = none
    rw [h2]
    dsimp only
    rw [if_pos]
    simp only [List.any_eq_true]
    exact ⟨v, hv, by simp [h1]⟩
  · obtain ⟨v, hv, h1, h2⟩ := hl
    exact ⟨v, List.mem_filter.2 ⟨hv, by simpa [h1] using hj⟩, h1, h2⟩

/-- C151, violated: a refresh while the pointer rests on a bar darkens everything, though the pointer is still there. -/
theorem refresh_goes_dark (h : List Event) {i : Nat} (hp : PointsAt (run h) i) (j q c) :
    PointsAt (run (.select :: h)) i ∧ ¬ Lights (run (.select :: h)) j q c := by
  refine ⟨hp, ?_⟩
  rintro ⟨v, hv, _, hl⟩
  obtain ⟨h1, h2⟩ := refresh_lit (run h) hl
  rw [(reached_iff (run h) _ _).2 ⟨⟨v, hv, rfl⟩, (wf_run h).litMade _ _ _ h2⟩] at h1
  exact absurd h1 (by simp)

/-- C151, violated: pointing at a cell that was rendered after the last refresh lights nothing, whatever the schedule says. -/
theorem late_cell_silent {h : List Event} (hu : Undisturbed h) (hp : (run h).pointer = none) {i : Nat}
    (hi : ∀ v ∈ (run (upToRefresh h)).widgets, v.id = i → ∀ p, (run (upToRefresh h)).made v.node p = false) (p j q c) :
    ¬ Lights (run (.over i p :: h)) j q c := by
  intro hl
  obtain ⟨v, hv, rfl, v', hv', rfl, ht⟩ := lights_over hu hp hl
  have hs := since_run h
  by_cases hm : v ∈ (run (upToRefresh h)).widgets
  · rw [hs.heard v hv hm, attach_unmade _ _ (hi v hm rfl p)] at ht
    exact absurd ht Touched_nil
  · rw [hs.silent v hv hm] at ht
    exact absurd ht Touched_nil

/-- C151, violated: if the first cell that a cell waits for is no longer in the notebook, none of the others is lit either. -/
theorem stops_at_missing {h : List Event} (hu : Undisturbed h) (hp : (run h).pointer = none) {i l : Nat} {ls : List Nat}
    (hl : (run (upToRefresh h)).data.waiters i = some (l :: ls)) (hg : ∀ v ∈ (run (upToRefresh h)).widgets, v.id ≠ l)
    (hm : (run (upToRefresh h)).data.makers i = none) (j c) (hj : j ≠ i) : ¬ Lights (run (.over i .input :: h)) j .input c := by
  intro hL
  obtain ⟨v, hv, rfl, v', hv', rfl, ht⟩ := lights_over hu hp hL
  have hs := since_run h
  have hr := wf_run (upToRefresh h)
  by_cases hmem : v ∈ (run (upToRefresh h)).widgets
  · rw [hs.heard v hv hmem, attach_touched, state_touched, waiter_touched, maker_touched] at ht
    obtain ⟨_, _, ⟨_, _, h1, _⟩ | ⟨_, ⟨ls', h1, _, h2⟩ | ⟨_, h1, _⟩⟩⟩ := ht
    · exact hj (by rw [eq_of_node (wf_run h) hv' hv h1])
    · rw [hl] at h1
      obtain rfl := Option.some.inj h1
      obtain ⟨n, h3, _⟩ := h2
      obtain ⟨x, hx, h4, _⟩ := (byId_iff hr _ _).1 h3
      exact hg x hx h4
    · rw [hm] at h1
      exact absurd h1 (by simp)
  · rw [hs.silent v hv hmem] at ht
    exact absurd ht Touched_nil

/-- C151, violated: when a schedule is not followed by a refresh, pointing lights what the schedule before it said. -/
theorem stale_links {h : List Event} (hu : Undisturbed h) (hp : (run h).pointer = none) (d : Data) {i p j q c}
    (hl : Lights (run (.over i p :: .schedule d false :: h)) j q c) : Shows (run (upToRefresh h)).data i p j q c := by
  have e : upToRefresh (.schedule d false :: h) = upToRefresh h := by
    rw [upToRefresh, if_neg (by rw [refreshes_schedule]; simp)]
  rw [← e]
  exact pointed_sound (h := .schedule d false :: h) (Or.inr hu) hp hl

end Verif.Hover
