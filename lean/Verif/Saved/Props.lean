import Verif.Saved.Report

/-!
# Saved links: theorems -/

namespace Verif.Saved
open Verif Verif.Slice Verif.Sched

variable {n : Note} {f : Flow} {nb : List Id} {h₀ s : List Event} {w : Sched.World Id Sym} {c p : Id}

/-- As long as no cell is run, the client has just the links that were saved. -/
theorem before_runs (hs : OneSession s) (hr : ¬AnyRan s) : shown n (s ++ .connect f nb :: h₀) = shown n h₀ := by
  induction s with
  | nil => rfl
  | cons e s ih =>
    obtain ⟨hs', he⟩ := oneSession_cons hs
    have hr' : ¬AnyRan s := fun ⟨c, hc⟩ => hr ⟨c, ran_cons.2 (.inr hc)⟩
    rw [← ih hs' hr']
    show (step (run n (s ++ .connect f nb :: h₀)) e).note = _
    by_cases hw : ∃ w, e = .sched w
    · obtain ⟨w, rfl⟩ := hw
      rw [step_sched_zero ((sess_run n f nb h₀ s hs').runs.2 hr')]
      rfl
    · rw [note_step (fun w h => hw ⟨w, h⟩)]
      rfl

/-- A saved link between cells of the notebook is in a new kernel, unless it goes both ways. -/
theorem saved_entry (hn : Keyed n) (hc : c ∈ nb) (hp : p ∈ nb) (hne : c ≠ p) (hl : Parent n h₀ c p) (hb : ¬Parent n h₀ p c) :
    Assoc.get ((connect f nb (shown n h₀).parents).par .static c) p = some {none} := by
  have hi := connect_init f nb (shown n h₀).parents
  have hk := keyed_run hn h₀
  have hm := hi.must c p ((pairs_iff hk).2 ⟨hc, hp, hl⟩) hne (fun hx => hb ((pairs_iff hk).1 hx).2.2)
  obtain ⟨S, hS⟩ := key_mem hm
  have := (hi.par _ _ _ _ hS).2.2.2.1
  subst this
  exact (Assoc.get_eq_some_iff (hi.uniq _ _)).2 hS

/-- If data may flow in any order, saved links between cells that have not been run are kept. -/
theorem kept_any_order_partial (hn : Keyed n) (hf : f = .anyOrder) (hs : OneSession s) (hc : c ∈ nb) (hp : p ∈ nb) (hne : c ≠ p) (hl : Parent n h₀ c p)
    (hb : ¬Parent n h₀ p c) (hrc : ¬Ran s c) (hrp : ¬Ran s p) (hw : .static ∈ w.ctxs) : Parent n (.sched w :: (s ++ .connect f nb :: h₀)) c p := by
  by_cases hr : AnyRan s
  · rw [parent_sched hs hr (.inl hc)]
    have h := sess_run n f nb h₀ s hs
    obtain ⟨S, h1, h2⟩ := h.grow c hrc .static p _ (saved_entry hn hc hp hne hl hb)
    have hmem := Assoc.mem_of_get h1
    have hfl : (ker n f nb h₀ s).flow ≠ .inOrder := by
      rw [show (ker n f nb h₀ s).flow = f from h.flow, hf]
      intro hx; cases hx
    exact ⟨.static, hw, S, mem_directional.2 ⟨hmem, fun hx => absurd hx hfl⟩,
      keep_saved (h2 (Finset.mem_singleton_self _)) (h.unrun p hrp).1 (fun hx => hfl hx.1)⟩
  · have := before_runs (n := n) (f := f) (nb := nb) (h₀ := h₀) (s := .sched w :: s) (by
      intro g l hm
      rcases List.mem_cons.1 hm with hm | hm
      · cases hm
      · exact hs g l hm) (by
      rintro ⟨d, hd⟩
      rcases ran_cons.1 hd with hd | hd
      · cases hd
      · exact hr ⟨d, hd⟩)
    unfold Parent
    rw [show (Event.sched w :: (s ++ .connect f nb :: h₀)) = (.sched w :: s) ++ .connect f nb :: h₀ from rfl, this]
    exact hl

/-- Positions of cells of the notebook. -/
theorem pos_lt {k₀ k : Kern} (h : Sess f nb k₀ s k) (ha : Above (now nb s) p c) : k.pos p < k.pos c := by
  obtain ⟨h1, h2⟩ := ha
  have hp : p ∈ now nb s := by
    rw [← List.idxOf_lt_length_iff]
    exact lt_trans h2 (List.idxOf_lt_length_iff.2 h1)
  rw [h.pos]
  dsimp only
  rw [if_pos h1, if_pos hp]
  exact WithTop.coe_lt_coe.2 (by exact_mod_cast h2)

theorem above_of_pos {k₀ k : Kern} (h : Sess f nb k₀ s k) (hc : c ∈ now nb s) (ha : k.pos p < k.pos c) : Above (now nb s) p c := by
  rw [h.pos] at ha
  dsimp only at ha
  rw [if_pos hc] at ha
  by_cases hp : p ∈ now nb s
  · rw [if_pos hp] at ha
    have := WithTop.coe_lt_coe.1 ha
    exact ⟨hc, by exact_mod_cast this⟩
  · rw [if_neg hp] at ha
    exact absurd ha not_top_lt

/-- In order, the saved links to cells above that have not been run are kept for a cell that has not been run, as long as it is not found to read anything. -/
theorem kept_in_order_partial (hn : Keyed n) (hs : OneSession s) (hc : c ∈ nb) (hp : p ∈ nb) (hne : c ≠ p) (hl : Parent n h₀ c p)
    (hb : ¬Parent n h₀ p c) (hrc : ¬Ran s c) (hrp : ¬Ran s p) (ha : Above (now nb s) p c) (hq : ReadsNothing s c) (hw : .static ∈ w.ctxs) :
    Parent n (.sched w :: (s ++ .connect f nb :: h₀)) c p := by
  by_cases hr : AnyRan s
  · rw [parent_sched hs hr (.inl hc)]
    have h := sess_run n f nb h₀ s hs
    have hget : Assoc.get ((ker n f nb h₀ s).par .static c) p = some {none} := by
      rw [show (ker n f nb h₀ s).par .static c = _ from h.quiet c hrc hq]
      exact saved_entry hn hc hp hne hl hb
    refine ⟨.static, hw, {none}, mem_directional.2 ⟨Assoc.mem_of_get hget, fun _ => pos_lt h ha⟩, keep_saved (Finset.mem_singleton_self _) (h.unrun p hrp).1 ?_⟩
    rintro ⟨_, _, ⟨q, T⟩, ho, h1, _, _⟩
    have ho := (mem_directional.1 ho).1
    rw [show (ker n f nb h₀ s).par .static c = _ from h.quiet c hrc hq] at ho
    have hT := ((connect_init f nb (shown n h₀).parents).par _ _ _ _ ho).2.2.2.1
    refine h1 ⟨?_, hT⟩
    unfold syms look
    ext m
    simp only [Finset.mem_filter, Finset.mem_sdiff, Finset.mem_singleton, Finset.mem_erase]
    constructor
    · exact fun hm => hm.1.1
    · rintro rfl
      exact ⟨⟨rfl, fun hm => hm.1 rfl⟩, rfl⟩
  · have := before_runs (n := n) (f := f) (nb := nb) (h₀ := h₀) (s := .sched w :: s) (by
      intro g l hm
      rcases List.mem_cons.1 hm with hm | hm
      · cases hm
      · exact hs g l hm) (by
      rintro ⟨d, hd⟩
      rcases ran_cons.1 hd with hd | hd
      · cases hd
      · exact hr ⟨d, hd⟩)
    unfold Parent
    rw [show (Event.sched w :: (s ++ .connect f nb :: h₀)) = (.sched w :: s) ++ .connect f nb :: h₀ from rfl, this]
    exact hl

theorem hidden_aux {q r : Id} (hn : Keyed n) (hf : f = .inOrder) (hs : OneSession s) (hc : c ∈ nb) (hq : q ∈ nb) (hcq : c ≠ q)
    (hlq : Parent n h₀ c q) (hbq : ¬Parent n h₀ q c) (hrc : ¬Ran s c) (hrd : Reads s c r)
    (hr : r = q ∨ (r = p ∧ ¬Parent n h₀ p c ∧ (∀ m, some m ∉ w.removed c) ∧ ∀ m, w.implicitVirtual (some m) = false))
    (hpq : Above (now nb s) p q) (hqc : Above (now nb s) q c) :
    ¬Parent n (.sched w :: (s ++ .connect f nb :: h₀)) c p := by
  have hran : AnyRan s := by
    obtain ⟨s₁, s₂, m, h1, h2⟩ := hrd
    refine ⟨r, ?_⟩
    unfold Ran
    rw [h1]
    exact List.mem_append_right _ (List.mem_cons_of_mem _ h2)
  rw [parent_sched hs hran (.inl hc)]
  have h := sess_run n f nb h₀ s hs
  have hi := connect_init f nb (shown n h₀).parents
  have hk := keyed_run hn h₀
  obtain ⟨T, hT, hT'⟩ := h.grow c hrc .static q _ (saved_entry hn hc hq hcq hlq hbq)
  obtain ⟨m, U, hU, hmU⟩ := h.reads c r hc hrc hrd (by
    intro hx
    have := ((pairs_iff hk).1 (hi.chi _ _ _ hx).2).2.2
    rcases hr with rfl | ⟨rfl, hbp, _, _⟩
    · exact hbq this
    · exact hbp this)
  rintro ⟨x, _, S, h1, h2⟩
  obtain ⟨h1, _⟩ := mem_directional.1 h1
  cases x with
  | dynamic =>
    rw [show (ker n f nb h₀ s).par .dynamic c = [] from (h.unrun c hrc).2.2] at h1
    cases h1
  | static =>
    refine (keep_true h2).2.2 ⟨h.flow.trans hf, rfl, (q, T), mem_directional.2 ⟨Assoc.mem_of_get hT, fun _ => pos_lt h hqc⟩, ?_, ?_, .inr (hT' (Finset.mem_singleton_self _))⟩
    · rintro ⟨e1, e2⟩
      rcases hr with rfl | ⟨rfl, _, hA, hV⟩
      · rw [hU] at hT
        injection hT with hT
        subst hT
        have e2 : U = {none} := e2
        rw [e2, Finset.mem_singleton] at hmU
        cases hmU
      · have : S = U := by
          have := (Assoc.get_eq_some_iff (h.uniq .static c)).2 h1
          rw [hU] at this
          injection this with this
          exact this.symm
        subst this
        have hm : some m ∈ syms (look (ker n f nb h₀ s) w) c S := by
          unfold syms look
          simp only [Finset.mem_filter, Finset.mem_sdiff, Finset.mem_erase]
          exact ⟨⟨hmU, fun hx => hA m hx.2⟩, by simp [hV]⟩
        rw [e1, Finset.mem_singleton] at hm
        cases hm
    · exact not_le.2 (pos_lt h hpq)

/-- In order, as soon as a cell that was not run is found to read something that `q` wrote in its run, to which there was a saved link, it has no link to a cell `p`
further above, saved or not. -/
theorem hidden_saved {q : Id} (hn : Keyed n) (hf : f = .inOrder) (hs : OneSession s) (hc : c ∈ nb) (hq : q ∈ nb) (hcq : c ≠ q)
    (hlq : Parent n h₀ c q) (hbq : ¬Parent n h₀ q c) (hrc : ¬Ran s c) (hrd : Reads s c q) (hpq : Above (now nb s) p q) (hqc : Above (now nb s) q c) :
    ¬Parent n (.sched w :: (s ++ .connect f nb :: h₀)) c p := hidden_aux hn hf hs hc hq hcq hlq hbq hrc hrd (.inl rfl) hpq hqc

/-- In order, even a link to a cell `p` whose values the cell is found to read is hidden by a saved link to a cell `q` between the two. -/
theorem hidden_read {q : Id} (hn : Keyed n) (hf : f = .inOrder) (hs : OneSession s) (hc : c ∈ nb) (hq : q ∈ nb) (hcq : c ≠ q)
    (hlq : Parent n h₀ c q) (hbq : ¬Parent n h₀ q c) (hbp : ¬Parent n h₀ p c) (hrc : ¬Ran s c) (hrd : Reads s c p)
    (hpq : Above (now nb s) p q) (hqc : Above (now nb s) q c) (hA : ∀ m, some m ∉ w.removed c) (hV : ∀ m, w.implicitVirtual (some m) = false) :
    ¬Parent n (.sched w :: (s ++ .connect f nb :: h₀)) c p := hidden_aux hn hf hs hc hq hcq hlq hbq hrc hrd (.inr ⟨rfl, hbp, hA, hV⟩) hpq hqc

/-- A link to a cell that was run is dropped unless the kernel found it again. -/
theorem run_drops (hs : OneSession s) (hc : Known nb s c) (hrp : Ran s p) (hu : NeverUses s c p) : ¬Parent n (.sched w :: (s ++ .connect f nb :: h₀)) c p := by
  rw [parent_sched hs ⟨p, hrp⟩ hc]
  have h := sess_run n f nb h₀ s hs
  rintro ⟨x, _, S, h1, h2⟩
  obtain ⟨h1, _⟩ := mem_directional.1 h1
  have hp := h.ran p hrp
  obtain ⟨m, hm, hu'⟩ := (keep_true h2).2.1 (le_of_lt hp)
  cases m with
  | none => exact absurd hu' (by simp [look])
  | some m =>
    have hmS : some m ∈ S := by
      unfold syms at hm
      exact (Finset.mem_sdiff.1 (Finset.mem_filter.1 hm).1).1
    obtain ⟨y, hy⟩ := (h.upper c x p S _ (.inl h1) hmS).2 m rfl
    exact hu y m hy

/-- Once a cell was run, the links of a cell that is known are between cells that are known: those that were removed before the session are not among them. -/
theorem known_only (hs : OneSession s) (hr : AnyRan s) (hc : Known nb s c) (hp : Parent n (.sched w :: (s ++ .connect f nb :: h₀)) c p) : Known nb s p := by
  rw [parent_sched hs hr hc] at hp
  obtain ⟨x, _, S, h1, _⟩ := hp
  exact (sess_run n f nb h₀ s hs).known c x p S (.inl (mem_directional.1 h1).1)

/-- In order, links only go to cells above once a cell was run: saved links to cells below are dropped. -/
theorem upwards (hf : f = .inOrder) (hs : OneSession s) (hr : AnyRan s) (hc : Known nb s c) (hn : c ∈ now nb s)
    (hp : Parent n (.sched w :: (s ++ .connect f nb :: h₀)) c p) : Above (now nb s) p c := by
  rw [parent_sched hs hr hc] at hp
  obtain ⟨x, _, S, h1, _⟩ := hp
  have h := sess_run n f nb h₀ s hs
  exact above_of_pos h hn ((mem_directional.1 h1).2 (h.flow.trans hf))

/-- Once a cell was run, parents and children agree for known cells. -/
theorem two_sided (hs : OneSession s) (hr : AnyRan s) (hc : Known nb s c) (hp : Known nb s p) :
    Parent n (.sched w :: (s ++ .connect f nb :: h₀)) c p ↔ Child n (.sched w :: (s ++ .connect f nb :: h₀)) p c := by
  rw [parent_sched hs hr hc, child_sched hs hr hp]
  exact ⟨fun h => ⟨hc, h⟩, fun h => h.2⟩

/-- A cell that is gone keeps its parents, but is no longer a child of them. -/
theorem one_sided (hs : OneSession s) (hr : AnyRan s) (hc : ¬Known nb s c) (hp : Known nb s p) (hl : Parent n (s ++ .connect f nb :: h₀) c p) :
    Parent n (.sched w :: (s ++ .connect f nb :: h₀)) c p ∧ ¬Child n (.sched w :: (s ++ .connect f nb :: h₀)) p c := by
  constructor
  · unfold Parent Lists
    rw [parent_unknown hs hc]
    exact hl
  · rw [child_sched hs hr hp]
    exact fun h => hc h.1

/-- Of two saved links between two cells that go both ways, at most one is left once another cell was run. -/
theorem both_ways_lost (hs : OneSession s) (hr : AnyRan s) (hc : Known nb s c) (hp : Known nb s p) (hrc : ¬Ran s c) (hrp : ¬Ran s p) :
    ¬(Parent n (.sched w :: (s ++ .connect f nb :: h₀)) c p ∧ Parent n (.sched w :: (s ++ .connect f nb :: h₀)) p c) := by
  rw [parent_sched hs hr hc, parent_sched hs hr hp]
  have h := sess_run n f nb h₀ s hs
  have hi := connect_init f nb (shown n h₀).parents
  rintro ⟨⟨x, _, S, h1, _⟩, y, _, T, h2, _⟩
  have k1 := h.back c p hrc hrp x S (mem_directional.1 h1).1
  have k2 := h.back p c hrp hrc y T (mem_directional.1 h2).1
  obtain ⟨S', hS'⟩ := key_mem k1
  obtain ⟨T', hT'⟩ := key_mem k2
  have e1 := (hi.par _ _ _ _ hS').1
  have e2 := (hi.par _ _ _ _ hT').1
  subst e1; subst e2
  exact hi.apart c p k1 k2

/-- What the links of a cell are that is not in the notebook in any later session: they stay for good. -/
theorem gone_stays {e : List Event} (hc : Absent (e ++ [.connect f nb]) c) :
    Assoc.get (shown n (e ++ .connect f nb :: h₀)).parents c = Assoc.get (shown n h₀).parents c := by
  induction e with
  | nil => rfl
  | cons a e ih =>
    have hc' : Absent (e ++ [.connect f nb]) c :=
      ⟨fun g l hm => hc.1 g l (List.mem_cons_of_mem _ hm), fun l hm => hc.2.1 l (List.mem_cons_of_mem _ hm), fun hm => hc.2.2 (List.mem_cons_of_mem _ hm)⟩
    rw [← ih hc']
    by_cases hw : ∃ w, a = .sched w
    · obtain ⟨w, rfl⟩ := hw
      obtain ⟨s, f', nb', r, h1, h2, h3, h4, _⟩ := last_connect f nb h₀ e
      show Assoc.get (shown n (.sched w :: (e ++ .connect f nb :: h₀))).parents c = _
      rw [h2]
      refine parent_unknown h1 ?_
      rintro (hk | hk | ⟨l, hk, hl⟩)
      · exact hc'.1 f' nb' h4 hk
      · exact hc'.2.2 (List.mem_append_left _ (h3 _ hk))
      · exact hc'.2.1 l (List.mem_append_left _ (h3 _ hk)) hl
    · show Assoc.get (step (run n (e ++ .connect f nb :: h₀)) a).note.parents c = _
      rw [note_step (fun w h => hw ⟨w, h⟩)]
      rfl

theorem never_back_aux {h : List Event} (hn : Keyed n) (hl : ¬Parent n h c p) :
    ∀ (m : Nat) (e : List Event), e.length ≤ m → NeverUses e c p → ¬Parent n (e ++ .connect f nb :: h) c p := by
  intro m
  induction m with
  | zero =>
    intro e he _
    have : e = [] := List.eq_nil_of_length_eq_zero (Nat.le_zero.1 he)
    subst this
    exact hl
  | succ m ih =>
    intro e he hu
    cases e with
    | nil => exact hl
    | cons a e =>
      have hle : e.length ≤ m := Nat.le_of_succ_le_succ he
      have hu' : NeverUses e c p := fun x k hm => hu x k (List.mem_cons_of_mem _ hm)
      have hprev := ih e hle hu'
      by_cases hw : ∃ w, a = .sched w
      · obtain ⟨w, rfl⟩ := hw
        obtain ⟨s, f', nb', r, h1, h2, h3, h4, h5⟩ := last_connect f nb h e
        show ¬Parent n (.sched w :: (e ++ .connect f nb :: h)) c p
        rw [h2] at hprev ⊢
        have hr0 : ¬Parent n r c p := by
          rcases h5 with rfl | ⟨e', rfl, h6, h7⟩
          · exact hl
          · exact ih e' (le_trans (le_of_lt h6) hle) (fun x k hm => hu' x k (h7 _ hm))
        have hS := sess_run n f' nb' r s h1
        by_cases hk : Known nb' s c
        · by_cases hran : AnyRan s
          · rw [parent_sched h1 hran hk]
            rintro ⟨x, _, S, k1, k2⟩
            obtain ⟨k1, _⟩ := mem_directional.1 k1
            have hne := (keep_true k2).1
            obtain ⟨y, hy⟩ := Finset.nonempty_iff_ne_empty.2 hne
            have hyS : y ∈ S := by
              unfold syms at hy
              exact (Finset.mem_sdiff.1 (Finset.mem_filter.1 hy).1).1
            obtain ⟨u1, u2⟩ := hS.upper c x p S y (.inl k1) hyS
            cases y with
            | none =>
              obtain ⟨S', hS'⟩ := key_mem (u1 rfl)
              have hp := ((connect_init f' nb' (shown n r).parents).par _ _ _ _ hS').2.1
              exact hr0 ((pairs_iff (keyed_run hn r)).1 hp).2.2
            | some k =>
              obtain ⟨z, hz⟩ := u2 k rfl
              exact hu' z k (h3 _ hz)
          · unfold Parent shown
            show ¬Lists (step (run n (s ++ .connect f' nb' :: r)) (.sched w)).note.parents c p
            rw [step_sched_zero (hS.runs.2 hran)]
            exact hprev
        · unfold Parent Lists
          rw [parent_unknown h1 hk]
          exact hprev
      · unfold Parent shown
        show ¬Lists (step (run n (e ++ .connect f nb :: h)) a).note.parents c p
        rw [note_step (fun w h => hw ⟨w, h⟩)]
        exact hprev

/-- A link that is lost when a session begins stays lost in all sessions, whatever the order, until it is found again. -/
theorem never_back {h e : List Event} (hn : Keyed n) (hl : ¬Parent n h c p) (hu : NeverUses e c p) : ¬Parent n (e ++ .connect f nb :: h) c p :=
  never_back_aux hn hl e.length e le_rfl hu

end Verif.Saved
