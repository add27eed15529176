import Verif.Lint.Session

/-!
# Theorems about uses of values that were set further below (C153) -/

namespace Verif.Lint
open Verif

theorem latest_iff {h : List Event} {c k : Nat} (hi : Inv (run h) (replay h).1 (replay h).2) :
    cellByCtr (run h).cells k = some c ↔ ∃ e, Latest h e ∧ e.id = c ∧ e.num = k := by
  rw [cellByCtr_iff hi, hi.cells]
  constructor
  · rintro ⟨e, he, h1, h2, h3⟩
    exact ⟨e, ⟨he, fun e' he' h4 => by rw [h2]; exact h3 e' he' (h4.trans h1)⟩, h1, h2⟩
  · rintro ⟨e, ⟨he, h3⟩, h1, h2⟩
    exact ⟨e, he, h1, h2, fun e' he' h4 => by rw [← h2]; exact h3 e' he' (h4.trans h1.symm)⟩

theorem same_exec {h : List Event} (hi : Inv (run h) (replay h).1 (replay h).2) {e e' : Exec} (he : e ∈ execs h) (he' : e' ∈ execs h)
    (hn : e.num = e'.num) : e = e' := List.inj_on_of_nodup_map hi.nodup he he' hn

/-- What is in the list, before positions are looked at. -/
theorem in_list {h : List Event} {l} (hl : lint (run h) = .ok l) (v : Entry) : v ∈ l →
    ∃ e, Latest h e ∧ e.id = v.cell ∧ (∃ i, ⟨i, v.name, v.place, v.setter⟩ ∈ e.uses) ∧
      ∃ d ∈ execs h, d.num = v.setter ∧ (position (run h) d.id).le (position (run h) v.cell) = false := by
  have hi := inv_of h
  obtain ⟨l', h1, h2⟩ := lint_spec h
  rw [hl] at h1
  obtain rfl := Except.ok.inj h1
  rw [h2]
  rintro ⟨s, t, w, h3, h4, hm⟩
  obtain ⟨-, hset, hc, hp, d, hd, hle⟩ := hm
  obtain ⟨e, hlat, hid, hnum⟩ := (latest_iff hi).1 hc
  obtain ⟨p, hp', e', he', hn', hu⟩ := hi.syms.noted _ _ h3 _ _ h4
  obtain ⟨e'', he'', hk, rfl⟩ := (hi.cellAt _ _).1 hd
  have : e' = e := same_exec hi he' hlat.1 (hn'.trans hnum.symm)
  subst this
  dsimp only at hp hk hset
  rw [hp] at hp'
  obtain rfl := Option.some.inj hp'
  exact ⟨e', hlat, hid, ⟨t.2, by rw [hset]; exact hu⟩, e'', he'', hk.trans hset.symm, hle⟩

/-- A use is listed, at the place that was noted. -/
theorem listed {h : List Event} {l} (hl : lint (run h) = .ok l) {e d : Exec} {i x p s : Nat} (he : Latest h e) (hu : ⟨i, x, p, s⟩ ∈ e.uses)
    (hd : d ∈ execs h) (hn : d.num = s) (hle : (position (run h) d.id).le (position (run h) e.id) = false) :
    ∃ p', ⟨i, x, p', s⟩ ∈ e.uses ∧ ⟨e.id, x, p', s⟩ ∈ l := by
  have hi := inv_of h
  obtain ⟨l', h1, h2⟩ := lint_spec h
  rw [hl] at h1
  obtain rfl := Except.ok.inj h1
  obtain ⟨sy, w, h3, h4, h5⟩ := hi.syms.found e.num _ ⟨e, he.1, rfl, hu⟩
  dsimp only at h3 h4 h5
  obtain ⟨p', hp', e', he', hn', hu'⟩ := hi.syms.noted _ _ h3 _ _ h4
  have : e' = e := same_exec hi he' he.1 hn'
  subst this
  rw [h5] at hu'
  refine ⟨p', hu', (h2 _).2 ⟨sy, _, w, h3, h4, rfl, h5.symm, (latest_iff hi).2 ⟨e', he, rfl, rfl⟩, hp', d.id, ?_, hle⟩⟩
  rw [hi.cellAt]
  exact ⟨d, hd, hn.trans h5.symm, rfl⟩

theorem le_iff_below {h : List Event} (hd : Distinct h) {c d : Nat} (hc : c ∈ lastOrder h) (hd' : d ∈ lastOrder h) :
    (position (run h) d).le (position (run h) c) = false ↔ Below (lastOrder h) c d := by
  have hn : (lastOrder h).Nodup := by
    clear hc hd'
    induction h with
    | nil => exact List.nodup_nil
    | cons e h ih =>
      cases e with
      | order ids => exact hd ids List.mem_cons_self
      | run _ _ => exact ih (fun ids hm => hd ids (List.mem_cons_of_mem _ hm))
      | direction _ => exact ih (fun ids hm => hd ids (List.mem_cons_of_mem _ hm))
  rw [position_of h c hc, position_of h d hd', below_iff hn hc hd']
  simp [Pos.le]

/-! ### Reads of a statement -/

theorem readAll_once {env : Env} {i : Nat} : ∀ {rs : List (Nat × Nat)} {us}, readAll env i rs = some us → us.map (·.name) = rs.map (·.1) ∧
    ∀ u ∈ us, u.stmt = i
  | [], us, h => by
    obtain rfl := Option.some.inj h
    simp
  | (x, p) :: rs, us, h => by
    rw [readAll] at h
    rcases h1 : env x with _ | s
    · rw [h1] at h; simp at h
    · rcases h2 : readAll env i rs with _ | us'
      · rw [h1, h2] at h; simp at h
      · rw [h1, h2] at h
        obtain rfl := Option.some.inj h
        have ih := readAll_once h2
        refine ⟨by simp [ih.1], ?_⟩
        intro u hu
        rcases List.mem_cons.1 hu with rfl | hu
        · rfl
        · exact ih.2 u hu

theorem trace_once (k : Nat) : ∀ (code : List Stmt) (i : Nat) (env : Env), (∀ s ∈ code, (s.reads.map (·.1)).Nodup) →
    (∀ u ∈ (trace k i code env).2, i ≤ u.stmt) ∧
    ∀ u ∈ (trace k i code env).2, ∀ u' ∈ (trace k i code env).2, u.stmt = u'.stmt → u.name = u'.name → u = u'
  | [], _, _, _ => by simp [trace]
  | s :: ss, i, env, h => by
    rw [trace]
    rcases hr : readAll env i s.reads with _ | us
    · simp
    · dsimp only
      have h1 := readAll_once hr
      have ih := trace_once k ss (i + 1) (assign env k s.write) (fun s hs => h s (List.mem_cons_of_mem _ hs))
      refine ⟨?_, ?_⟩
      · intro u hu
        rcases List.mem_append.1 hu with hu | hu
        · rw [h1.2 u hu]
        · have := ih.1 u hu
          omega
      · intro u hu u' hu' hst hn
        rcases List.mem_append.1 hu with hu | hu <;> rcases List.mem_append.1 hu' with hu' | hu'
        · exact List.inj_on_of_nodup_map (f := (·.name)) (by rw [h1.1]; exact h s List.mem_cons_self) hu hu' hn
        · have := ih.1 u' hu'
          have := h1.2 u hu
          omega
        · have := ih.1 u hu
          have := h1.2 u' hu'
          omega
        · exact ih.2 u hu u' hu' hst hn

theorem exec_once : ∀ (h : List Event), ReadsOnce h → ∀ e ∈ execs h, ∀ u ∈ e.uses, ∀ u' ∈ e.uses, u.stmt = u'.stmt → u.name = u'.name → u = u'
  | [], _, e, he => by simp [execs, replay] at he
  | .order _ :: h, hr, e, he => exec_once h (fun id code hm => hr id code (List.mem_cons_of_mem _ hm)) e he
  | .direction _ :: h, hr, e, he => exec_once h (fun id code hm => hr id code (List.mem_cons_of_mem _ hm)) e he
  | .run id code :: h, hr, e, he => by
    have he' : e ∈ (⟨(replay h).2.length + 1, id, (trace ((replay h).2.length + 1) 0 code (replay h).1).2⟩ : Exec) :: (replay h).2 := he
    rcases List.mem_cons.1 he' with rfl | he'
    · exact (trace_once _ code 0 _ (hr id code List.mem_cons_self)).2
    · exact exec_once h (fun id code hm => hr id code (List.mem_cons_of_mem _ hm)) e he'

/-! ### C153 -/

/-- The list can always be made: no number of an execution is missing. -/
theorem lint_total (h : List Event) : ∃ l, lint (run h) = .ok l := by
  obtain ⟨l, h1, _⟩ := lint_spec h
  exact ⟨l, h1⟩

/-- **C153.** What is listed is a place at which the last execution of the cell used a value set by a cell that now stands below. -/
theorem lint_sound {h : List Event} (hd : Distinct h) (ha : AllPlaced h) {l} (hl : lint (run h) = .ok l) {v : Entry} (hv : v ∈ l) : Flagged h v := by
  obtain ⟨e, h1, h2, h3, d, h4, h5, h6⟩ := in_list hl v hv
  exact ⟨e, h1, h2, h3, d, h4, h5, (le_iff_below hd (h2 ▸ ha e h1.1) (ha d h4)).1 h6⟩

/-- **C153.** For each use of such a value, one place is listed at which the same statement of that execution used it. -/
theorem lint_some {h : List Event} (hd : Distinct h) (ha : AllPlaced h) {l} (hl : lint (run h) = .ok l) {v : Entry} (hv : Flagged h v) :
    ∃ p, ⟨v.cell, v.name, p, v.setter⟩ ∈ l := by
  obtain ⟨e, h1, h2, ⟨i, h3⟩, d, h4, h5, h6⟩ := hv
  rw [← h2] at h6 ⊢
  obtain ⟨p, -, hp⟩ := listed hl h1 h3 h4 h5 ((le_iff_below hd (ha e h1.1) (ha d h4)).2 h6)
  exact ⟨p, hp⟩

/-- **C153 (partial).** If no statement reads a variable twice, the list is exactly these places. Missing: see `second_lost`. -/
theorem lint_partial {h : List Event} (hd : Distinct h) (ha : AllPlaced h) (hr : ReadsOnce h) {l} (hl : lint (run h) = .ok l) (v : Entry) :
    v ∈ l ↔ Flagged h v := by
  refine ⟨lint_sound hd ha hl, ?_⟩
  rintro ⟨e, h1, h2, ⟨i, h3⟩, d, h4, h5, h6⟩
  rw [← h2] at h6
  obtain ⟨p, hu, hp⟩ := listed hl h1 h3 h4 h5 ((le_iff_below hd (ha e h1.1) (ha d h4)).2 h6)
  have := exec_once h hr e h1.1 _ h3 _ hu rfl rfl
  rw [h2, ← (Use.mk.inj this).2.2.1] at hp
  exact hp

/-- The symbol of `x` after a cell that reads it twice. -/
theorem twice_sym {σ : State} {x p p' : Nat} {w : Option Nat} {k : Nat} {s sy : Sym} (hs : Assoc.get σ.syms x = some s) (hb : before s.ts (k, 0) = true)
    (h : Assoc.get (runStmts k 0 [⟨[(x, p), (x, p')], w⟩] σ.syms) x = some sy) :
    (∀ t, Assoc.get sy.node t = if t = (k, 0) then some p' else Assoc.get s.node t) ∧
      ∀ t, t ≠ (k, 0) → Assoc.get sy.used t = Assoc.get s.used t := by
  have h1 : useOne (k, 0) σ.syms (x, p) = Assoc.set σ.syms x { s with used := Assoc.set s.used (k, 0) s.ts, node := Assoc.set s.node (k, 0) p } := by
    unfold useOne
    rw [hs]
    dsimp only
    unfold use
    rw [if_pos hb]
  have h2 : ∃ s2 : Sym, s2.node = Assoc.set (Assoc.set s.node (k, 0) p) (k, 0) p' ∧ s2.used = Assoc.set (Assoc.set s.used (k, 0) s.ts) (k, 0) s.ts ∧
      Assoc.get (useOne (k, 0) (useOne (k, 0) σ.syms (x, p)) (x, p')) x = some s2 := by
    rw [h1]
    refine ⟨⟨s.ts, Assoc.set (Assoc.set s.used (k, 0) s.ts) (k, 0) s.ts, Assoc.set (Assoc.set s.node (k, 0) p) (k, 0) p'⟩, rfl, rfl, ?_⟩
    unfold useOne
    rw [Assoc.get_set_self]
    dsimp only
    unfold use
    rw [if_pos hb, Assoc.get_set_self]
  obtain ⟨s2, h3, h4, h5⟩ := h2
  have h6 : sy.node = s2.node ∧ sy.used = s2.used := by
    rw [runStmts, runStmt, if_pos (by simp [hs])] at h
    rcases w with _ | y
    · simp only [List.foldl_cons, List.foldl_nil, runStmts] at h
      rw [h5] at h
      obtain rfl := Option.some.inj h
      exact ⟨rfl, rfl⟩
    · simp only [List.foldl_cons, List.foldl_nil, runStmts] at h
      unfold write at h
      by_cases hy : y = x
      · subst hy
        rw [h5] at h
        dsimp only at h
        rw [Assoc.get_set_self] at h
        obtain rfl := Option.some.inj h
        exact ⟨rfl, rfl⟩
      · split at h <;> rw [Assoc.get_set_ne _ _ (fun e => hy e.symm), h5] at h <;> obtain rfl := Option.some.inj h <;> exact ⟨rfl, rfl⟩
  constructor
  · intro t
    rw [h6.1, h3, Assoc.get_set]
    by_cases ht : t = (k, 0)
    · rw [if_pos ht, if_pos ht]
    · rw [if_neg ht, if_neg ht, Assoc.get_set_ne _ _ ht]
  · intro t ht
    rw [h6.2, h4, Assoc.get_set_ne _ _ ht, Assoc.get_set_ne _ _ ht]

/-- Of two places at which a statement uses a variable, only the one that is visited last is listed. -/
theorem second_lost {h : List Event} {id x p p' : Nat} (w : Option Nat)
    {l} (hl : lint (run (.run id [⟨[(x, p), (x, p')], w⟩] :: h)) = .ok l) {q s : Nat} (hm : ⟨id, x, q, s⟩ ∈ l) : q = p' := by
  have hi := inv_of (.run id [⟨[(x, p), (x, p')], w⟩] :: h)
  have ho := inv_of h
  obtain ⟨l', h1, h2⟩ := lint_spec (.run id [⟨[(x, p), (x, p')], w⟩] :: h)
  rw [hl] at h1
  obtain rfl := Except.ok.inj h1
  obtain ⟨sy, t, q', h3, h4, -, h6, h7, h8, -⟩ := (h2 _).1 hm
  dsimp only at h3 h4 h6 h7 h8
  have ht : t.1 = (run h).ctr + 1 := by
    rw [cellByCtr_iff hi] at h7
    have h9 : Assoc.get (Assoc.set (run h).cells id ((run h).ctr + 1)) id = some t.1 := h7
    rw [Assoc.get_set_self] at h9
    exact (Option.some.inj h9).symm
  have hold : ∀ s0, Assoc.get (run h).syms x = some s0 → ∀ w0, Assoc.get s0.used t ≠ some w0 := by
    intro s0 hs0 w0 hw0
    obtain ⟨_, _, e, he, hn, _⟩ := ho.syms.noted _ _ hs0 _ _ hw0
    have := ho.num e he
    rw [ho.ctr] at ht
    omega
  have h3' : Assoc.get (runStmts ((run h).ctr + 1) 0 [⟨[(x, p), (x, p')], w⟩] (run h).syms) x = some sy := h3
  rcases hs : Assoc.get (run h).syms x with _ | s0
  · rw [runStmts, runStmt, if_neg (by simp [hs])] at h3'
    dsimp only at h3'
    rw [hs] at h3'
    simp at h3'
  · have hb : before s0.ts ((run h).ctr + 1, 0) = true := by
      rw [ho.ctr]
      exact ho.syms.ts _ _ hs
    obtain ⟨h10, h11⟩ := twice_sym hs hb h3'
    by_cases hz : t = ((run h).ctr + 1, 0)
    · rw [h10, if_pos hz] at h8
      exact (Option.some.inj h8).symm
    · rw [h11 t hz] at h4
      exact absurd h4 (hold s0 hs _)

theorem inOrder_iff : ∀ h, (run h).inOrder = true ↔ InOrder h
  | [] => by simp [run, State.init, InOrder]
  | .direction b :: h => by simp [run, step, InOrder]
  | .run _ _ :: h => inOrder_iff h
  | .order _ :: h => inOrder_iff h

theorem get_indices_none : ∀ (l : List Nat) (n i : Nat), i ∉ l → Assoc.get (indices n l) i = none
  | [], _, _, _ => rfl
  | j :: l, n, i, h => by
    rw [indices, Assoc.get, if_neg (fun e => h (by simp [e])), get_indices_none l (n + 1) i (fun hm => h (List.mem_cons_of_mem _ hm))]

theorem get_append_right {l l' : List (Nat × Pos)} {k : Nat} (h : Assoc.get l k = none) : Assoc.get (l ++ l') k = Assoc.get l' k := by
  induction l with
  | nil => rfl
  | cons p l ih =>
    rw [List.cons_append]
    rw [Assoc.get] at h ⊢
    split
    · rename_i hp; rw [if_pos hp] at h; simp at h
    · rename_i hp; rw [if_neg hp] at h; exact ih h

theorem get_removed {ks : List Nat} {i : Nat} (hk : i ∉ ks) : ∀ {l : List (Nat × Pos)} {q}, Assoc.get l i = some q →
    Assoc.get ((l.filter (fun p => !ks.contains p.1)).map (fun p => (p.1, Pos.removed))) i = some .removed
  | [], _, h => by simp at h
  | p :: l, q, h => by
    rw [Assoc.get] at h
    by_cases hp : p.1 = i
    · rw [List.filter_cons_of_pos (by rw [hp]; simpa using hk), List.map_cons, Assoc.get, if_pos hp]
    · rw [if_neg hp] at h
      by_cases hf : (!ks.contains p.1) = true
      · rw [List.filter_cons_of_pos (p := fun p : Nat × Pos => !ks.contains p.1) hf, List.map_cons, Assoc.get, if_neg hp]
        exact get_removed hk h
      · rw [List.filter_cons_of_neg (p := fun p : Nat × Pos => !ks.contains p.1) hf]
        exact get_removed hk h

/-- Who is placed where no order has told. -/
theorem position_unknown {h : List Event} (ho : ¬ InOrder h) {ids : List Nat} {i : Nat} (hn : i ∉ ids) :
    position (run (.order ids :: h)) i = .unknown := by
  show (Assoc.get (setPositions (run h).inOrder (run h).pos (indices 0 ids)) i).getD .unknown = .unknown
  unfold setPositions
  rw [if_neg (fun hb => ho ((inOrder_iff h).1 hb)), get_indices_none ids 0 i hn]
  rfl

theorem position_removed {h : List Event} (ho : InOrder h) {ids : List Nat} {i : Nat} (hi : i ∈ lastOrder h) (hn : i ∉ ids) :
    position (run (.order ids :: h)) i = .removed := by
  show (Assoc.get (setPositions (run h).inOrder (run h).pos (indices 0 ids)) i).getD .unknown = .removed
  unfold setPositions
  rw [if_pos ((inOrder_iff h).2 ho), get_append_right (get_indices_none ids 0 i hn)]
  have hk : i ∉ Assoc.keys (indices 0 ids) := Assoc.get_eq_none_iff.1 (get_indices_none ids 0 i hn)
  have hp := position_of h i hi
  unfold position at hp
  rcases hg : Assoc.get (run h).pos i with _ | q
  · rw [hg] at hp; simp at hp
  · rw [get_removed hk hg]
    rfl

/-- In the order of the notebook, values set by a cell that has been removed are listed as if it stood below. -/
theorem removed_listed {h : List Event} (ho : InOrder h) {ids : List Nat} {c x s d : Nat} (hc : c ∈ ids) (hd : d ∈ lastOrder h) (hd' : d ∉ ids)
    (hu : UsedOf h c x s d) {l} (hl : lint (run (.order ids :: h)) = .ok l) : ∃ p, ⟨c, x, p, s⟩ ∈ l := by
  obtain ⟨e, h1, rfl, ⟨i, p, h3⟩, e', h4, h5, rfl⟩ := hu
  have hpos : position (run (.order ids :: h)) e'.id = .removed := position_removed ho hd hd'
  have hpos' := position_of (.order ids :: h) e.id hc
  obtain ⟨p', -, hp⟩ := listed (e := e) hl h1 h3 h4 h5 (by rw [hpos, hpos']; rfl)
  exact ⟨p', hp⟩

/-- In any order, values set by a cell that has been removed are never listed. -/
theorem removed_silent {h : List Event} (ho : ¬ InOrder h) {ids : List Nat} {d : Exec} (hd : d ∈ execs h) (hd' : d.id ∉ ids)
    {l} (hl : lint (run (.order ids :: h)) = .ok l) {v : Entry} (hv : v ∈ l) : v.setter ≠ d.num := by
  intro hs
  obtain ⟨e, h1, h2, h3, d', h4, h5, h6⟩ := in_list hl v hv
  have : d' = d := same_exec (inv_of (.order ids :: h)) h4 hd (h5.trans hs)
  subst this
  have hpos : position (run (.order ids :: h)) d'.id = .unknown := position_unknown ho hd'
  rw [hpos] at h6
  simp [Pos.le] at h6

/-- In any order, each use by a cell that has been removed of a value set by one that is there is listed. -/
theorem gone_listed {h : List Event} (ho : ¬ InOrder h) {ids : List Nat} {c x s d : Nat} (hc : c ∉ ids) (hd : d ∈ ids)
    (hu : UsedOf h c x s d) {l} (hl : lint (run (.order ids :: h)) = .ok l) : ∃ p, ⟨c, x, p, s⟩ ∈ l := by
  obtain ⟨e, h1, rfl, ⟨i, p, h3⟩, e', h4, h5, rfl⟩ := hu
  have hpos : position (run (.order ids :: h)) e.id = .unknown := position_unknown ho hc
  have hpos' := position_of (.order ids :: h) e'.id hd
  obtain ⟨p', -, hp⟩ := listed (e := e) hl h1 h3 h4 h5 (by rw [hpos, hpos']; rfl)
  exact ⟨p', hp⟩

end Verif.Lint
