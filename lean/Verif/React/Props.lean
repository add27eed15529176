import Verif.React.Lemmas

/-! # Marked assignments and marked reads: what is proved -/

namespace Verif.React

open Verif.Assoc Verif.Ref Spec

variable {K : Type} [DecidableEq K]

set_option linter.unusedSectionVars false

/-- **A marked assignment has the cells that read what it marks run again.** Whatever was run before, and whatever else the cell assigns, with marks or
without: if a target of the cell has `$` or `$$` before some part of it, then a cell that reads this part, or what it is a part of, or a part of it, and
that ran before, has to be run again, whether the read is marked or not.

Missing: a `$:` in the cell, which may hide marks elsewhere in it (`block_hides`), and a `$$` before something that is assigned to again in the cell
(`lost_wide`). -/
theorem store_reaches_partial (ops : List (Op K)) (c : Cell K) {l1 l2 : List (Store K)} {a : Store K} (hc : c.body.flatten = l1 ++ a :: l2)
    (ho : ∀ b ∈ c.body.flatten, Open b.target) {m : Path K} (hm : Marked a.target m)
    (hl2 : Narrow a.target ∨ ∀ b ∈ l2, ¬ names b.target <+: m) {r : List (K × Marks)} (hr : Open r) (hne : r ≠ []) (ht : Touch m (names r))
    {ctr least : Nat} (hctr : ctr ≤ count ops) (hleast : least ≤ count ops) : forced (after (ops ++ [.run c])) ctr least r = true := by
  have h0 := facts_after ops
  rw [after_append]
  have f := run_facts h0.bounded c
  have ha : a ∈ c.body.flatten := by rw [hc]; simp
  obtain ⟨g1, g2⟩ := run_setFacts (after ops) c l1 a l2 hc (ho a ha) m hm
  have hset : ((step (after ops) (.run c)).updDeep m = true ∨ (step (after ops) (.run c)).updDeepLast m = true) ∧
      ∀ p, p ≠ [] → p <+: m → (step (after ops) (.run c)).upd p = true ∨ (step (after ops) (.run c)).updLast p = true := by
    rcases hl2 with h | h
    · obtain ⟨k1, k2⟩ := g1 h
      exact ⟨.inr k1, fun p hp hpm => .inr (k2 p hp hpm)⟩
    · exact g2 h
  obtain ⟨hmp, hmne⟩ := marked_prefix hm
  rw [← h0.ctr] at hctr hleast
  rcases ht with ht | ht
  · obtain ⟨pre, k, mk, post, rfl, rfl⟩ := split_names hmne ht
    have hr' : Open (pre ++ [(k, mk)]) := by
      rw [open_append] at hr ⊢
      exact ⟨hr.1, open_cons.mpr ⟨(open_cons.mp hr.2).1, by simp [Open]⟩⟩
    exact reaches_deep h0.bounded f ho ha hr' (.inr hmp) hctr hleast (.inl (by simpa using hset.1))
  · have hn : names r ≠ [] := by simpa [names] using hne
    exact reaches_whole h0.bounded f ho ha hr hne (.inr (ht.trans hmp)) hctr hleast (by simpa using hset.2 _ hn ht)

/-- **A marked read has its cell run again when what it marks is assigned to.** Whatever was run before: a cell that reads a chain with `$` or `$$`
before some part of it has to be run again when this part, or what it is a part of, or a part of it, is assigned to, with a mark or without.

Missing: a `$:` in the cell that assigns (`block_hides`). -/
theorem read_reaches_partial (ops : List (Op K)) (c : Cell K) {a : Store K} (ha : a ∈ c.body.flatten) (ho : ∀ b ∈ c.body.flatten, Open b.target)
    {pre post : List (K × Marks)} {k : K} {mk : Marks} (hmk : mk.reactive = true ∨ mk.cascading = true) (hr : Open (pre ++ [(k, mk)]))
    (ht : Touch (names a.target) (names pre ++ [k])) {ctr least : Nat} (hctr : ctr ≤ count ops) (hleast : least ≤ count ops) :
    forced (after (ops ++ [.run c])) ctr least (pre ++ (k, mk) :: post) = true := by
  have h0 := facts_after ops
  rw [after_append]
  rw [← h0.ctr] at hctr hleast
  exact reaches_deep h0.bounded (run_facts h0.bounded c) ho ha hr ht hctr hleast (.inr hmk)

/-- What a cell of one assignment without `$$` leaves behind. -/
theorem one_state (ops : List (Op K)) (prev : Nat) (a : Store K) :
    ∃ s, after (ops ++ [.cleanup] ++ [.run { prev := prev, body := [[a]] }]) = s ∧
      Facts (ops ++ [.cleanup] ++ [.run { prev := prev, body := [[a]] }]) s ∧
      CellFacts (after (ops ++ [.cleanup])) [a] s ∧
      (∀ ctr p, p.head? ≠ (names a.target).head? ∨ (a.rval = false ∧ Narrow a.target) → cascAt s ctr p = false) ∧
      (∀ p, s.upd p = true → p.head? = (names a.target).head?) ∧ (∀ p, s.updDeep p = true → p.head? = (names a.target).head?) ∧
      (Narrow a.target → ∀ p, s.upd p = false) ∧ (Narrow a.target → ∀ p, s.updDeep p = false) ∧
      (∀ p, s.updDeepLast p = true → Marked a.target p) ∧ (∀ p, s.updLast p = true → ∃ m, Marked a.target m ∧ p <+: m) ∧
      (¬ Open a.target → ∀ k, (names a.target).head? = some k → s.blocked [k] = s.ctr) := by
  have hfa := facts_after (ops ++ [.cleanup])
  have hq := quiet_cleanup ops
  have hcq := clear_quiet (s := start (after (ops ++ [.cleanup]))) hq.upd hq.updDeep a
  obtain ⟨d, n, hs⟩ := run_one (after (ops ++ [.cleanup])) prev a
  refine ⟨_, rfl, facts_after _, ?_, ?_⟩
  · rw [after_append (ops ++ [Op.cleanup])]
    exact run_facts hfa.bounded { prev := prev, body := [[a]] }
  rw [after_append (ops ++ [Op.cleanup]), hs]
  refine ⟨fun ctr p h => one_casc hfa.bounded hq prev a ctr h, fun p hp => ?_, fun p hp => ?_, fun hn p => ?_, fun hn p => ?_, fun p hp => ?_,
    fun p hp => ?_, fun hno k hk => ?_⟩
  · rcases (store_upd ..).mp hp with h | ⟨mk, post, hat, -⟩
    · rw [hcq.1 p] at h; cases h
    · exact head_at hat
  · rcases (store_updDeep ..).mp hp with h | ⟨mk, post, hat, -⟩
    · rw [hcq.2 p] at h; cases h
    · exact head_at hat
  · by_contra hp
    rcases (store_upd ..).mp (by simpa using hp) with h | ⟨mk, post, ⟨pre, k, ht, -⟩, hc, -⟩
    · rw [hcq.1 p] at h; cases h
    · rw [hn (k, mk) (by rw [ht]; simp)] at hc; cases hc
  · by_contra hp
    rcases (store_updDeep ..).mp (by simpa using hp) with h | ⟨mk, post, ⟨pre, k, ht, -⟩, hc, -⟩
    · rw [hcq.2 p] at h; cases h
    · rw [hn (k, mk) (by rw [ht]; simp)] at hc; cases hc
  · rcases (store_updDeepLast ..).mp hp with h | ⟨mk, post, ⟨pre, k, ht, hp⟩, hr, -, hb, hop⟩
    · cases h
    · exact ⟨pre, k, mk, post, ht, by simpa using hp, .inl hr, open_cons.mpr ⟨hb, hop⟩⟩
  · rcases (store_updLast ..).mp hp with h | ⟨mk, post, hat, -, hl, hb, hop⟩
    · cases h
    · exact at_marked hat hl hb hop
  · obtain ⟨t, dp, rv, lo⟩ := a
    cases t with
    | nil => simp [names] at hk
    | cons e t =>
      obtain ⟨k', m⟩ := e
      obtain rfl : k' = k := by simpa [names] using hk
      generalize hs1 : start (after (ops ++ [.cleanup])) = s1
      have hd1 : s1.done [k'] = false := by rw [← hs1]; rfl
      generalize ha : ({ target := (k', m) :: t, deps := dp, rval := rv, loops := lo } : Store K) = a
      have hta : a.target = (k', m) :: t := by rw [← ha]
      show (store prev s1 a).blocked [k'] = (store prev s1 a).ctr
      rw [(store_fixed s1 prev a).1, store_eq, hta, markR_blocked_root _ hno (by rw [(update_fixed s1 prev a).2.2.2.1]; exact hd1)]
      exact (update_fixed s1 prev a).1

/-- Why a read makes its cell run again. -/
theorem why {ops : List (Op K)} {prev : Nat} {a : Store K} {s : St K} (hf : Facts (ops ++ [.cleanup] ++ [.run { prev := prev, body := [[a]] }]) s)
    (hcasc : ∀ ctr p, cascAt s ctr p = false) (hupd : ∀ p, s.upd p = false) (hupdDeep : ∀ p, s.updDeep p = false)
    (hdl : ∀ p, s.updDeepLast p = true → Marked a.target p) (hul : ∀ p, s.updLast p = true → ∃ m, Marked a.target m ∧ p <+: m)
    {r pre post : List (K × Marks)} {k : K} {mk : Marks} {ctr least : Nat} (hcur : Current ops ctr r) (hp : names pre ++ [k] <+: names r)
    (hmarks : (readAt pre k mk post).marks.reactive = true → ∃ n, Marked r n ∧ n <+: names pre ++ [k])
    (hnc : (readAt pre k mk post).marks.cascading = false) (hcl : counts s ctr least (readAt pre k mk post) = true) :
    ((readAt pre k mk post).marks.reactive = true ∧ Touch (names a.target) (names pre ++ [k])) ∨ Marked a.target (names pre ++ [k]) ∨
      (post = [] ∧ ∃ m, Marked a.target m ∧ names pre ++ [k] <+: m) := by
  simp only [counts, Bool.and_eq_true, Bool.not_eq_true', decide_eq_true_eq] at hcl
  obtain ⟨⟨hb, hwhy⟩, htime⟩ := hcl
  have hsym : (readAt pre k mk post).sym = names pre ++ [k] := rfl
  have hre : reactive s ctr (readAt pre k mk post) = true ↔
      (readAt pre k mk post).marks.reactive = true ∨ s.updDeepLast (names pre ++ [k]) = true := by
    simp [reactive, hb, cascading, hcasc, hnc, hupdDeep, hsym]
  by_cases hm : (readAt pre k mk post).marks.reactive = true
  · left
    refine ⟨hm, ?_⟩
    have hr : reactive s ctr (readAt pre k mk post) = true := hre.mpr (.inl hm)
    simp only [time, hr, Bool.true_or, if_true, hsym] at htime
    rcases stamp_source hf (p := names pre ++ [k]) (c := ctr) (by omega) with ⟨e, he, he1, he2⟩ | h
    · rw [log_cleanup] at he
      obtain ⟨n, hn, hnp⟩ := hmarks hm
      exact absurd (touch_left he2 hnp) (hcur e he he1 n (.inr hn))
    · exact h
  by_cases hd : s.updDeepLast (names pre ++ [k]) = true
  · exact .inr (.inl (hdl _ hd))
  have hr : reactive s ctr (readAt pre k mk post) = false := by
    rw [Bool.eq_false_iff]
    intro h
    exact (hre.mp h).elim hm hd
  simp only [hr, hsym, hupd, Bool.false_or] at hwhy
  obtain ⟨m, hmk, hpm⟩ := hul _ hwhy
  by_cases hpost : post = []
  · exact .inr (.inr ⟨hpost, m, hmk, hpm⟩)
  · have hlast : (readAt pre k mk post).last = false := by cases post <;> simp_all [readAt]
    simp only [time, hr, hlast, Bool.or_self, Bool.false_eq_true, if_false, hsym] at htime
    rcases own_source hf (p := names pre ++ [k]) (c := ctr) (by omega) with ⟨e, he, he1, he2⟩ | h
    · rw [log_cleanup] at he
      exact absurd (.inl (he2.trans hp)) (hcur e he he1 _ (.inl rfl))
    · have : names pre ++ [k] = m := by
        have h1 : names pre ++ [k] <+: a.path := hpm.trans (marked_prefix hmk).1
        have h2 : a.path <+: names pre ++ [k] := h
        have h3 : a.path = names pre ++ [k] := h2.eq_of_length_le h1.length_le
        have h4 : m <+: names pre ++ [k] := by rw [← h3]; exact (marked_prefix hmk).1
        exact hpm.eq_of_length_le h4.length_le
      rw [← this] at hmk
      exact .inr (.inl hmk)

theorem readAt_reactive {pre post : List (K × Marks)} {k : K} {mk : Marks} :
    (readAt pre k mk post).marks.reactive = true ↔ ∃ e ∈ pre ++ [(k, mk)], e.2.reactive = true := by
  show (turn (seenAfter v0 pre) mk).2.reactive = true ↔ _
  rw [turn_reactive (seenAfter_blocking rfl pre), Bool.or_eq_true, seenAfter_reactive]
  constructor
  · rintro ((h | ⟨e, he, h⟩) | h)
    · cases h
    · exact ⟨e, by simp [he], h⟩
    · exact ⟨(k, mk), by simp, h⟩
  · rintro ⟨e, he, h⟩
    rcases List.mem_append.mp he with he | he
    · exact .inl (.inr ⟨e, he, h⟩)
    · rw [List.mem_singleton.mp he] at h; exact .inr h

theorem readAt_cascading {pre post : List (K × Marks)} {k : K} {mk : Marks} (h : Narrow (pre ++ [(k, mk)])) :
    (readAt pre k mk post).marks.cascading = false := by
  show (turn (seenAfter v0 pre) mk).2.cascading = false
  rw [turn_cascading (seenAfter_blocking rfl pre), Bool.or_eq_false_iff]
  refine ⟨?_, h (k, mk) (by simp)⟩
  rw [Bool.eq_false_iff]
  intro hc
  rcases (seenAfter_cascading v0 pre).mp hc with hc | ⟨e, he, hc⟩
  · cases hc
  · rw [h e (by simp [he])] at hc; cases hc

/-- **Exactly these cells.** After a cell of one assignment without `$$` and `$:`, when nothing was left to be run again before it, a cell that had seen
all that it listens to has to be run again if and only if it listens with `$` to something that the assignment touches, or the assignment marks with
`$` something that touches what the cell reads.

Missing: cells of several assignments (`wider_than_marked`), `$$` (`sibling_forced`). -/
theorem exact_partial (ops : List (Op K)) (prev : Nat) {a : Store K} (hn : Narrow a.target) (ho : Open a.target) (hv : a.rval = false)
    {r : List (K × Marks)} (hr : Open r) (hrn : Narrow r) (hne : r ≠ []) {ctr least : Nat} (hcur : Current ops ctr r) (hctr : ctr ≤ count ops)
    (hleast : least ≤ count ops) :
    forced (after (ops ++ [.cleanup] ++ [.run { prev := prev, body := [[a]] }])) ctr least r = true ↔
      (∃ n, Marked r n ∧ Touch (names a.target) n) ∨ (∃ m, Marked a.target m ∧ Touch m (names r)) := by
  have hcount : count (ops ++ [.cleanup]) = count ops := by rw [count_append]; simp [count]
  constructor
  · obtain ⟨s, hs, hf, -, hcasc, -, -, hupd, hupdDeep, hdl, hul, -⟩ := one_state ops prev a
    rw [hs]
    intro h
    unfold forced at h
    rw [List.any_eq_true] at h
    obtain ⟨l, hl, hcl⟩ := h
    have hb : blocking s l = false := by
      simp only [counts, Bool.and_eq_true, Bool.not_eq_true'] at hcl
      exact hcl.1.1
    obtain ⟨pre, k, mk, post, rfl, rfl, -⟩ := reads_elim hl hb
    have hpre : names pre ++ [k] <+: names (pre ++ (k, mk) :: post) := readAt_prefix _ _ _ _
    have hmarks : (readAt pre k mk post).marks.reactive = true → ∃ n, Marked (pre ++ (k, mk) :: post) n ∧ n <+: names pre ++ [k] := by
      intro h
      obtain ⟨e, he, h⟩ := readAt_reactive.mp h
      obtain ⟨p1, p2, hp⟩ := List.append_of_mem he
      have he' : pre ++ (k, mk) :: post = p1 ++ e :: (p2 ++ post) := by
        have : pre ++ (k, mk) :: post = (pre ++ [(k, mk)]) ++ post := by simp
        rw [this, hp]; simp
      refine ⟨names p1 ++ [e.1], ⟨p1, e.1, e.2, p2 ++ post, he', rfl, .inl h, ?_⟩, ?_⟩
      · rw [he'] at hr
        exact (open_append.mp hr).2
      · have : names pre ++ [k] = names (pre ++ [(k, mk)]) := by simp [names]
        rw [this, hp]
        exact readAt_prefix p1 e.1 e.2 p2
    have hnc : (readAt pre k mk post).marks.cascading = false := by
      refine readAt_cascading (fun e he => hrn e ?_)
      rcases List.mem_append.mp he with he | he
      · exact List.mem_append_left _ he
      · rw [List.mem_singleton.mp he]; simp
    rcases why hf (fun ctr p => hcasc ctr p (.inr ⟨hv, hn⟩)) (hupd hn) (hupdDeep hn) hdl hul hcur hpre hmarks hnc hcl with ⟨h1, h2⟩ | h | ⟨rfl, m, h, hm⟩
    · obtain ⟨n, hn', hnp⟩ := hmarks h1
      exact .inl ⟨n, hn', touch_left h2 hnp⟩
    · exact .inr ⟨_, h, .inl hpre⟩
    · refine .inr ⟨m, h, .inr ?_⟩
      have : names (pre ++ [(k, mk)]) = names pre ++ [k] := by simp [names]
      rw [this]; exact hm
  · rintro (⟨n, ⟨pre, k, mk, post, rfl, rfl, hl, -⟩, ht⟩ | ⟨m, hm, ht⟩)
    · have hr' : Open (pre ++ [(k, mk)]) := by
        rw [open_append] at hr ⊢
        exact ⟨hr.1, open_cons.mpr ⟨(open_cons.mp hr.2).1, by simp [Open]⟩⟩
      exact read_reaches_partial (ops ++ [.cleanup]) { prev := prev, body := [[a]] } (a := a) (by simp) (by simpa using ho) hl hr' ht
        (by rw [hcount]; exact hctr) (by rw [hcount]; exact hleast)
    · exact store_reaches_partial (ops ++ [.cleanup]) { prev := prev, body := [[a]] } (l1 := []) (l2 := []) (by simp) (by simpa using ho) hm (.inl hn)
        hr hne ht (by rw [hcount]; exact hctr) (by rw [hcount]; exact hleast)

/-- **A read with `$:` before a part listens to nothing of this part.** As above, for a read that has a `$:`, and no other mark left of it: only what the
assignment marks with `$` left of this part counts.

Missing: a `$` left of the `$:` (`block_lost`). -/
theorem blocked_read_partial (ops : List (Op K)) (prev : Nat) {a : Store K} (hn : Narrow a.target) (ho : Open a.target) (hv : a.rval = false)
    {l rest : List (K × Marks)} {k : K} (hl : ∀ e ∈ l, e.2 = {}) {ctr least : Nat}
    (hcur : Current ops ctr (l ++ (k, { blocking := true }) :: rest)) (hctr : ctr ≤ count ops) (hleast : least ≤ count ops) :
    forced (after (ops ++ [.cleanup] ++ [.run { prev := prev, body := [[a]] }])) ctr least (l ++ (k, { blocking := true }) :: rest) = true ↔
      ∃ m, Marked a.target m ∧ m <+: names l := by
  obtain ⟨s, hs, hf, hcf, hcasc, -, -, hupd, hupdDeep, hdl, hul, -⟩ := one_state ops prev a
  have hset := run_setFacts (after (ops ++ [.cleanup])) { prev := prev, body := [[a]] } [] a [] (by simp) ho
  rw [← after_append, hs] at hset
  have hcount : (after (ops ++ [.cleanup])).ctr = count ops := by rw [(facts_after _).ctr, count_append]; simp [count]
  rw [hs]
  constructor
  · intro h
    unfold forced at h
    rw [List.any_eq_true] at h
    obtain ⟨x, hx, hcl⟩ := h
    have hb : blocking s x = false := by
      simp only [counts, Bool.and_eq_true, Bool.not_eq_true'] at hcl
      exact hcl.1.1
    obtain ⟨pre, k', mk, post, he, rfl, hbl⟩ := reads_elim hx hb
    have hseen : ∀ v : Seen, (seenAfter v l).reactiveSeen = v.reactiveSeen ∧ (seenAfter v l).cascadingSeen = v.cascadingSeen := by
      intro v
      constructor
      · rw [Bool.eq_iff_iff, seenAfter_reactive]
        exact ⟨fun h => h.elim id (fun ⟨e, he, h⟩ => by rw [hl e he] at h; cases h), .inl⟩
      · rw [Bool.eq_iff_iff, seenAfter_cascading]
        exact ⟨fun h => h.elim id (fun ⟨e, he, h⟩ => by rw [hl e he] at h; cases h), .inl⟩
    have hstop : ∀ post' b, blocking s { readAt l k { blocking := true } post' with last := b } = true := by
      intro post' b
      have : (turn (seenAfter v0 l) { blocking := true }).2.blocking = true :=
        turn_stops (seenAfter_blocking rfl l) (hseen v0).1 (hseen v0).2 rfl rfl rfl
      simp [blocking, readAt, this]
    have hlen : pre.length < l.length := by
      rcases Nat.lt_trichotomy pre.length l.length with h | h | h
      · exact h
      · obtain ⟨rfl, h2⟩ := List.append_inj he.symm h
        simp only [List.cons.injEq, Prod.mk.injEq] at h2
        obtain ⟨⟨rfl, rfl⟩, -⟩ := h2
        have := hstop post post.isEmpty
        rw [show ({ readAt pre k' { blocking := true } post with last := post.isEmpty } : Read K) = readAt pre k' { blocking := true } post from rfl] at this
        rw [this] at hb; cases hb
      · have hpp : l ++ [(k, ({ blocking := true } : Marks))] <+: pre := by
          have h1 : l ++ [(k, ({ blocking := true } : Marks))] <+: l ++ (k, { blocking := true }) :: rest := by simp
          have h2 : pre <+: l ++ (k, { blocking := true }) :: rest := by rw [he]; simp
          exact List.prefix_of_prefix_length_le h1 h2 (by simp; omega)
        obtain ⟨p2, hp2⟩ := hpp
        have := hbl l k { blocking := true } p2 (by rw [← hp2]; simp) true
        rw [hstop] at this; cases this
    obtain ⟨l', rfl⟩ : ∃ l', l = pre ++ (k', mk) :: l' := by
      have h1 : l <+: l ++ (k, { blocking := true }) :: rest := by simp
      have h2 : pre ++ [(k', mk)] <+: l ++ (k, { blocking := true }) :: rest := by rw [he]; simp
      obtain ⟨l', h3⟩ := List.prefix_of_prefix_length_le h2 h1 (by simp; omega)
      exact ⟨l', by rw [← h3]; simp⟩
    have hpl : names pre ++ [k'] <+: names (pre ++ (k', mk) :: l') := readAt_prefix _ _ _ _
    have hnone : ¬ (readAt pre k' mk post).marks.reactive = true := by
      intro h
      obtain ⟨e, he, h⟩ := readAt_reactive.mp h
      have : e ∈ pre ++ (k', mk) :: l' := by
        rcases List.mem_append.mp he with he | he
        · exact List.mem_append_left _ he
        · rw [List.mem_singleton.mp he]; simp
      rw [hl e this] at h; cases h
    have hnc : (readAt pre k' mk post).marks.cascading = false := by
      refine readAt_cascading (fun e he => ?_)
      have : e ∈ pre ++ (k', mk) :: l' := by
        rcases List.mem_append.mp he with he | he
        · exact List.mem_append_left _ he
        · rw [List.mem_singleton.mp he]; simp
      rw [hl e this]
    have hpost : post ≠ [] := by
      rintro rfl
      have := congrArg List.length he
      simp at this
    rcases why hf (fun ctr p => hcasc ctr p (.inr ⟨hv, hn⟩)) (hupd hn) (hupdDeep hn) hdl hul hcur
        (hpl.trans (by rw [names_append _ ((k, _) :: rest)]; exact List.prefix_append _ _)) (fun h => absurd h hnone) hnc hcl with ⟨h1, -⟩ | h | ⟨h, -⟩
    · exact absurd h1 hnone
    · exact ⟨_, h, hpl⟩
    · exact absurd h hpost
  · rintro ⟨m, hm, hml⟩
    obtain ⟨hmp, hmne⟩ := marked_prefix hm
    obtain ⟨pre, k', mk, post, rfl, rfl⟩ := split_names hmne hml
    have hop : Open (pre ++ [(k', mk)]) := by
      intro e he
      have : e ∈ pre ++ (k', mk) :: post := by
        rcases List.mem_append.mp he with he | he
        · exact List.mem_append_left _ he
        · rw [List.mem_singleton.mp he]; simp
      rw [hl e this]
    have := reaches_deep (facts_after _).bounded hcf (by simpa using ho) (a := a) (by simp) (post := post ++ (k, { blocking := true }) :: rest) hop
      (.inr hmp) (ctr := ctr) (least := least) (by omega) (by omega) (.inl (by simp [((hset _ hm).1 hn).1]))
    simpa using this

/-- **A `$:` before all of what is read keeps the cell from being run again**, whatever happens. -/
theorem root_blocked (s : St K) (ctr least : Nat) (k : K) (rest : List (K × Marks)) : forced s ctr least ((k, { blocking := true }) :: rest) = false := by
  rw [Bool.eq_false_iff]
  intro h
  unfold forced at h
  rw [List.any_eq_true] at h
  obtain ⟨x, hx, hcl⟩ := h
  have hb : blocking s x = false := by
    simp only [counts, Bool.and_eq_true, Bool.not_eq_true'] at hcl
    exact hcl.1.1
  obtain ⟨pre, k', mk, post, he, rfl, hbl⟩ := reads_elim hx hb
  cases pre with
  | nil =>
    simp only [List.nil_append, List.cons.injEq, Prod.mk.injEq] at he
    obtain ⟨⟨rfl, rfl⟩, rfl⟩ := he
    simp [blocking, readAt, seenAfter, turn, inherit] at hb
  | cons e pre =>
    simp only [List.cons_append, List.cons.injEq] at he
    obtain ⟨rfl, rfl⟩ := he
    have := hbl [] k { blocking := true } pre rfl true
    simp [blocking, readAt, seenAfter, turn, inherit] at this

/-- **An assignment with `$:` has no cell run again.** After a cell of one assignment that has a `$:` somewhere in its target, whatever its other marks,
when nothing was left to be run again before it, no cell that had seen all that it listens to has to be run again, even if it reads with `$` what was
assigned to.

Missing: cells of several assignments, where it may hide too much (`block_hides`) or nothing (`late_block`). -/
theorem blocked_store_partial (ops : List (Op K)) (prev : Nat) {a : Store K} (hb : ¬ Open a.target) {r : List (K × Marks)} (hr : Open r)
    {ctr least : Nat} (hcur : Current ops ctr r) (hrn : Narrow r) :
    forced (after (ops ++ [.cleanup] ++ [.run { prev := prev, body := [[a]] }])) ctr least r = false := by
  obtain ⟨s, hs, hf, hcf, hcasc, hupd, hupdDeep, -, -, hdl, hul, hroot⟩ := one_state ops prev a
  rw [hs, Bool.eq_false_iff]
  intro h
  unfold forced at h
  rw [List.any_eq_true] at h
  obtain ⟨x, hx, hcl⟩ := h
  simp only [counts, Bool.and_eq_true, Bool.not_eq_true', decide_eq_true_eq] at hcl
  obtain ⟨⟨hbx, hwhy⟩, htime⟩ := hcl
  obtain ⟨pre, k, mk, post, rfl, rfl, hbl⟩ := reads_elim hx hbx
  have hpre : names pre ++ [k] <+: names (pre ++ (k, mk) :: post) := readAt_prefix _ _ _ _
  have hane : a.target ≠ [] := fun h => hb (by rw [h]; simp [Open])
  obtain ⟨k0, hk0⟩ : ∃ k0, (names a.target).head? = some k0 := by
    cases ht : a.target with
    | nil => exact absurd ht hane
    | cons e t => exact ⟨e.1, by simp [names]⟩
  have hsym : (readAt pre k mk post).sym = names pre ++ [k] := rfl
  have hhead : (names pre ++ [k]).head? ≠ some k0 := by
    intro hh
    have hbr := hroot hb k0 hk0
    have hle : stamp s [k0] ≤ s.ctr := by
      have h1 := hcf.bounded.own [k0]
      have h2 := hcf.bounded.below [k0]
      unfold stamp; omega
    cases pre with
    | nil =>
      obtain rfl : k = k0 := by simpa [names] using hh
      have : blocking s (readAt [] k mk post) = true := by
        have : s.blocked (readAt [] k mk post).sym ≥ stamp s (readAt [] k mk post).sym := by
          show s.blocked [k] ≥ stamp s [k]
          omega
        simp [blocking, this]
      rw [this] at hbx; cases hbx
    | cons e pre =>
      obtain rfl : e.1 = k0 := by simpa [names] using hh
      have h1 := hbl [] e.1 e.2 pre rfl true
      have : blocking s { readAt [] e.1 e.2 pre with last := true } = true := by
        have : s.blocked [e.1] ≥ stamp s [e.1] := by omega
        simp [blocking, readAt, names, this]
      rw [this] at h1; cases h1
  have hne : names pre ++ [k] ≠ [] := by simp
  have hat : ∀ n : Path K, n.head? = (names pre ++ [k]).head? → n ≠ [] → ¬ Touch a.path n := by
    intro n hn hnne ht
    have : (names a.target).head? = n.head? := by
      have hpne : a.path ≠ [] := by simpa [path_eq, names] using hane
      rcases ht with h | h
      · obtain ⟨u, hu⟩ := h
        rw [← hu, ← path_eq]
        cases hq : a.path with
        | nil => exact absurd hq hpne
        | cons y ys => simp
      · obtain ⟨u, hu⟩ := h
        rw [← path_eq, ← hu]
        cases hq : n with
        | nil => exact absurd hq hnne
        | cons y ys => simp
    rw [hk0, hn] at this
    exact hhead this.symm
  have hmark : ∀ m, Marked a.target m → (names pre ++ [k]) <+: m → False := by
    intro m hm hpm
    exact hat _ rfl hne (.inr (hpm.trans (marked_prefix hm).1))
  have hc : cascAt s ctr (names pre ++ [k]) = false := hcasc ctr _ (.inl (by rw [hk0]; exact hhead))
  have hud : s.updDeep (names pre ++ [k]) = false := by
    rw [Bool.eq_false_iff]; intro h; exact hhead ((hupdDeep _ h).trans hk0)
  have hu : s.upd (names pre ++ [k]) = false := by
    rw [Bool.eq_false_iff]; intro h; exact hhead ((hupd _ h).trans hk0)
  have hudl : s.updDeepLast (names pre ++ [k]) = false := by
    rw [Bool.eq_false_iff]; intro h; exact hmark _ (hdl _ h) List.prefix_rfl
  have hul' : s.updLast (names pre ++ [k]) = false := by
    rw [Bool.eq_false_iff]; intro h
    obtain ⟨m, hm, hpm⟩ := hul _ h
    exact hmark m hm hpm
  have hnc : (readAt pre k mk post).marks.cascading = false := by
    refine readAt_cascading (fun e he => hrn e ?_)
    rcases List.mem_append.mp he with he | he
    · exact List.mem_append_left _ he
    · rw [List.mem_singleton.mp he]; simp
  have hre : (readAt pre k mk post).marks.reactive = true := by
    simpa [reactive, hbx, cascading, hnc, hsym, hc, hud, hu, hudl, hul'] using hwhy
  obtain ⟨e, he, h⟩ := readAt_reactive.mp hre
  obtain ⟨p1, p2, hp⟩ := List.append_of_mem he
  have he' : pre ++ (k, mk) :: post = p1 ++ e :: (p2 ++ post) := by
    have : pre ++ (k, mk) :: post = (pre ++ [(k, mk)]) ++ post := by simp
    rw [this, hp]; simp
  have hnp : names p1 ++ [e.1] <+: names pre ++ [k] := by
    have : names pre ++ [k] = names (pre ++ [(k, mk)]) := by simp [names]
    rw [this, hp]
    exact readAt_prefix p1 e.1 e.2 p2
  have hheard : Marked (pre ++ (k, mk) :: post) (names p1 ++ [e.1]) := by
    refine ⟨p1, e.1, e.2, p2 ++ post, he', rfl, .inl h, ?_⟩
    rw [he'] at hr
    exact (open_append.mp hr).2
  have hst : stamp s (names pre ++ [k]) > ctr := by
    unfold time at htime
    rw [hsym] at htime
    unfold stamp at htime ⊢
    split at htime <;> omega
  rcases stamp_source hf hst with ⟨e', he', h1, h2⟩ | h
  · rw [log_cleanup] at he'
    exact hcur e' he' h1 _ (.inr hheard) (touch_left h2 hnp)
  · exact hat _ rfl hne h

/-- **A `$:` in an assignment silences all that read the variable**: in a cell of any statements, if what is assigned to is a variable, or within it, that no statement
before has assigned to, no cell that reads the variable or a part of it has to be run again after the cell, whatever marks there are anywhere, and whatever the cell
assigns later.

Missing: if an earlier statement of the cell has assigned to it the `$:` does nothing (`late_block`). -/
theorem blocked_variable_partial (ops : List (Op K)) (c : Cell K) {pre post : List (List (Store K))} {as1 as2 : List (Store K)} {a : Store K}
    (hc : c.body = pre ++ (as1 ++ a :: as2) :: post) (hb : ¬ Open a.target) {k : K} (hk : (names a.target).head? = some k)
    (hp : ∀ b ∈ pre.flatten, (names b.target).head? ≠ some k) (ctr least : Nat) (m : Marks) (rest : List (K × Marks)) :
    forced (after (ops ++ [.run c])) ctr least ((k, m) :: rest) = false := by
  have hbl : (after (ops ++ [.run c])).blocked [k] = (after (ops ++ [.run c])).ctr := by
    rw [after_append]
    show (c.body.foldl (stmt c.prev) (start (after ops))).blocked [k] = (c.body.foldl (stmt c.prev) (start (after ops))).ctr
    rw [hc, List.foldl_append, List.foldl_cons]
    have hd := stmts_done (prev := c.prev) pre (start (after ops)) hp rfl rfl
    generalize pre.foldl (stmt c.prev) (start (after ops)) = s at hd
    have hd1 : (as1.foldl (store c.prev) s).done [k] = false := by rw [stores_done]; exact hd
    have hs : ((as1 ++ a :: as2).foldl (store c.prev) s).blocked [k] = ((as1 ++ a :: as2).foldl (store c.prev) s).ctr := by
      rw [List.foldl_append, List.foldl_cons]
      generalize as1.foldl (store c.prev) s = s1 at hd1
      have hst : (store c.prev s1 a).blocked [k] = (store c.prev s1 a).ctr := by
        have hu := update_fixed s1 c.prev a
        rw [(store_fixed s1 c.prev a).1, store_eq]
        cases ht : a.target with
        | nil => rw [ht] at hk; simp [names] at hk
        | cons e t =>
          obtain ⟨k', m'⟩ := e
          rw [ht] at hb hk
          obtain rfl : k' = k := by simpa [names] using hk
          rw [markR_blocked_root (update s1 c.prev a) hb (by rw [hu.2.2.2.1]; exact hd1), hu.1]
      obtain ⟨h1, h2⟩ := stores_blocked_keep (prev := c.prev) (p := [k]) as2 _ hst
      rw [h1, h2]
    obtain ⟨h1, h2⟩ := stmts_blocked_keep (prev := c.prev) (p := [k]) post (stmt c.prev s (as1 ++ a :: as2)) hs
    rw [h1, h2]
  have hbd := (facts_after (ops ++ [.run c])).bounded
  generalize after (ops ++ [.run c]) = s at hbl hbd
  have hle : stamp s [k] ≤ s.blocked [k] := by
    have h1 := hbd.own [k]
    have h2 := hbd.below [k]
    unfold stamp; omega
  rw [Bool.eq_false_iff]
  intro h
  unfold forced at h
  rw [List.any_eq_true] at h
  obtain ⟨x, hx, hcl⟩ := h
  have hbx : blocking s x = false := by
    simp only [counts, Bool.and_eq_true, Bool.not_eq_true'] at hcl
    exact hcl.1.1
  obtain ⟨pre, k', mk, post, he, rfl, hbf⟩ := reads_elim hx hbx
  cases pre with
  | nil =>
    simp only [List.nil_append, List.cons.injEq, Prod.mk.injEq] at he
    obtain ⟨⟨rfl, rfl⟩, rfl⟩ := he
    simp [blocking, readAt, names, hle] at hbx
  | cons e pre =>
    simp only [List.cons_append, List.cons.injEq] at he
    obtain ⟨rfl, rfl⟩ := he
    have := hbf [] k m pre rfl true
    simp [blocking, readAt, names, hle] at this

/-- `w = 1; x.$:y = 2; $x = 3`, and a cell that reads `$x.z`. -/
example : forced (after (K := Nat) ([] ++ [.run { body := [[{ target := [(0, {})], deps := [] }],
      [{ target := [(1, {}), (2, { blocking := true })], deps := [] }], [{ target := [(1, { reactive := true })], deps := [] }]] }])) 0 0
      ((1, { reactive := true }) :: [(3, {})]) = false :=
  blocked_variable_partial [] _ (pre := [[{ target := [(0, {})], deps := [] }]]) (post := [[{ target := [(1, { reactive := true })], deps := [] }]]) (as1 := []) (as2 := [])
    rfl (by simp [Open]) rfl (by simp [names]) 0 0 { reactive := true } [(3, {})]

/-! ## Cascades -/

theorem getD_set (l : List (Path K × Nat)) (p q : Path K) (v : Nat) : (get (set l p v) q).getD 0 = if q = p then v else (get l q).getD 0 := by
  rw [get_set]; split <;> rfl

theorem markR_casc_ge (s : St K) (t : List (K × Marks)) (q : Path K) : ∀ before : Path K, (get s.casc q).getD 0 ≤ (get (markR s before t).1.casc q).getD 0 := by
  induction t with
  | nil => intro before; exact Nat.le_refl _
  | cons e t ih =>
    intro before
    obtain ⟨k, m⟩ := e
    have := ih (before ++ [k])
    simp only [markR, mark_casc]
    split
    · rw [getD_set]
      split
      next h => subst h; omega
      · exact this
    · exact this

theorem markR_casc_at (s : St K) (t : List (K × Marks)) (q : Path K) : ∀ (before : Path K) mk post, At before t q mk post → mk.cascading = true →
    mk.blocking = false → Open post → s.ctr ≤ (get (markR s before t).1.casc q).getD 0 := by
  induction t with
  | nil => intro before mk post h; exact absurd h at_nil
  | cons e t ih =>
    intro before mk post h hc hb ho
    obtain ⟨k, m⟩ := e
    have hctr := (markR_fixed s t (before ++ [k])).1
    rcases at_cons.mp h with ⟨rfl, rfl, rfl⟩ | h
    · simp only [markR, mark_casc]
      rw [(markR_blockingVar s post _).mpr ho, hc, hb]
      simp only [Bool.or_self, Bool.not_false, Bool.and_self, if_true, getD_set]
      rw [hctr]
      omega
    · have := ih _ mk post h hc hb ho
      simp only [markR, mark_casc]
      split
      · rw [getD_set]
        split
        next h => subst h; omega
        · exact this
      · exact this

/-- The assignment starts or passes on a cascade. -/
theorem store_hot {prev : Nat} {s : St K} {a : Store K} (h : hot s prev a = true ∨ MarkedWide a.target (names a.target)) :
    s.ctr ≤ (get (store prev s a).casc a.path).getD 0 := by
  rw [store_eq]
  rcases h with h | ⟨pre, k, mk, post, ht, hp, hc, ho⟩
  · refine Nat.le_trans ?_ (markR_casc_ge _ _ _ _)
    rw [(update_fixed s prev a).2.2.2.2.2.2.2.2.2.2, if_pos h]
    show _ ≤ (get (set _ _ _) _).getD 0
    rw [getD_set, if_pos rfl, (clear_fixed s a).1]
    omega
  · obtain ⟨hb, ho⟩ := open_cons.mp ho
    have := markR_casc_at (update s prev a) a.target a.path [] mk post ⟨pre, k, ht, by rw [path_eq, hp]; simp⟩ hc hb ho
    rwa [(update_fixed s prev a).1] at this

/-- The last cell assigned to `t`, in a cascade that began after execution `n`. -/
structure InCascade (n : Nat) (t : Path K) (s : St K) : Prop where
  facts : ∃ s0 a, Bounded s0 ∧ CellFacts s0 [a] s ∧ Open a.target ∧ names a.target = t ∧ n ≤ s0.ctr
  minCasc : s.minCasc ≤ n
  hot : n < (get s.casc t).getD 0

theorem run_one_facts {s0 : St K} (h : Bounded s0) (prev : Nat) (a : Store K) : CellFacts s0 [a] (step s0 (.run { prev := prev, body := [[a]] })) :=
  run_facts h { prev := prev, body := [[a]] }

theorem cascade_step {n : Nat} {t : Path K} {s : St K} (h : InCascade n t s) {prev : Nat} {a : Store K} (hprev : prev ≤ n) (hd : t ∈ a.deps)
    (hne : names a.target ≠ t) (ho : Open a.target) : InCascade n (names a.target) (step s (.run { prev := prev, body := [[a]] })) := by
  obtain ⟨s0, a0, hb0, hf0, -, -, hn0⟩ := h.facts
  have f := run_one_facts hf0.bounded prev a
  refine ⟨⟨s, a, hf0.bounded, f, ho, rfl, by rw [hf0.ctr]; omega⟩, by rw [f.minCasc]; exact h.minCasc, ?_⟩
  have hhot : hot (start s) prev a = true := by
    unfold hot
    rw [Bool.or_eq_true]
    right
    rw [List.any_eq_true]
    refine ⟨t, by simpa using ⟨hd, fun h => hne h.symm⟩, ?_⟩
    unfold cascAt
    rw [decide_eq_true_eq, cascNum_gt]
    have hg : get (clear (start s) a).casc t = get s.casc t := by
      unfold clear
      split
      · show get (set s.casc a.path 0) t = _
        rw [get_set, if_neg (fun h => hne h.symm)]
      · rfl
    have hm : (clear (start s) a).minCasc = s.minCasc := (clear_fixed (start s) a).2.2.2.2.2.1
    cases hv : get s.casc t with
    | none => have := h.hot; rw [hv] at this; simp at this
    | some v =>
      have h1 := h.hot
      have h2 := h.minCasc
      rw [hv] at h1
      simp only [Option.getD_some] at h1
      exact ⟨(t, v), mem_of_get (hg.trans hv), rfl, by rw [hm]; show v > _; omega⟩
  have := store_hot (s := start s) (.inl hhot)
  have hc : (start s).ctr = s.ctr + 1 := rfl
  rw [hc, hf0.ctr] at this
  exact Nat.lt_of_lt_of_le (by omega) this

theorem cascade_end {n : Nat} {t : Path K} {s : St K} (h : InCascade n t s) (ht : t ≠ []) {r : List (K × Marks)} (hr : Open r) (hne : r ≠ [])
    (htr : Touch t (names r)) {ctr least : Nat} (hctr : ctr ≤ n) (hleast : least ≤ n) :
    forced s ctr least r = true ∧ forcedCasc s ctr least r = true := by
  obtain ⟨s0, a, hb0, hf, ho, rfl, hn⟩ := h.facts
  obtain ⟨pre, e, rfl⟩ := (List.eq_nil_or_concat r).resolve_left hne
  obtain ⟨k, m⟩ := e
  rw [List.concat_eq_append] at *
  have hnm : names (pre ++ [(k, m)]) = names pre ++ [k] := by simp [names]
  rw [hnm] at htr
  obtain ⟨h1, h2⟩ := reads_intro (post := []) hr (unblocked hb0 hf (by simpa using ho) (a := a) (by simp) htr)
  have hs : stamp s (readAt pre k m []).sym = s0.ctr + 1 := stamp_touched hf (a := a) (by simp) htr
  have hhead : (names a.target).head? = (names pre ++ [k]).head? := by
    rcases htr with ⟨u, hu⟩ | ⟨u, hu⟩
    · rw [← hu]
      cases hq : names a.target with
      | nil => exact absurd hq ht
      | cons y ys => simp
    · rw [← hu]
      cases names pre <;> simp
  have hc : cascading s ctr (readAt pre k m []) = true := by
    unfold cascading cascAt
    rw [Bool.or_eq_true]
    right
    rw [decide_eq_true_eq, cascNum_gt]
    have h3 := h.hot
    have h4 := h.minCasc
    cases hv : get s.casc (names a.target) with
    | none => rw [hv] at h3; simp at h3
    | some v =>
      rw [hv] at h3
      simp only [Option.getD_some] at h3
      exact ⟨_, mem_of_get hv, hhead, by show v > _; omega⟩
  have hre : reactive s ctr (readAt pre k m []) = true := by simp [reactive, h2, hc]
  constructor
  · unfold forced
    rw [List.any_eq_true]
    refine ⟨_, h1, ?_⟩
    simp only [counts, h2, hre, time, Bool.true_or, if_true, hs, Bool.not_false, Bool.true_and, decide_eq_true_eq]
    omega
  · unfold forcedCasc
    rw [List.any_eq_true]
    refine ⟨_, h1, ?_⟩
    simp only [h2, hc, hre, time, Bool.true_or, if_true, hs, Bool.not_false, Bool.true_and, decide_eq_true_eq]
    omega

/-- **A `$$` goes on to all that depends on it.** An assignment marked `$$`, or of a value computed with a `$$` read, has the cells that read what was
assigned to run again, and the cells that read what those assign, and so on: after any number of cells, each of them an assignment of something computed
from what the one before assigned, a cell that reads what the last one assigned has to be run again, without any mark in any of these cells but the
first; and it has to be run again as part of the cascade.

Missing: cells of several assignments; a `$$` on a part of the path left of the last, when a later cell of the cascade assigns to this part
(`cascade_broken`). -/
theorem cascade_partial (ops : List (Op K)) {prev : Nat} {a : Store K} (ha : a.rval = true ∨ MarkedWide a.target (names a.target)) (ho : Open a.target)
    {l : List (Nat × Store K)} (hl : Linked (count ops) (names a.target) l) (hf : final (names a.target) l ≠ []) {r : List (K × Marks)} (hr : Open r)
    (hne : r ≠ []) (ht : Touch (final (names a.target) l) (names r)) {ctr least : Nat} (hctr : ctr ≤ count ops) (hleast : least ≤ count ops) :
    forced (after (ops ++ runs ((prev, a) :: l))) ctr least r = true ∧ forcedCasc (after (ops ++ runs ((prev, a) :: l))) ctr least r = true := by
  have h0 := facts_after ops
  have f := run_one_facts h0.bounded prev a
  have start0 : InCascade (count ops) (names a.target) (step (after ops) (.run { prev := prev, body := [[a]] })) := by
    refine ⟨⟨after ops, a, h0.bounded, f, ho, rfl, by rw [h0.ctr]; exact Nat.le_refl _⟩, ?_, ?_⟩
    · rw [f.minCasc, ← h0.ctr]; exact h0.bounded.minCasc
    · have := store_hot (s := start (after ops)) (prev := prev) (a := a) (ha.imp (fun h => by simp [hot, h]) id)
      have hc : (start (after ops)).ctr = (after ops).ctr + 1 := rfl
      rw [hc, h0.ctr] at this
      exact this
  have go : ∀ (l : List (Nat × Store K)) (t : Path K) (s : St K), InCascade (count ops) t s → Linked (count ops) t l →
      InCascade (count ops) (final t l) ((runs l).foldl step s) := by
    intro l
    induction l with
    | nil => intro t s h _; exact h
    | cons e l ih =>
      obtain ⟨p, b⟩ := e
      intro t s h hl
      obtain ⟨h1, h2, h3, h4, h5⟩ := hl
      exact ih _ _ (cascade_step h h1 h2 h3 h4) h5
  have hfin := go l _ _ start0 hl
  have he : after (ops ++ runs ((prev, a) :: l)) = (runs l).foldl step (step (after ops) (.run { prev := prev, body := [[a]] })) := by
    simp [after, runs, List.foldl_append]
  rw [he]
  exact cascade_end hfin hf hr hne ht hctr hleast

end Verif.React
