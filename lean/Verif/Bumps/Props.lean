import Verif.Bumps.Spec

namespace Verif.Bumps
open Spec

/-- Every pending bump belongs to a run that is under way; when nothing is under way nothing is kept of earlier answers. -/
structure Inv (s : Sys) : Prop where
  le : s.pending ≤ s.asks
  quiet : s.asks = 0 → s.forced = [] ∧ s.cascading = [] ∧ s.ready = [] ∧ s.done = []
  mode : s.lazy = true ∨ s.batch = true

theorem init_inv {l b : Bool} (h : l = true ∨ b = true) : Inv (init l b) := ⟨Nat.le_refl _, fun _ => ⟨rfl, rfl, rfl, rfl⟩, h⟩

theorem start_proper {s : Sys} {cl : List (Nat × Bool)} (h1 : cl ≠ []) (h2 : ∀ c ∈ cl, c.2 = true) : start s cl = { s with asks := s.asks + 1 } := by
  unfold start
  rw [if_neg]
  simp only [Bool.or_eq_true, List.isEmpty_iff, Bool.not_eq_true', not_or]
  refine ⟨h1, ?_⟩
  rw [Bool.not_eq_false, List.all_eq_true]
  exact h2

theorem finish_quiet (s : Sys) : (finish s).forced = [] ∧ (finish s).cascading = [] ∧ (finish s).ready = [] ∧ (finish s).done = [] := ⟨rfl, rfl, rfl, rfl⟩

theorem step_inv {s : Sys} {e : Ev} (h : Inv s) (hk : Keeps e) (hp : Proper e) : Inv (step s e) := by
  cases e with
  | run => exact ⟨Nat.le_succ_of_le h.le, fun q => absurd q (Nat.succ_ne_zero _), h.mode⟩
  | slice active cl =>
    obtain ⟨h1, h2, h3⟩ := hp
    have : step s (.slice active cl) = { s with pending := s.pending + 1, asks := s.asks + 1 } := by
      simp only [step, slice]
      rcases h.mode with m | m
      · simp only [m, if_true]
        rw [start_proper h2 h3]
      · simp only [m, h1, Bool.not_true, Bool.false_eq_true, if_false]
        rw [start_proper h2 h3]
        split <;> rfl
    rw [this]
    exact ⟨Nat.succ_le_succ h.le, fun q => absurd q (Nat.succ_ne_zero _), h.mode⟩
  | answer a =>
    simp only [step]
    by_cases hz : s.asks = 0
    · rw [if_pos hz]; exact h
    · rw [if_neg hz]
      have hle : s.pending - 1 ≤ s.asks - 1 := Nat.sub_le_sub_right h.le 1
      have fin : Inv (finish (take { s with asks := s.asks - 1 } a)) := ⟨hle, fun _ => finish_quiet _, hk⟩
      unfold react
      cases a.error with
      | true => exact fin
      | false =>
        simp only [Bool.false_eq_true, if_false]
        by_cases hl : (if a.batch = true then chosen (take { s with asks := s.asks - 1 } a) a else pick (take { s with asks := s.asks - 1 } a) a) = []
        · rw [if_pos hl]; exact fin
        · rw [if_neg hl]
          refine ⟨?_, fun q => absurd q (Nat.succ_ne_zero _), hk⟩
          have := h.le
          simp only [execute, take]
          omega

theorem run_inv {h : List Ev} {s : Sys} (hi : Inv s) (hk : ∀ e ∈ h, Keeps e) (hp : ∀ e ∈ h, Proper e) : Inv (run s h) := by
  induction h generalizing s with
  | nil => exact hi
  | cons e h ih =>
    exact ih (step_inv hi (hk e (List.mem_cons_self ..)) (hp e (List.mem_cons_self ..))) (fun x q => hk x (List.mem_cons_of_mem _ q)) (fun x q => hp x (List.mem_cons_of_mem _ q))

/-- A state in which nothing is under way and nothing kept. -/
structure Idle (s : Sys) : Prop where
  pending : s.pending = 0
  forced : s.forced = []
  cascading : s.cascading = []
  ready : s.ready = []
  done : s.done = []
  asks : s.asks = 0

theorem Inv.idle {s : Sys} (h : Inv s) (hq : s.asks = 0) : Idle s := by
  obtain ⟨h1, h2, h3, h4⟩ := h.quiet hq
  exact ⟨Nat.le_zero.1 (hq ▸ h.le), h1, h2, h3, h4, hq⟩

/-- What is taken from an answer when nothing was pending or kept. -/
theorem round_idle {s : Sys} (h : Idle s) (a : Answer) :
    take { ({ s with asks := s.asks + 1 } : Sys) with asks := s.asks + 1 - 1 } a =
      { s with lazy := a.lazy, batch := a.batch, forced := a.forced, cascading := a.cascading, ready := if a.lazy then [] else a.ready, done := [a.last] } := by
  obtain ⟨h1, h2, h3, h4, h5, h6⟩ := h
  cases s
  simp only at h1 h2 h3 h4 h5 h6
  subst h1 h2 h3 h4 h5 h6
  simp [take]

theorem mem_chosen {s : Sys} {a : Answer} {c : Nat} (hc : c ∈ s.forced) (hn : c < a.cells) (hd : c ∉ s.done) : c ∈ chosen s a := by
  unfold chosen
  cases a.lazy with
  | true => simp [hn, hd, isForced, hc]
  | false =>
    simp only [Bool.false_eq_true, if_false, List.mem_filter, List.mem_range]
    refine ⟨hn, ?_⟩
    simp only [List.contains_iff_mem, Bool.and_eq_true, Bool.not_eq_true', closure, List.mem_append, List.mem_filter]
    exact ⟨.inl ⟨.inl (.inr hc), by simpa using hd⟩, by simpa using hd⟩

theorem earliest_some (a : Answer) (l : List Nat) (b : Nat) : ∃ d, earliest a (some b) l = some d ∧ (d = b ∨ d ∈ l) := by
  induction l generalizing b with
  | nil => exact ⟨b, rfl, .inl rfl⟩
  | cons c l ih =>
    have hc : ∃ d, earliest a (some c) l = some d ∧ (d = b ∨ d ∈ c :: l) := by
      obtain ⟨d, h1, h2⟩ := ih c
      exact ⟨d, h1, .inr (List.mem_cons.2 h2)⟩
    have hb : ∃ d, earliest a (some b) l = some d ∧ (d = b ∨ d ∈ c :: l) := by
      obtain ⟨d, h1, h2⟩ := ih b
      exact ⟨d, h1, h2.imp_right (List.mem_cons_of_mem _)⟩
    simp only [earliest]
    cases a.count c with
    | none => exact hb
    | some m =>
      cases a.count b with
      | none => exact hb
      | some n =>
        by_cases hm : m < n
        · simp only [hm, if_true]; exact hc
        · simp only [hm, if_false]; exact hb

theorem mem_pick {s : Sys} {a : Answer} {c : Nat} (hio : a.inOrder = false) (he : eligible s a c = true) (hn : c < a.cells) : ∃ d, pick s a = [d] ∧ eligible s a d = true := by
  unfold pick
  rw [hio]
  simp only [Bool.false_eq_true, if_false]
  have hm : c ∈ (List.range a.cells).filter (eligible s a) := by simp [hn, he]
  cases hl : (List.range a.cells).filter (eligible s a) with
  | nil => rw [hl] at hm; cases hm
  | cons x l =>
    obtain ⟨d, h1, h2⟩ := earliest_some a l x
    refine ⟨d, by simp only [earliest, h1, Option.toList], ?_⟩
    have : d ∈ (List.range a.cells).filter (eligible s a) := by rw [hl]; exact List.mem_cons.2 h2
    exact (List.mem_filter.1 this).2

theorem run_append (s : Sys) (h h' : List Ev) : run s (h ++ h') = run (run s h) h' := List.foldl_append

/-- **C188** (partial): if slices were only run in other modes than the one in which cells run reactively one at a time, and with a code cell active, then after anything that the user runs when
nothing else is under way the forced cells run: all of them in batches. -/
theorem forced_run_partial (l b : Bool) (h : List Ev) (hm : l = true ∨ b = true) (hk : ∀ e ∈ h, Keeps e) (hp : ∀ e ∈ h, Proper e) (hq : (run (init l b) h).asks = 0)
    (a : Answer) (he : a.error = false) (hb : a.batch = true) :
    ∀ c ∈ a.forced, c < a.cells → c ≠ a.last → ∃ cs, (run (init l b) (h ++ [.run, .answer a])).ran = (run (init l b) h).ran ++ [cs] ∧ c ∈ cs := by
  intro c hc hn hne
  have hi := (run_inv (init_inv hm) hk hp).idle hq
  rw [run_append]
  generalize run (init l b) h = s at hi
  simp only [run, List.foldl_cons, List.foldl_nil, step, Nat.succ_ne_zero, if_false]
  rw [round_idle hi]
  have hcm : c ∈ chosen { s with lazy := a.lazy, batch := a.batch, forced := a.forced, cascading := a.cascading, ready := if a.lazy then [] else a.ready, done := [a.last] } a :=
    mem_chosen hc hn (by simpa using hne)
  unfold react
  simp only [he, hb, Bool.false_eq_true, if_false, if_true]
  rw [hb] at hcm
  rw [if_neg (List.ne_nil_of_mem hcm)]
  exact ⟨_, rfl, hcm⟩

/-- **C188** (partial): the same, one cell at a time: one of the cells that are forced or ready runs, if the order of cells does not matter. -/
theorem forced_next_partial (l b : Bool) (h : List Ev) (hm : l = true ∨ b = true) (hk : ∀ e ∈ h, Keeps e) (hp : ∀ e ∈ h, Proper e) (hq : (run (init l b) h).asks = 0)
    (a : Answer) (he : a.error = false) (hb : a.batch = false) (ho : a.inOrder = false) :
    ∀ c ∈ a.forced, c < a.cells → a.code c = true → c ≠ a.last →
      ∃ d, (run (init l b) (h ++ [.run, .answer a])).ran = (run (init l b) h).ran ++ [[d]] ∧ a.code d = true ∧ d ≠ a.last ∧ (d ∈ a.forced ∨ (a.lazy = false ∧ d ∈ a.ready)) := by
  intro c hc hn hcode hne
  have hi := (run_inv (init_inv hm) hk hp).idle hq
  rw [run_append]
  generalize run (init l b) h = s at hi
  simp only [run, List.foldl_cons, List.foldl_nil, step, Nat.succ_ne_zero, if_false]
  rw [round_idle hi]
  have hel : eligible { s with lazy := a.lazy, batch := a.batch, forced := a.forced, cascading := a.cascading, ready := if a.lazy then [] else a.ready, done := [a.last] } a c = true := by
    simp [eligible, hcode, hc, hne]
  obtain ⟨d, h1, h2⟩ := mem_pick ho hel hn
  unfold react
  rw [hb] at h1 h2
  simp only [he, hb, Bool.false_eq_true, if_false]
  rw [h1]
  simp only [List.cons_ne_nil, if_false]
  refine ⟨d, rfl, ?_⟩
  simp only [eligible, Bool.and_eq_true, Bool.not_eq_true', Bool.or_eq_true, List.contains_iff_mem] at h2
  obtain ⟨⟨h3, h4⟩, h5⟩ := h2
  refine ⟨h3, by simpa using h4, ?_⟩
  rcases h5 with h5 | ⟨h5, h6⟩
  · exact .inl h5
  · refine .inr ⟨h6, ?_⟩
    rw [h6] at h5
    simpa using h5

/-- What an answer leads to while a bump is pending and nothing but forced cells would run. -/
theorem pending_answer {s : Sys} {a : Answer} (hp : 0 < s.pending) (hr : s.ready = []) (ho : OnlyForced a) (hg : Grounded a) : react (take s a) a = finish (take s a) := by
  have hf : (take s a).forced = [] := by simp [take, Nat.ne_of_gt hp]
  have hc : (take s a).cascading = [] := by simp [take, Nat.ne_of_gt hp]
  have hre : (take s a).ready = [] := by
    rcases ho with q | q
    · simp [take, q]
    · simp [take, q, hr]
  have h1 : chosen (take s a) a = [] := by
    unfold chosen
    rw [hf, hc, hre]
    cases a.lazy with
    | true => simp [isForced, hf, hc, closure, show a.after [] = [] from hg]
    | false => simp [closure, show a.after [] = [] from hg]
  have h2 : (List.range a.cells).filter (eligible (take s a) a) = [] := by
    simp [eligible, hf, hre]
  have h3 : pick (take s a) a = [] := by
    unfold pick
    cases a.inOrder with
    | true =>
      have : ((List.range a.cells).drop (a.last + 1)).filter (eligible (take s a) a) = [] := by simp [eligible, hf, hre]
      simp only [if_true]; rw [this]; rfl
    | false => simp only [Bool.false_eq_true, if_false]; rw [h2]; rfl
  unfold react
  cases a.error with
  | true => rfl
  | false =>
    simp only [Bool.false_eq_true, if_false]
    rw [h1, h3]
    simp

/-- **C188**: when a slice is run with nothing else under way, none of the forced cells of the answer run, and the kernel is told that they are settled. -/
theorem slice_only (l b : Bool) (h : List Ev) (hm : l = true ∨ b = true) (hk : ∀ e ∈ h, Keeps e) (hp : ∀ e ∈ h, Proper e) (hq : (run (init l b) h).asks = 0)
    (active : Bool) (cl : List (Nat × Bool)) (hs : Proper (.slice active cl)) (a : Answer) (ho : OnlyForced a) (hg : Grounded a) :
    (run (init l b) (h ++ [.slice active cl, .answer a])).ran = (run (init l b) h).ran ∧
      (run (init l b) (h ++ [.slice active cl, .answer a])).bumps = (run (init l b) h).bumps + 1 ∧
      (run (init l b) (h ++ [.slice active cl, .answer a])).asks = 0 := by
  have hinv := run_inv (init_inv hm) hk hp
  have hi := hinv.idle hq
  rw [run_append]
  generalize run (init l b) h = s at hi hinv
  have hst : step s (.slice active cl) = { s with pending := s.pending + 1, asks := s.asks + 1 } := by
    obtain ⟨h1, h2, h3⟩ := hs
    simp only [step, slice]
    rcases hinv.mode with m | m
    · simp only [m, if_true]
      rw [start_proper h2 h3]
    · simp only [m, h1, Bool.not_true, Bool.false_eq_true, if_false]
      rw [start_proper h2 h3]
      split <;> rfl
  simp only [run, List.foldl_cons, List.foldl_nil, hst]
  simp only [step, Nat.succ_ne_zero, if_false]
  rw [pending_answer (s := { s with pending := s.pending + 1, asks := s.asks + 1 - 1 }) (by simp) hi.ready ho hg]
  simp [finish, take, hi.asks]

/-- Slices that are not run. -/
theorem presses_lost (n : Nat) (active : Bool) (cl : List (Nat × Bool)) (s : Sys) (h1 : s.lazy = false) (h2 : s.batch = false) :
    run s (presses n active cl) = { s with pending := s.pending + n } := by
  induction n generalizing s with
  | zero => rfl
  | succ n ih =>
    have hst : step s (.slice active cl) = { s with pending := s.pending + 1 } := by simp [step, slice, h1, h2]
    simp only [presses, run, List.foldl_cons, hst]
    have := ih { s with pending := s.pending + 1 } h1 h2
    simp only [run] at this
    rw [this]
    simp only [Sys.mk.injEq, true_and, and_true]
    omega

theorem rounds_lost (as : List Answer) (s : Sys) (hp : as.length ≤ s.pending) (hq : s.asks = 0) (hr : s.ready = []) (ho : ∀ a ∈ as, OnlyForced a) (hg : ∀ a ∈ as, Grounded a) :
    (run s (rounds as)).ran = s.ran ∧ (run s (rounds as)).pending = s.pending - as.length ∧ (run s (rounds as)).bumps = s.bumps + as.length ∧
      (run s (rounds as)).asks = 0 := by
  induction as generalizing s with
  | nil => exact ⟨rfl, rfl, rfl, hq⟩
  | cons a as ih =>
    have hlen : 0 < s.pending := Nat.lt_of_lt_of_le (Nat.succ_pos _) hp
    simp only [rounds, run, List.foldl_cons, step, Nat.succ_ne_zero, if_false]
    rw [pending_answer (s := { s with asks := s.asks + 1 - 1 }) hlen hr (ho a (List.mem_cons_self ..)) (hg a (List.mem_cons_self ..))]
    have := ih (finish (take { s with asks := s.asks + 1 - 1 } a)) (by simp only [finish, take, List.length_cons] at *; omega) (by simp [finish, take, hq]) rfl
      (fun x q => ho x (List.mem_cons_of_mem _ q)) (fun x q => hg x (List.mem_cons_of_mem _ q))
    simp only [run] at this
    obtain ⟨q1, q2, q3, q4⟩ := this
    refine ⟨q1, ?_, ?_, q4⟩
    · rw [q2]; simp only [finish, take, List.length_cons]; omega
    · rw [q3]; simp only [finish, take, List.length_cons, hlen, if_true]; omega

/-- **C188** (violated): when cells run reactively one at a time, the commands that run a slice run nothing; instead, each time one is used the forced cells of one later run do not run, and the
kernel is told that they are settled. -/
theorem swallowed (n : Nat) (active : Bool) (cl : List (Nat × Bool)) (as : List Answer) (hn : as.length ≤ n) (ho : ∀ a ∈ as, OnlyForced a) (hg : ∀ a ∈ as, Grounded a) :
    (run (init false false) (presses n active cl)).asks = 0 ∧
      (run (init false false) (presses n active cl ++ rounds as)).ran = [] ∧ (run (init false false) (presses n active cl ++ rounds as)).bumps = as.length := by
  rw [run_append, presses_lost n active cl (init false false) rfl rfl]
  have h := rounds_lost as { init false false with pending := (init false false).pending + n } (by simpa [init] using hn) rfl rfl ho hg
  refine ⟨rfl, h.1, ?_⟩
  rw [h.2.2.1]
  simp [init]

/-- **C188** (violated): so does running a slice with a cell active that is not a code cell, in any mode. -/
theorem text_swallowed (l b : Bool) (active : Bool) (c : Nat) (a : Answer) (ho : OnlyForced a) (hg : Grounded a) :
    (run (init l b) [.slice active [(c, false)], .run, .answer a]).ran = [] ∧ (run (init l b) [.slice active [(c, false)], .run, .answer a]).bumps = 1 := by
  have hst : step (init l b) (.slice active [(c, false)]) = { init l b with pending := 1 } := by
    cases l <;> cases b <;> cases active <;> rfl
  have h := rounds_lost [a] { init l b with pending := 1 } (by simp) rfl rfl (by simpa using ho) (by simpa using hg)
  simp only [run, List.foldl_cons, hst] at *
  exact ⟨h.1, h.2.2.1⟩

/-- **C188** (violated): if a slice is run while other cells are still running, it is the other way round: the forced cells of those do not run, and those of the slice do. -/
theorem overlap_swapped (active : Bool) (cl : List (Nat × Bool)) (hs : Proper (.slice active cl)) (b : Bool) (a a' : Answer) (ho : OnlyForced a) (hg : Grounded a)
    (he : a'.error = false) (hb : a'.batch = true) :
    (run (init true b) [.run, .slice active cl, .answer a]).ran = [] ∧
      ∀ c ∈ a'.forced, c < a'.cells → c ≠ a'.last → ∃ cs, (run (init true b) [.run, .slice active cl, .answer a, .answer a']).ran = [cs] ∧ c ∈ cs := by
  obtain ⟨h1, h2, h3⟩ := hs
  have hst : step (step (init true b) .run) (.slice active cl) = { init true b with pending := 1, asks := 2 } := by
    simp only [step, slice, init, if_true]
    rw [start_proper h2 h3]
  have hfin : run (init true b) [.run, .slice active cl, .answer a] =
      { init true b with lazy := a.lazy, batch := a.batch, bumps := 1, asks := 1 } := by
    simp only [run, List.foldl_cons, List.foldl_nil, hst]
    simp only [step]
    rw [pending_answer (s := { init true b with pending := 1, asks := 2 - 1 }) (by simp) rfl ho hg]
    simp [finish, take, init]
  refine ⟨by rw [hfin]; rfl, ?_⟩
  intro c hc hn hne
  have : run (init true b) [.run, .slice active cl, .answer a, .answer a'] = step (run (init true b) [.run, .slice active cl, .answer a]) (.answer a') := rfl
  rw [this, hfin]
  have hi : Idle { init true b with lazy := a.lazy, batch := a.batch, bumps := 1 } := ⟨rfl, rfl, rfl, rfl, rfl, rfl⟩
  have hr := round_idle hi a'
  simp only [step, init, Nat.succ_ne_zero, if_false] at hr ⊢
  rw [hr]
  have hcm := mem_chosen (s := { (⟨a.lazy, a.batch, 0, [], [], [], [], 0, [], 1⟩ : Sys) with lazy := a'.lazy, batch := a'.batch, forced := a'.forced, cascading := a'.cascading, ready := if a'.lazy then [] else a'.ready, done := [a'.last] })
    (a := a') hc hn (by simpa using hne)
  unfold react
  simp only [he, hb, Bool.false_eq_true, if_false, if_true]
  rw [hb] at hcm
  rw [if_neg (List.ne_nil_of_mem hcm)]
  exact ⟨_, rfl, hcm⟩

theorem chosen_nodup (s : Sys) (a : Answer) : (chosen s a).Nodup ∧ ∀ c ∈ chosen s a, c ∉ s.done := by
  unfold chosen
  cases a.lazy with
  | true => exact ⟨List.nodup_range.sublist List.filter_sublist, fun c hc => by simp at hc; exact hc.2.2⟩
  | false => exact ⟨List.nodup_range.sublist List.filter_sublist, fun c hc => by simp at hc; exact hc.2.2⟩

/-- While one run and what follows it are under way: what was run because of it, and that it is remembered. -/
structure Cascade (base : List (List Nat)) (s : Sys) : Prop where
  one : s.asks ≤ 1
  runs : ∃ ls, s.ran = base ++ ls ∧ ls.flatten.Nodup ∧ (s.asks = 1 → ∀ c ∈ ls.flatten, c ∈ s.done)

theorem cascade_step {base : List (List Nat)} {s : Sys} (h : Cascade base s) (a : Answer) (hb : a.batch = true) : Cascade base (step s (.answer a)) := by
  obtain ⟨h1, ls, h2, h3, h4⟩ := h
  simp only [step]
  by_cases hz : s.asks = 0
  · rw [if_pos hz]; exact ⟨h1, ls, h2, h3, h4⟩
  rw [if_neg hz]
  have hone : s.asks = 1 := by omega
  have fin : Cascade base (finish (take { s with asks := s.asks - 1 } a)) :=
    ⟨by simp [finish, take, hone], ls, h2, h3, fun q => by simp [finish, take, hone] at q⟩
  unfold react
  cases a.error with
  | true => exact fin
  | false =>
    simp only [Bool.false_eq_true, if_false, hb, if_true]
    by_cases hl : chosen (take { s with asks := s.asks - 1 } a) a = []
    · rw [if_pos hl]; exact fin
    · rw [if_neg hl]
      obtain ⟨q1, q2⟩ := chosen_nodup (take { s with asks := s.asks - 1 } a) a
      refine ⟨by simp [execute, take, hone], ls ++ [chosen (take { s with asks := s.asks - 1 } a) a], ?_, ?_, ?_⟩
      · simp [execute, take, h2]
      · rw [List.flatten_append, List.nodup_append]
        refine ⟨h3, by simpa using q1, ?_⟩
        intro c hc d hd e
        subst e
        refine q2 c (by simpa using hd) ?_
        exact List.mem_cons_of_mem _ (h4 hone c hc)
      · intro _ c hc
        have hbt : (take { s with asks := s.asks - 1 } a).batch = true := hb
        simp only [execute, hbt, if_true, List.mem_append]
        rw [List.flatten_append, List.mem_append] at hc
        rcases hc with hc | hc
        · exact .inl (List.mem_cons_of_mem _ (h4 hone c hc))
        · exact .inr (by simpa using hc)

/-- **C188**: in batches, no cell is run twice because of one run of the user, whatever the answers are. -/
theorem cascade_once (l b : Bool) (h : List Ev) (hq : (run (init l b) h).asks = 0) (as : List Answer) (hb : ∀ a ∈ as, a.batch = true) :
    ∃ ls, (run (init l b) (h ++ .run :: as.map .answer)).ran = (run (init l b) h).ran ++ ls ∧ ls.flatten.Nodup := by
  rw [run_append]
  generalize run (init l b) h = s at hq
  have hc : Cascade s.ran { s with asks := s.asks + 1 } := ⟨by simp [hq], [], by simp, by simp, fun _ c q => by simp at q⟩
  have : ∀ (s' : Sys), Cascade s.ran s' → Cascade s.ran (run s' (as.map .answer)) := by
    clear hc
    induction as with
    | nil => exact fun _ q => q
    | cons a as ih =>
      intro s' q
      exact ih (fun x y => hb x (List.mem_cons_of_mem _ y)) _ (cascade_step q a (hb a (List.mem_cons_self ..)))
  obtain ⟨-, ls, h1, h2, -⟩ := this _ hc
  exact ⟨ls, h1, h2⟩

end Verif.Bumps
