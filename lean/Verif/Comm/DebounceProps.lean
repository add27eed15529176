import Verif.Comm.Debounce
import Mathlib.Data.List.Basic
import Mathlib.Data.List.Induction

/-! # Delayed recomputation: executions (C39), held-back requests (C64), the scheduling setting (C65) -/

namespace Verif.Debounce
variable {A : Type}

/-! ## Specification, in terms of the events only -/

/-- The initial state: nothing has been called. -/
def init (x : Sched) : St A where
  setting := x

/-- The calls of a sequence of events, grouped: a group is closed by the timer firing. First component: the closed
groups, second: the calls since the last firing. -/
def groups : Trace A → List (List A) × List A
  | l => l.foldl (fun g e => match e.2 with
    | .call a => (g.1, g.2 ++ [a])
    | .fire => (g.1 ++ [g.2], [])
    | _ => g) ([], [])

/-- Times do not decrease. -/
def Monotone (l : Trace A) : Prop := l.Pairwise fun e e' => e.1 ≤ e'.1

/-- A function run is in progress: the last firing has not been followed by the end of the run. -/
def busy (l : Trace A) : Bool :=
  l.foldl (fun b e => match e.2 with
    | .fire => true
    | .exit _ => false
    | _ => b) false

/-- The setting last chosen by the user. -/
def chosen (x : Sched) (l : Trace A) : Sched :=
  l.foldl (fun b e => match e.2 with
    | .userSet y => y
    | _ => b) x

/-! ## Sequences of events -/

theorem run_append (w : Nat) (s : St A) (l l' : Trace A) :
    run w s (l ++ l') = (run w s l).bind fun s' => run w s' l' := by
  induction l generalizing s with
  | nil => rfl
  | cons e l ih =>
    obtain ⟨t, e⟩ := e
    simp only [List.cons_append, run]
    cases step w s t e with
    | none => rfl
    | some s' => exact ih s'

theorem run_snoc {w : Nat} {s s' : St A} {l : Trace A} {t : Nat} {e : Ev A}
    (h : run w s (l ++ [(t, e)]) = some s') : ∃ s1, run w s l = some s1 ∧ step w s1 t e = some s' := by
  rw [run_append] at h
  cases h1 : run w s l with
  | none => rw [h1] at h; cases h
  | some s1 =>
    rw [h1] at h
    refine ⟨s1, rfl, ?_⟩
    simp only [Option.bind_some, run] at h
    cases h2 : step w s1 t e with
    | none => rw [h2] at h; cases h
    | some s2 => rw [h2] at h; simpa using h

theorem run_prefix {w : Nat} {s s' : St A} {l l' : Trace A} (h : run w s (l ++ l') = some s') :
    ∃ s1, run w s l = some s1 ∧ run w s1 l' = some s' := by
  rw [run_append] at h
  cases h1 : run w s l with
  | none => rw [h1] at h; cases h
  | some s1 => rw [h1] at h; exact ⟨s1, rfl, h⟩

theorem groups_snoc (l : Trace A) (e : Nat × Ev A) : groups (l ++ [e]) = (match e.2 with
    | .call a => ((groups l).1, (groups l).2 ++ [a])
    | .fire => ((groups l).1 ++ [(groups l).2], [])
    | _ => groups l) := by
  simp [groups]

theorem busy_snoc (l : Trace A) (e : Nat × Ev A) : busy (l ++ [e]) = (match e.2 with
    | .fire => true
    | .exit _ => false
    | _ => busy l) := by
  simp [busy]

theorem chosen_snoc (x : Sched) (l : Trace A) (e : Nat × Ev A) : chosen x (l ++ [e]) = (match e.2 with
    | .userSet y => y
    | _ => chosen x l) := by
  simp [chosen]

/-! ### Steps, by event -/

theorem step_call {w t : Nat} {s s' : St A} {a : A} (h : step w s t (.call a) = some s') :
    s.toSet = false ∧ s' = { s with
      cur := some (a, .waiting (t + w))
      orphans := s.orphans ++ leftover s.cur
      toSet := isNew s.cur
      flags := s.flags ++ [isNew s.cur] } := by
  simp only [step] at h
  cases hs : s.toSet with
  | true => rw [hs] at h; simp at h
  | false => rw [hs] at h; simp at h; exact ⟨rfl, by rw [← h]⟩

theorem step_fire {w t : Nat} {s s' : St A} (h : step w s t .fire = some s') :
    ∃ a d, s.cur = some (a, .waiting d) ∧ d ≤ t ∧ s' = { s with
      cur := some (a, .running s.setting)
      setting := enter s.setting
      log := s.log ++ [a] } := by
  simp only [step] at h
  split at h
  · rename_i a d hc
    by_cases hd : d ≤ t
    · rw [if_pos hd] at h; cases h; exact ⟨a, d, hc, hd, rfl⟩
    · rw [if_neg hd] at h; cases h
  · cases h

theorem step_exit {w t : Nat} {s s' : St A} {ok : Bool} (h : step w s t (.exit ok) = some s') :
    ∃ a x, s.cur = some (a, .running x) ∧ s' = { s with
        cur := some (a, if ok then .finished else .died)
        setting := x
        pending := false } := by
  simp only [step] at h
  split at h
  · rename_i a x hc; cases h; exact ⟨a, x, hc, rfl⟩
  · cases h

theorem step_exitOrphan {w t : Nat} {s s' : St A} {i : Nat} (h : step w s t (.exitOrphan i) = some s') :
    ∃ x, s.orphans[i]? = some x ∧ s' = { s with
        orphans := s.orphans.eraseIdx i
        setting := x
        pending := false } := by
  simp only [step] at h
  split at h
  · rename_i x hc; cases h; exact ⟨x, hc, rfl⟩
  · cases h

theorem step_setPending {w t : Nat} {s s' : St A} (h : step w s t .setPending = some s') :
    s.toSet = true ∧ s' = { s with
        toSet := false
        pending := true } := by
  simp only [step] at h
  cases hs : s.toSet with
  | true => rw [hs] at h; simp at h; exact ⟨rfl, h.symm⟩
  | false => rw [hs] at h; simp at h

theorem step_userSet {w t : Nat} {s s' : St A} {x : Sched} (h : step w s t (.userSet x) = some s') :
    s.toSet = false ∧ s' = { s with setting := x } := by
  simp only [step] at h
  cases hs : s.toSet with
  | true => rw [hs] at h; simp at h
  | false => rw [hs] at h; simp at h; exact ⟨rfl, h.symm⟩

/-! ## C39 -/

/-- The state of the timer, in terms of the events. -/
theorem cur_inv {w : Nat} {x : Sched} {l : Trace A} {s : St A} (h : run w (init x) l = some s) :
    (groups l).1.map List.getLast? = s.log.map some ∧
    ((groups l).2 ≠ [] ↔ ∃ a d, s.cur = some (a, .waiting d)) ∧
    (∀ a d, s.cur = some (a, .waiting d) → (groups l).2.getLast? = some a) ∧
    (s.cur = none → l.all fun e => match e.2 with
      | .call _ | .fire => false
      | _ => true) := by
  induction l using List.reverseRecOn generalizing s with
  | nil => simp [run, init] at h; subst h; simp [groups]
  | append_singleton l e ih =>
    obtain ⟨t, e⟩ := e
    obtain ⟨s1, h1, h2⟩ := run_snoc h
    obtain ⟨i1, i2, i3, i4⟩ := ih h1
    cases e with
    | call a =>
      obtain ⟨-, rfl⟩ := step_call h2
      rw [groups_snoc]
      refine ⟨i1, ?_, ?_, ?_⟩ <;> simp
    | fire =>
      obtain ⟨a, d, hc, hd, rfl⟩ := step_fire h2
      rw [groups_snoc]
      refine ⟨?_, ?_, ?_, ?_⟩
      · simp only [List.map_append, i1, List.map_cons, List.map_nil, i3 a d hc]
      · simp
      · simp
      · simp
    | exit ok =>
      obtain ⟨a, y, hc, rfl⟩ := step_exit h2
      rw [groups_snoc]
      refine ⟨i1, ?_, ?_, ?_⟩
      · simp only [i2, hc]
        cases ok <;> simp
      · cases ok <;> simp
      · simp
    | exitOrphan i =>
      obtain ⟨y, hc, rfl⟩ := step_exitOrphan h2
      rw [groups_snoc]
      refine ⟨i1, i2, i3, fun h => ?_⟩
      simpa using i4 h
    | setPending =>
      obtain ⟨hc, rfl⟩ := step_setPending h2
      rw [groups_snoc]
      refine ⟨i1, i2, i3, fun h => ?_⟩
      simpa using i4 h
    | userSet y =>
      obtain ⟨hc, rfl⟩ := step_userSet h2
      rw [groups_snoc]
      refine ⟨i1, i2, i3, fun h => ?_⟩
      simpa using i4 h

/-- **C39**, executions: whatever happens in whatever order, the executions are exactly those of the last calls of
the groups of calls that the firings of the timer separate, one per group and in this order; no group is empty; and
calls since the last firing are never lost: the timer is then waiting with the arguments of the last of them. -/
theorem executions_exact {w : Nat} {x : Sched} {l : Trace A} {s : St A} (h : run w (init x) l = some s) :
    (groups l).1.map List.getLast? = s.log.map some ∧ (∀ g ∈ (groups l).1, g ≠ []) ∧
    (∀ a, (groups l).2.getLast? = some a → ∃ d, s.cur = some (a, .waiting d)) := by
  obtain ⟨h1, h2, h3, -⟩ := cur_inv h
  refine ⟨h1, ?_, ?_⟩
  · intro g hg h0
    subst h0
    have : (none : Option A) ∈ s.log.map some := by
      rw [← h1]; exact List.mem_map.2 ⟨[], hg, rfl⟩
    simp at this
  · intro a ha
    have hne : (groups l).2 ≠ [] := by
      intro h0; rw [h0] at ha; simp at ha
    obtain ⟨b, d, hb⟩ := h2.1 hne
    have := h3 b d hb
    rw [ha] at this
    cases this
    exact ⟨d, hb⟩

/-- The deadline of a waiting timer is the time of the last call plus the wait. -/
theorem deadline {w : Nat} {x : Sched} {l : Trace A} {s : St A} (h : run w (init x) l = some s) {a : A} {d : Nat}
    (hc : s.cur = some (a, .waiting d)) :
    ∃ l1 l2 t, l = l1 ++ (t, .call a) :: l2 ∧ d = t + w ∧
      ∀ e ∈ l2, (match e.2 with
        | .call _ | .fire => False
        | _ => True) := by
  induction l using List.reverseRecOn generalizing s with
  | nil => simp [run, init] at h; subst h; cases hc
  | append_singleton l e ih =>
    obtain ⟨t, e⟩ := e
    obtain ⟨s1, h1, h2⟩ := run_snoc h
    have keep : s1.cur = s.cur → (match ((t, e) : Nat × Ev A).2 with
        | .call _ | .fire => False
        | _ => True) → ∃ l1 l2 t', l ++ [(t, e)] = l1 ++ (t', .call a) :: l2 ∧ d = t' + w ∧
      ∀ e ∈ l2, (match e.2 with
        | .call _ | .fire => False
        | _ => True) := by
      intro h0 he
      obtain ⟨l1, l2, t', rfl, hd, hl⟩ := ih h1 (h0.trans hc)
      refine ⟨l1, l2 ++ [(t, e)], t', by simp, hd, ?_⟩
      intro e' he'
      rcases List.mem_append.1 he' with h' | h'
      · exact hl e' h'
      · rw [List.mem_singleton.1 h']; exact he
    cases e with
    | call b =>
      obtain ⟨-, rfl⟩ := step_call h2
      cases hc
      exact ⟨l, [], t, rfl, rfl, by simp⟩
    | fire =>
      obtain ⟨a, d, hc', hd, rfl⟩ := step_fire h2
      cases hc
    | exit ok =>
      obtain ⟨b, y, hc', rfl⟩ := step_exit h2
      cases ok <;> cases hc
    | exitOrphan i =>
      obtain ⟨y, hc', rfl⟩ := step_exitOrphan h2
      exact keep rfl trivial
    | setPending =>
      obtain ⟨hc', rfl⟩ := step_setPending h2
      exact keep rfl trivial
    | userSet y =>
      obtain ⟨hc', rfl⟩ := step_userSet h2
      exact keep rfl trivial

/-- Only the last call counts: after a call at `t1` and events none of which is a call or a firing, the timer waits
until `t1 + w`. -/
theorem waiting_after {w : Nat} {s0 s : St A} {t1 : Nat} {a : A} {mid : Trace A}
    (h : run w s0 ((t1, .call a) :: mid) = some s) (hm : ∀ e ∈ mid, (match e.2 with
        | .call _ | .fire => False
        | _ => True)) : s.cur = some (a, .waiting (t1 + w)) := by
  induction mid using List.reverseRecOn generalizing s with
  | nil =>
    have h' : run w s0 ([] ++ [(t1, .call a)]) = some s := h
    obtain ⟨s1, h1, h2⟩ := run_snoc h'
    obtain ⟨-, rfl⟩ := step_call h2
    rfl
  | append_singleton mid e ih =>
    obtain ⟨t, e⟩ := e
    rw [← List.cons_append] at h
    obtain ⟨s1, h1, h2⟩ := run_snoc h
    have hc := ih h1 fun e he => hm e (List.mem_append_left _ he)
    have he := hm (t, e) (by simp)
    cases e with
    | call b => exact he.elim
    | fire => exact he.elim
    | exit ok => obtain ⟨b, y, hc', -⟩ := step_exit h2; rw [hc] at hc'; cases hc'
    | exitOrphan i => obtain ⟨y, hc', rfl⟩ := step_exitOrphan h2; exact hc
    | setPending => obtain ⟨hc', rfl⟩ := step_setPending h2; exact hc
    | userSet y => obtain ⟨hc', rfl⟩ := step_userSet h2; exact hc

/-- **C39**, bursts: two consecutive calls which are closer together than the wait are never separated by an
execution, so by `executions_exact` a burst has one execution at most. -/
theorem burst_not_split {w : Nat} {x : Sched} {pre mid : Trace A} {t1 t2 : Nat} {a b : A} {s : St A}
    (h : run w (init x) (pre ++ (t1, .call a) :: mid ++ [(t2, .call b)]) = some s)
    (hmono : Monotone (pre ++ (t1, .call a) :: mid ++ [(t2, .call b)]))
    (hnear : t2 < t1 + w) (hcons : ∀ e ∈ mid, ∀ c, e.2 ≠ .call c) : ∀ e ∈ mid, e.2 ≠ .fire := by
  rintro ⟨t, e⟩ he hf
  simp only at hf
  subst hf
  -- the first firing after the call
  have key : ∀ mid : Trace A, (∃ t, (t, Ev.fire) ∈ mid) → ∃ m1 m2 t, mid = m1 ++ (t, Ev.fire) :: m2 ∧
      ∀ e ∈ m1, e.2 ≠ Ev.fire := by
    intro mid
    induction mid with
    | nil => rintro ⟨t, h⟩; cases h
    | cons e0 mid ih =>
      rintro ⟨t, h⟩
      by_cases h0 : e0.2 = Ev.fire
      · refine ⟨[], mid, e0.1, ?_, by simp⟩
        rw [← h0]; rfl
      · rcases List.mem_cons.1 h with h | h
        · rw [← h] at h0; exact absurd rfl h0
        · obtain ⟨m1, m2, t', rfl, hm⟩ := ih ⟨t, h⟩
          refine ⟨e0 :: m1, m2, t', rfl, ?_⟩
          intro e he
          rcases List.mem_cons.1 he with h' | h'
          · rw [h']; exact h0
          · exact hm e h'
  obtain ⟨m1, m2, t', rfl, hm⟩ := key mid ⟨t, he⟩
  have h' : run w (init x) (pre ++ ((t1, .call a) :: m1 ++ ((t', .fire) :: (m2 ++ [(t2, .call b)])))) = some s := by
    simpa using h
  obtain ⟨s1, h1, h2⟩ := run_prefix h'
  obtain ⟨s2, h3, h4⟩ := run_prefix h2
  have hc := waiting_after h3 (by
    intro e he
    have h5 := hm e he
    have h6 := hcons e (by simp [he])
    rcases e with ⟨te, e⟩
    cases e with
    | call c => exact h6 c rfl
    | fire => exact h5 rfl
    | exit ok => trivial
    | exitOrphan i => trivial
    | setPending => trivial
    | userSet y => trivial)
  simp only [run] at h4
  cases h7 : step w s2 t' .fire with
  | none => rw [h7] at h4; cases h4
  | some s3 =>
    obtain ⟨a', d, hc', hd, -⟩ := step_fire h7
    rw [hc] at hc'
    cases hc'
    have hlt : t' ≤ t2 := by
      have h8 : Monotone ((pre ++ (t1, .call a) :: m1) ++ ((t', Ev.fire) :: (m2 ++ [(t2, Ev.call b)]))) := by
        simpa using hmono
      have h9 := (List.pairwise_append.1 h8).2.1
      have h10 := (List.pairwise_cons.1 h9).1 (t2, .call b) (by simp)
      exact h10
    omega

/-- The timer is prompt: no call arrives at or after the deadline of a timer that is still waiting. -/
def Prompt (w : Nat) (s0 : St A) (l : Trace A) : Prop :=
  ∀ l1 t b l2 s1 a d, l = l1 ++ (t, .call b) :: l2 → run w s0 l1 = some s1 → s1.cur = some (a, .waiting d) → t < d

/-- **C39**, bursts: if the timer is prompt, two consecutive calls that are not closer together than the wait are
separated by an execution, so they belong to different groups in `executions_exact`. -/
theorem burst_ends {w : Nat} {x : Sched} {pre mid : Trace A} {t1 t2 : Nat} {a b : A} {s : St A}
    (h : run w (init x) (pre ++ (t1, .call a) :: mid ++ [(t2, .call b)]) = some s)
    (hp : Prompt w (init x) (pre ++ (t1, .call a) :: mid ++ [(t2, .call b)]))
    (hfar : t1 + w ≤ t2) (hcons : ∀ e ∈ mid, ∀ c, e.2 ≠ .call c) : ∃ t, (t, .fire) ∈ mid := by
  by_contra hno
  push Not at hno
  obtain ⟨s1, h1, -⟩ := run_prefix h
  obtain ⟨s2, h2, h3⟩ := run_prefix h1
  have hc := waiting_after h3 (by
    intro e he
    have h6 := hcons e he
    rcases e with ⟨te, e⟩
    cases e with
    | call c => exact h6 c rfl
    | fire => exact hno te he
    | exit ok => trivial
    | exitOrphan i => trivial
    | setPending => trivial
    | userSet y => trivial)
  have := hp _ t2 b [] s1 a _ rfl h1 hc
  omega

/-- **C39**, progress: a timer that waits can fire from its deadline on, whatever else happened. -/
theorem fire_enabled {w t d : Nat} {s : St A} {a : A} (hc : s.cur = some (a, .waiting d)) (ht : d ≤ t) :
    ∃ s', step w s t .fire = some s' ∧ s'.log = s.log ++ [a] := by
  simp [step, hc, ht]

/-- The result of the last call. -/
def lastFlag (s : St A) : Option Bool := s.flags.getLast?

theorem flag_eq {w : Nat} {s s1 : St A} {t : Nat} {a : A} (h2 : step w s t (.call a) = some s1) :
    lastFlag s1 = some (isNew s.cur) := by
  obtain ⟨-, rfl⟩ := step_call h2
  simp [lastFlag]

/-- **C39**, result: a call which reports that it started a new burst did so: every earlier call has been executed or
overridden before. -/
theorem flag_sound {w : Nat} {x : Sched} {l : Trace A} {t : Nat} {a : A} {s : St A}
    (h : run w (init x) (l ++ [(t, .call a)]) = some s) (hf : lastFlag s = some true) : (groups l).2 = [] := by
  obtain ⟨s1, h1, h2⟩ := run_snoc h
  rw [flag_eq h2] at hf
  have hn : isNew s1.cur = true := by simpa using hf
  by_contra hne
  obtain ⟨b, d, hb⟩ := (cur_inv h1).2.1.1 hne
  rw [hb] at hn
  cases hn

/-- The last firing has been followed by the normal end of its run (or there was no firing). -/
def Settled (l : Trace A) : Prop :=
  l.foldl (fun b e => match e.2 with
    | .fire => false
    | .exit ok => ok
    | _ => b) true = true

theorem settled_cur {w : Nat} {x : Sched} {l : Trace A} {s : St A} (h : run w (init x) l = some s) :
    (∀ a y, s.cur = some (a, .running y) → ¬ Settled l) ∧ (∀ a, s.cur = some (a, .died) → ¬ Settled l) := by
  induction l using List.reverseRecOn generalizing s with
  | nil => simp [run, init] at h; subst h; simp
  | append_singleton l e ih =>
    obtain ⟨t, e⟩ := e
    obtain ⟨s1, h1, h2⟩ := run_snoc h
    obtain ⟨i1, i2⟩ := ih h1
    cases e with
    | call b => obtain ⟨-, rfl⟩ := step_call h2; simp
    | fire => obtain ⟨a, d, hc', hd, rfl⟩ := step_fire h2; simp [Settled]
    | exit ok => obtain ⟨b, y, hc', rfl⟩ := step_exit h2; cases ok <;> simp [Settled]
    | exitOrphan i =>
      obtain ⟨y, hc', rfl⟩ := step_exitOrphan h2
      simpa [Settled] using And.intro i1 i2
    | setPending =>
      obtain ⟨hc', rfl⟩ := step_setPending h2
      simpa [Settled] using And.intro i1 i2
    | userSet y =>
      obtain ⟨hc', rfl⟩ := step_userSet h2
      simpa [Settled] using And.intro i1 i2

/-- **C39**, result, the other direction: a call which starts a new burst reports it, provided the last execution has
ended, and normally. Missing for the full statement (refuted below): calls during an execution, and calls after an
execution that ended with an exception. -/
theorem flag_complete_partial {w : Nat} {x : Sched} {l : Trace A} {t : Nat} {a : A} {s : St A}
    (h : run w (init x) (l ++ [(t, .call a)]) = some s) (hnew : (groups l).2 = []) (hs : Settled l) :
    lastFlag s = some true := by
  obtain ⟨s1, h1, h2⟩ := run_snoc h
  rw [flag_eq h2]
  have hw : ¬ ∃ b d, s1.cur = some (b, .waiting d) := by
    rw [← (cur_inv h1).2.1]; simp [hnew]
  rcases hc : s1.cur with _ | ⟨b, ph⟩
  · rfl
  · cases ph with
    | waiting d => exact absurd ⟨b, d, hc⟩ hw
    | running y => exact absurd hs ((settled_cur h1).1 b y hc)
    | finished => rfl
    | died => exact absurd hs ((settled_cur h1).2 b hc)

/-- Two bursts; the hypotheses of the theorems above are met by this sequence. -/
def sample : Trace Nat :=
  [(0, .call 1), (0, .setPending), (5, .call 2), (7, .call 3), (17, .fire), (18, .exit true),
   (30, .call 4), (30, .setPending), (40, .fire), (41, .exit true)]

example : ∃ s, run 10 (init .dag) sample = some s ∧ s.log = [3, 4] ∧ s.flags = [true, false, false, true] ∧
    groups sample = ([[1, 2, 3], [4]], []) ∧ s.setting = .dag ∧ s.pending = false :=
  ⟨_, rfl, rfl, rfl, rfl, rfl, rfl⟩

example : Settled sample ∧ Monotone sample := by
  refine ⟨rfl, ?_⟩
  simp [Monotone, sample]

/-- **C39 is violated** (result): a call that arrives while the function runs starts a new burst, which will have its
own execution, but reports that it did not. -/
theorem flag_violated_running : ∃ s, run 10 (init .liveness)
    [(0, .call 1), (0, .setPending), (10, .fire), (20, .call 2)] = some s ∧ lastFlag s = some false ∧
    groups [(0, Ev.call 1), (0, .setPending), (10, .fire)] = ([[1]], []) :=
  ⟨_, rfl, rfl, rfl⟩

/-- **C39 is violated** (result): after an execution that ended with an exception, the next burst is reported as not
new, because the timer never sets `finished`. -/
theorem flag_violated_died : ∃ s, run 10 (init .liveness)
    [(0, .call 1), (0, .setPending), (10, .fire), (11, .exit false), (1000, .call 2)] = some s ∧
    lastFlag s = some false ∧
    groups [(0, Ev.call 1), (0, .setPending), (10, .fire), (11, .exit false)] = ([[1]], []) :=
  ⟨_, rfl, rfl, rfl⟩

/-! ## C64: requests of the client are held back exactly while a recomputation is outstanding -/

/-- A recomputation is outstanding: the timer is waiting or its function is running. -/
def Outstanding (s : St A) : Prop :=
  (∃ a d, s.cur = some (a, .waiting d)) ∨ ∃ a y, s.cur = some (a, .running y)

/-- The main thread sets the pending flag before the timer fires: whenever the timer fires, the main thread is not
about to set the flag. -/
def FlagInTime (w : Nat) (s0 : St A) (l : Trace A) : Prop :=
  ∀ l1 t l2 s1, l = l1 ++ (t, .fire) :: l2 → run w s0 l1 = some s1 → s1.toSet = false

/-- **C64**, first half: if the main thread always gets to set the flag before the timer fires, then requests are held
back only while a recomputation is outstanding. Missing for the full statement (refuted below): the other order. -/
theorem held_back_partial {w : Nat} {x : Sched} {l : Trace A} {s : St A} (h : run w (init x) l = some s)
    (hf : FlagInTime w (init x) l) : s.pending = true ∨ s.toSet = true → Outstanding s := by
  have key : (s.toSet = true → ∃ a d, s.cur = some (a, .waiting d)) ∧ (s.pending = true → Outstanding s) := by
    induction l using List.reverseRecOn generalizing s with
    | nil => simp [run, init] at h; subst h; simp
    | append_singleton l e ih =>
      obtain ⟨t, e⟩ := e
      obtain ⟨s1, h1, h2⟩ := run_snoc h
      obtain ⟨i1, i2⟩ := ih h1 (fun l1 t' l2 s1 hl => hf l1 t' (l2 ++ [(t, e)]) s1 (by rw [hl]; simp))
      cases e with
      | call b => obtain ⟨-, rfl⟩ := step_call h2; exact ⟨fun _ => ⟨_, _, rfl⟩, fun _ => .inl ⟨_, _, rfl⟩⟩
      | fire =>
        have h0 := hf l t [] s1 rfl h1
        obtain ⟨a, d, hc', hd, rfl⟩ := step_fire h2
        exact ⟨fun h => (by rw [h0] at h; cases h), fun _ => .inr ⟨_, _, rfl⟩⟩
      | exit ok =>
        obtain ⟨b, y, hc', rfl⟩ := step_exit h2
        refine ⟨fun h => ?_, fun h => (by cases h)⟩
        obtain ⟨a, d, h0⟩ := i1 h
        rw [hc'] at h0; cases h0
      | exitOrphan i =>
        obtain ⟨y, hc', rfl⟩ := step_exitOrphan h2
        exact ⟨i1, fun h => (by cases h)⟩
      | setPending =>
        obtain ⟨hc', rfl⟩ := step_setPending h2
        exact ⟨fun h => (by cases h), fun _ => .inl (i1 hc')⟩
      | userSet y => obtain ⟨hc', rfl⟩ := step_userSet h2; exact ⟨i1, i2⟩
  rintro (h | h)
  · exact key.2 h
  · exact .inl (key.1 h)

/-- No call arrives while the function runs, and every run ends normally. -/
def Calm (l : Trace A) : Prop :=
  (∀ l1 t a l2, l = l1 ++ (t, .call a) :: l2 → busy l1 = false) ∧ ∀ e ∈ l, e.2 ≠ .exit false

theorem calm_prefix {l l' : Trace A} (h : Calm (l ++ l')) : Calm l :=
  ⟨fun l1 t a l2 hl => h.1 l1 t a (l2 ++ l') (by rw [hl]; simp), fun e he => h.2 e (List.mem_append_left _ he)⟩

theorem busy_cur {w : Nat} {x : Sched} {l : Trace A} {s : St A} (h : run w (init x) l = some s) (hc : Calm l) :
    s.orphans = [] ∧ (busy l = true ↔ ∃ a y, s.cur = some (a, .running y)) ∧ (∀ a, s.cur ≠ some (a, .died)) := by
  induction l using List.reverseRecOn generalizing s with
  | nil => simp [run, init] at h; subst h; simp [busy]
  | append_singleton l e ih =>
    obtain ⟨t, e⟩ := e
    obtain ⟨s1, h1, h2⟩ := run_snoc h
    obtain ⟨i1, i2, i3⟩ := ih h1 (calm_prefix hc)
    rw [busy_snoc]
    cases e with
    | call b =>
      have hb := hc.1 l t b [] rfl
      obtain ⟨-, rfl⟩ := step_call h2
      have hl : leftover s1.cur = [] := by
        rcases hcur : s1.cur with _ | ⟨a, ph⟩
        · rfl
        · cases ph with
          | running y => rw [i2.2 ⟨a, y, hcur⟩] at hb; cases hb
          | waiting d => rfl
          | finished => rfl
          | died => rfl
      refine ⟨by simp [i1, hl], by simp [hb], by simp⟩
    | fire => obtain ⟨a, d, hc', hd, rfl⟩ := step_fire h2; simp [i1]
    | exit ok =>
      obtain ⟨b, y, hc', rfl⟩ := step_exit h2
      cases ok with
      | true => simp [i1]
      | false => exact absurd rfl (hc.2 (t, .exit false) (by simp))
    | exitOrphan i => obtain ⟨y, hc', rfl⟩ := step_exitOrphan h2; rw [i1] at hc'; simp at hc'
    | setPending => obtain ⟨hc', rfl⟩ := step_setPending h2; exact ⟨i1, i2, i3⟩
    | userSet y => obtain ⟨hc', rfl⟩ := step_userSet h2; exact ⟨i1, i2, i3⟩

/-- **C64**, second half: if no call arrives while the function runs and no run ends with an exception, then requests
are held back (or the main thread is just about to hold them back) as long as a recomputation is outstanding. Missing
for the full statement (refuted below): calls during a run. -/
theorem outstanding_held_back_partial {w : Nat} {x : Sched} {l : Trace A} {s : St A}
    (h : run w (init x) l = some s) (hc : Calm l) (ho : Outstanding s) : s.pending = true ∨ s.toSet = true := by
  induction l using List.reverseRecOn generalizing s with
  | nil => simp [run, init] at h; subst h; simp [Outstanding] at ho
  | append_singleton l e ih =>
    obtain ⟨t, e⟩ := e
    obtain ⟨s1, h1, h2⟩ := run_snoc h
    have ih := ih h1 (calm_prefix hc)
    have hb := busy_cur h1 (calm_prefix hc)
    cases e with
    | call b =>
      have hb' := hc.1 l t b [] rfl
      obtain ⟨hts, rfl⟩ := step_call h2
      rcases hcur : s1.cur with _ | ⟨a, ph⟩
      · right; simp [isNew]
      · cases ph with
        | waiting d =>
          rcases ih (.inl ⟨a, d, hcur⟩) with h0 | h0
          · exact .inl h0
          · rw [hts] at h0; cases h0
        | running y => rw [hb.2.1.2 ⟨a, y, hcur⟩] at hb'; cases hb'
        | finished => right; simp [isNew]
        | died => exact absurd hcur (hb.2.2 a)
    | fire =>
      obtain ⟨a, d, hc', hd, rfl⟩ := step_fire h2
      exact ih (.inl ⟨a, d, hc'⟩)
    | exit ok =>
      obtain ⟨b, y, hc', rfl⟩ := step_exit h2
      rcases ho with ⟨a, d, h0⟩ | ⟨a, y, h0⟩ <;> cases ok <;> cases h0
    | exitOrphan i => obtain ⟨y, hc', rfl⟩ := step_exitOrphan h2; rw [hb.1] at hc'; simp at hc'
    | setPending => obtain ⟨hc', rfl⟩ := step_setPending h2; exact .inl rfl
    | userSet y => obtain ⟨hc', rfl⟩ := step_userSet h2; exact ih ho

/-- The hypotheses are met by the sample. -/
example : Calm sample := by
  constructor
  · intro l1 t a l2 h
    have hb : ∀ n ∈ List.range 10, (match sample[n]? with
        | some (_, .call _) => !busy (sample.take n)
        | _ => true) = true := by decide
    have h1 : l1 = sample.take l1.length := by rw [h]; simp
    have h2 : l1.length < 10 := by
      have : sample.length = 10 := rfl
      rw [h] at this; simp at this; omega
    have h3 := hb _ (List.mem_range.2 h2)
    have h4 : sample[l1.length]? = some (t, .call a) := by rw [h]; simp
    rw [h4] at h3
    rw [h1]
    simpa using h3
  · simp [sample]

example : FlagInTime 10 (init .dag) sample := by
  intro l1 t l2 s1 h hr
  have hb : ∀ n ∈ List.range 10, (match sample[n]?, run 10 (init .dag) (sample.take n) with
      | some (_, .fire), some s => !s.toSet
      | _, _ => true) = true := by decide
  have h1 : l1 = sample.take l1.length := by rw [h]; simp
  have h2 : l1.length < 10 := by
    have : sample.length = 10 := rfl
    rw [h] at this; simp at this; omega
  have h3 := hb _ (List.mem_range.2 h2)
  have h4 : sample[l1.length]? = some (t, .fire) := by rw [h]; simp
  rw [← h1, hr, h4] at h3
  simpa using h3

/-- **C64 is violated**: if the timer fires and its function ends before the main thread gets to set the flag, then the
flag is set with nothing outstanding, and stays set whatever happens, until the next call: all schedule requests of
the client are dropped. -/
theorem held_back_violated : ∃ s, run 10 (init .liveness)
    [(0, .call 1), (10, .fire), (11, .exit true), (12, .setPending)] = some s ∧ s.pending = true ∧ ¬ Outstanding s ∧
    ∀ (l : Trace Nat) (s' : St Nat), (∀ e ∈ l, ∀ a, e.2 ≠ .call a) → run 10 s l = some s' → s'.pending = true := by
  refine ⟨_, rfl, rfl, by simp [Outstanding], ?_⟩
  intro l s' hl hr
  have key : ∀ (l : Trace Nat) (s s' : St Nat), (∀ e ∈ l, ∀ a, e.2 ≠ .call a) → run 10 s l = some s' →
      s.cur = some (1, .finished) → s.orphans = [] → s.pending = true → s'.pending = true := by
    intro l
    induction l with
    | nil => intro s s' _ hr _ _ hp; simp [run] at hr; subst hr; exact hp
    | cons e l ih =>
      intro s s' hl hr hc ho hp
      obtain ⟨t, e⟩ := e
      simp only [run] at hr
      cases h1 : step 10 s t e with
      | none => rw [h1] at hr; cases hr
      | some s1 =>
        rw [h1] at hr
        have hl' : ∀ e ∈ l, ∀ a, e.2 ≠ .call a := fun e he => hl e (List.mem_cons_of_mem _ he)
        cases e with
        | call b => exact absurd rfl (hl _ List.mem_cons_self b)
        | fire => obtain ⟨_, _, h2, _, rfl⟩ := step_fire h1; rw [hc] at h2; cases h2
        | exit ok => obtain ⟨_, _, h2, rfl⟩ := step_exit h1; rw [hc] at h2; cases h2
        | exitOrphan i => obtain ⟨_, h2, rfl⟩ := step_exitOrphan h1; rw [ho] at h2; simp at h2
        | setPending => obtain ⟨h2, rfl⟩ := step_setPending h1; exact ih _ s' hl' hr hc ho rfl
        | userSet y => obtain ⟨_, rfl⟩ := step_userSet h1; exact ih _ s' hl' hr hc ho hp
  exact key l _ s' hl hr rfl rfl rfl

/-- **C64 is violated** in the other direction: after a call that arrives while the function runs, a recomputation is
outstanding but the requests of the client are not held back once that run ends. -/
theorem outstanding_violated : ∃ s, run 10 (init .liveness)
    [(0, .call 1), (0, .setPending), (10, .fire), (20, .call 2), (21, .exitOrphan 0)] = some s ∧
    Outstanding s ∧ s.pending = false ∧ s.toSet = false :=
  ⟨_, rfl, .inl ⟨_, _, rfl⟩, rfl, rfl⟩

/-! ## C65: the scheduling setting -/

/-- The user does not change the setting while the function runs. -/
def NoUserSet (l : Trace A) : Prop := ∀ l1 t y l2, l = l1 ++ (t, .userSet y) :: l2 → busy l1 = false

/-- **C65**: if no call arrives and the user changes nothing while the function runs, then the setting is the one that
the user chose whenever the function is not running (also after a run that failed), and the reactive variant of it
while it is. Missing for the full statement (refuted below): calls and changes during a run. -/
theorem setting_restored_partial {w : Nat} {x : Sched} {l : Trace A} {s : St A} (h : run w (init x) l = some s)
    (hc : ∀ l1 t a l2, l = l1 ++ (t, .call a) :: l2 → busy l1 = false) (hu : NoUserSet l) :
    s.setting = if busy l then enter (chosen x l) else chosen x l := by
  have key : s.orphans = [] ∧ (∀ a y, s.cur = some (a, .running y) → busy l = true ∧ y = chosen x l) ∧
      (busy l = true → ∃ a y, s.cur = some (a, .running y)) ∧
      s.setting = if busy l then enter (chosen x l) else chosen x l := by
    induction l using List.reverseRecOn generalizing s with
    | nil => simp [run, init] at h; subst h; simp [busy, chosen]
    | append_singleton l e ih =>
      obtain ⟨t, e⟩ := e
      obtain ⟨s1, h1, h2⟩ := run_snoc h
      obtain ⟨i1, i2, i3, i4⟩ := ih h1 (fun l1 t a l2 hl => hc l1 t a (l2 ++ [_]) (by rw [hl]; simp; rfl))
        (fun l1 t a l2 hl => hu l1 t a (l2 ++ [_]) (by rw [hl]; simp; rfl))
      rw [busy_snoc, chosen_snoc]
      cases e with
      | call b =>
        have hb := hc l t b [] rfl
        obtain ⟨-, rfl⟩ := step_call h2
        have hl : leftover s1.cur = [] := by
          rcases hcur : s1.cur with _ | ⟨a, ph⟩
          · rfl
          · cases ph with
            | running y => rw [(i2 a y hcur).1] at hb; cases hb
            | waiting d => rfl
            | finished => rfl
            | died => rfl
        refine ⟨by simp [i1, hl], by simp, by simp [hb], by simpa [hb] using i4⟩
      | fire =>
        obtain ⟨a, d, hc', hd, rfl⟩ := step_fire h2
        have hb : busy l = false := by
          cases hb : busy l with
          | false => rfl
          | true => obtain ⟨a, y, h0⟩ := i3 hb; rw [hc'] at h0; cases h0
        rw [hb] at i4
        have h4 : s1.setting = chosen x l := by simpa using i4
        exact ⟨i1, by simp [h4], by simp, by simp [h4]⟩
      | exit ok =>
        obtain ⟨b, y, hc', rfl⟩ := step_exit h2
        exact ⟨i1, by cases ok <;> simp, by simp, by simpa using (i2 b y hc').2⟩
      | exitOrphan i => obtain ⟨y, hc', rfl⟩ := step_exitOrphan h2; rw [i1] at hc'; simp at hc'
      | setPending => obtain ⟨hc', rfl⟩ := step_setPending h2; exact ⟨i1, i2, i3, i4⟩
      | userSet y =>
        have hb := hu l t y [] rfl
        obtain ⟨hc', rfl⟩ := step_userSet h2
        refine ⟨i1, ?_, by simp [hb], by simp [hb]⟩
        intro a z h0
        have h5 := (i2 a z h0).1
        rw [hb] at h5; cases h5
  exact key.2.2.2

/-- A run while the schedule is `dag`: changed to `hybrid` during the run and restored afterwards. -/
example : ∃ s s', run 10 (init .dag) [(0, .call 1), (0, .setPending), (10, .fire)] = some s ∧ s.setting = .hybrid ∧
    run 10 (init .dag) [(0, .call 1), (0, .setPending), (10, .fire), (11, .exit false)] = some s' ∧
    s'.setting = .dag :=
  ⟨_, _, rfl, rfl, rfl, rfl⟩

/-- **C65 is violated**: a call during a run whose timer fires before that run has ended makes the change permanent:
the user chose `dag` and gets `hybrid` for good, though nothing is running any more. -/
theorem setting_violated : ∃ s, run 10 (init .dag)
    [(0, .call 1), (0, .setPending), (10, .fire), (11, .call 2), (21, .fire), (22, .exitOrphan 0), (23, .exit true)]
      = some s ∧ ¬ Outstanding s ∧ s.orphans = [] ∧ s.setting = .hybrid :=
  ⟨_, rfl, by simp [Outstanding], rfl, rfl⟩

/-- **C65 is violated**: a setting which the user chooses during a run is lost when the run ends. -/
theorem setting_violated_user : ∃ s, run 10 (init .dag)
    [(0, .call 1), (0, .setPending), (10, .fire), (11, .userSet .liveness), (12, .exit true)]
      = some s ∧ ¬ Outstanding s ∧ s.setting = .dag :=
  ⟨_, rfl, by simp [Outstanding], rfl⟩

end Verif.Debounce
