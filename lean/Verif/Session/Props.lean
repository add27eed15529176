import Mathlib.Tactic.SplitIfs
import Verif.Session.Spec
import Mathlib.Data.List.Induction

/-!
# C121: After the user's runs, a new schedule is asked for. C122: Alternate mode is for one run

`after (init m b) es` is the state of client and kernel after the events `es`, if the kernel was in mode `m` with batch (`b`) or incremental reactivity at the beginning. -/

namespace Verif.Session

open Spec

theorem after_append (s : St) (es es' : List Ev) : after s (es ++ es') = after (after s es) es' := List.foldl_append

/-- Induction on what has happened. -/
theorem after_induction {P : List Ev → St → Prop} {s : St} (h0 : P [] s) (h1 : ∀ es t e, P es t → P (es ++ [e]) (step t e)) : ∀ es, P es (after s es) := by
  intro es
  induction es using List.reverseRecOn with
  | nil => exact h0
  | append_singleton es e ih =>
    rw [after_append]
    exact h1 es _ e ih

/-! ## Requests -/

/-- How many runs have counted `inProgressExecs` up for good. -/
def leaks (l : List Run) : Nat := l.countP fun r => r.kind = .deferred ∨ r.kind = .batch

theorem leaks_pos {l : List Run} : Leaky l ↔ 0 < leaks l := by
  simp [Leaky, leaks, List.countP_pos_iff]

theorem leaks_note (k : Kind) (s : St) : leaks (note k s).log = leaks s.log + (if k = .deferred ∨ k = .batch then 1 else 0) := by
  simp [leaks, note, List.countP_append, List.countP_cons]

/-- What holds in every state. -/
structure Inv (s : St) : Prop where
  count : s.inProgress = s.singles + leaks s.log
  plain : 0 < s.singles → Plain s.log
  late : s.unseen = true → Direct s.log ∨ Plain s.log ∧ (0 < s.singles ∨ Leaky s.log)
  direct : 0 < s.directs → Direct s.log

theorem leaky_note {k : Kind} {s : St} (h : Leaky s.log) : Leaky (note k s).log := by
  obtain ⟨r, hr, h⟩ := h
  exact ⟨r, by simp [note, hr], h⟩

theorem plain_note {k : Kind} {s : St} (h : Plain s.log) : Plain (note k s).log := by
  obtain ⟨r, hr, h⟩ := h
  exact ⟨r, by simp [note, hr], h⟩

theorem direct_note {k : Kind} {s : St} (h : Direct s.log) : Direct (note k s).log := by
  obtain ⟨r, hr, h⟩ := h
  exact ⟨r, by simp [note, hr], h⟩

theorem Inv.ask {s : St} (h : Inv s) : Inv (ask s) := ⟨h.count, h.plain, (nomatch ·), h.direct⟩

/-- Noting a run that does not count up. -/
theorem Inv.note {s : St} (h : Inv s) {k : Kind} (hk : ¬ (k = .deferred ∨ k = .batch)) : Inv (note k s) := by
  refine ⟨?_, fun p => plain_note (h.plain p), fun u => ?_, fun p => direct_note (h.direct p)⟩
  · rw [leaks_note, if_neg hk]; exact h.count
  · rcases h.late u with d | ⟨p, q⟩
    · exact .inl (direct_note d)
    · exact .inr ⟨plain_note p, q.imp id leaky_note⟩

theorem Inv.group {s : St} (h : Inv s) : Inv (group s) := ⟨h.count, h.plain, h.late, h.direct⟩

theorem Inv.toggle {s : St} (h : Inv s) : Inv (toggle s) := ⟨h.count, h.plain, h.late, h.direct⟩

theorem Inv.directly {s : St} (h : Inv s) : Inv (Session.note .direct { s with directs := s.directs + 1 }) := by
  have d : Direct (Session.note .direct s).log := ⟨⟨.direct, s.kmode⟩, by simp [Session.note], rfl⟩
  have n := Inv.note h (k := .direct) (by simp)
  exact ⟨n.count, n.plain, fun _ => .inl d, fun _ => d⟩

theorem Inv.press {s : St} (h : Inv s) (code cells : Bool) : Inv (onPress code cells s) := by
  unfold onPress
  split
  · exact h.directly
  split
  · exact h
  split
  · exact h
  have h' : Inv { s with alts := s.alts + 1 } := ⟨h.count, h.plain, h.late, h.direct⟩
  dsimp only
  split
  · split
    · exact h'.toggle.directly
    · exact h'.directly
  split
  · exact h'.group.note (by simp)
  split
  · exact h'.group.note (by simp)
  · exact h'.group.note (by simp)

theorem Inv.run {s : St} (h : Inv s) (code empty : Bool) : Inv (onRun code empty s) := by
  have late {k : Kind} {t : St} (hl : t.log = s.log) (hu : t.unseen = s.unseen) (hs : s.singles ≤ t.singles) (u : (Session.note k t).unseen = true) :
      Direct (Session.note k t).log ∨ Plain (Session.note k t).log ∧ (0 < (Session.note k t).singles ∨ Leaky (Session.note k t).log) := by
    have u' : s.unseen = true := by rw [← hu]; exact u
    rcases h.late u' with d | ⟨p, q⟩
    · exact .inl (direct_note (by rw [hl]; exact d))
    · refine .inr ⟨plain_note (by rw [hl]; exact p), q.imp (fun q => ?_) (fun q => leaky_note (by rw [hl]; exact q))⟩
      show 0 < t.singles
      omega
  have hb : Inv (Session.note .batch { s with inProgress := s.inProgress + 1 }) := by
    refine ⟨?_, fun p => plain_note (h.plain p), late rfl rfl (Nat.le_refl _), fun p => direct_note (h.direct p)⟩
    rw [leaks_note]; have := h.count; simp [Session.note]; omega
  unfold onRun
  dsimp only
  split
  · refine ⟨?_, fun p => plain_note (h.plain p), late rfl rfl (Nat.le_refl _), fun p => direct_note (h.direct p)⟩
    rw [leaks_note]; have := h.count; simp [Session.note]; omega
  split
  · split
    · exact hb.ask
    · exact hb.group
  · refine ⟨?_, fun _ => ⟨⟨.single, s.kmode⟩, by simp [Session.note], rfl⟩, late rfl rfl (Nat.le_succ _), fun p => direct_note (h.direct p)⟩
    rw [leaks_note]; have := h.count; simp [Session.note]; omega

theorem Inv.finish {s : St} (h : Inv s) : Inv (finish s) := by
  have h' : Inv (unalt s) := by
    unfold unalt
    split
    · exact h
    split <;> exact ⟨h.count, h.plain, h.late, h.direct⟩
  exact ⟨h'.count, h'.plain, h'.late, h'.direct⟩

theorem Inv.step {s : St} (h : Inv s) (e : Ev) : Inv (step s e) := by
  cases e with
  | establish => exact (show Inv { s with connected := true } from ⟨h.count, h.plain, h.late, h.direct⟩).ask
  | tab => simp only [Session.step]; split; exacts [h.ask, h]
  | run c e => exact h.run c e
  | press c => exact h.press c false
  | slice c =>
    simp only [Session.step, onSlice]
    have h' : Inv { s with bumps := s.bumps + 1 } := ⟨h.count, h.plain, h.late, h.direct⟩
    split
    · exact h
    split
    · exact h'.group.note (by simp)
    · exact h'.press c true
  | singleDone =>
    simp only [Session.step, onSingleDone]
    split
    · exact h
    · rename_i hs
      have hc := h.count
      have hp : Plain s.log := h.plain (by omega)
      have h' : ∀ u, (u = true → 0 < s.singles - 1 ∨ Leaky s.log) → Inv { s with singles := s.singles - 1, unseen := u, inProgress := s.inProgress - 1 } :=
        fun u hu => ⟨by show s.inProgress - 1 = s.singles - 1 + leaks s.log; omega, fun _ => hp, fun hu' => .inr ⟨hp, hu hu'⟩, h.direct⟩
      split
      · exact (h' false (by simp)).ask
      · rename_i hi
        refine h' true fun _ => ?_
        by_cases hl : 0 < leaks s.log
        · exact .inr (leaks_pos.2 hl)
        · left; omega
  | groupDone =>
    simp only [Session.step, onGroupDone]
    split
    · exact h
    · exact (show Inv { s with groups := s.groups - 1 } from ⟨h.count, h.plain, h.late, h.direct⟩).ask
  | directDone =>
    simp only [Session.step, onDirectDone]
    split
    · exact h
    · rename_i hd
      have d := h.direct (by omega)
      exact ⟨h.count, h.plain, fun _ => .inl d, fun _ => d⟩
  | schedule t =>
    simp only [Session.step, onSchedule]
    have h' : Inv { s with mode := s.kmode, batch := s.kbatch } := ⟨h.count, h.plain, h.late, h.direct⟩
    split
    · exact h
    split
    · exact (show Inv { s with mode := s.kmode, batch := s.kbatch, deferred := 0 } from ⟨h.count, h.plain, h.late, h.direct⟩).group
    split
    · exact h'.group
    · exact h'.finish
  | setMode m => exact ⟨h.count, h.plain, h.late, h.direct⟩
  | setBatch b => exact ⟨h.count, h.plain, h.late, h.direct⟩

theorem inv (m : Mode) (b : Bool) (es : List Ev) : Inv (after (init m b) es) :=
  after_induction (P := fun _ s => Inv s) ⟨rfl, by simp [init], by simp [init], by simp [init]⟩ (fun _ _ e h => h.step e) es

/-- What a run has changed is dealt with only by asking for a schedule. -/
theorem asks_counted (s : St) (e : Ev) (h : s.unseen = true) (h' : (step s e).unseen = false) : s.asks < (step s e).asks := by
  cases e with
  | establish => simp [step, ask]
  | tab =>
    simp only [step] at h' ⊢
    split
    · simp [ask]
    · rename_i hc; rw [if_neg hc, h] at h'; cases h'
  | run c e =>
    simp only [step, onRun] at h' ⊢
    split
    · rename_i hc; rw [if_pos hc] at h'; simp [note, h] at h'
    · rename_i hc
      rw [if_neg hc] at h'
      split
      · rename_i hb
        rw [if_pos hb] at h'
        split
        · simp [ask, note]
        · rename_i he; rw [if_neg he] at h'; simp [group, note, h] at h'
      · rename_i hb; rw [if_neg hb] at h'; simp [note, h] at h'
  | press c =>
    exfalso
    have : (onPress c false s).unseen = s.unseen := by
      simp only [onPress]
      split_ifs <;> rfl
    rw [step, this, h] at h'
    cases h'
  | slice c =>
    exfalso
    have hp : ∀ s : St, (onPress c true s).unseen = s.unseen := by
      intro s
      simp only [onPress]
      split_ifs <;> rfl
    have : (onSlice c s).unseen = s.unseen := by
      unfold onSlice
      split
      · rfl
      · dsimp only
        split
        · rfl
        · rw [hp]
    rw [step, this, h] at h'
    cases h'
  | singleDone =>
    simp only [step, onSingleDone] at h' ⊢
    split
    · rename_i hc; rw [if_pos hc, h] at h'; cases h'
    · rename_i hc
      rw [if_neg hc] at h'
      split
      · simp [ask]
      · rename_i hb; rw [if_neg hb] at h'; cases h'
  | groupDone =>
    simp only [step, onGroupDone] at h' ⊢
    split
    · rename_i hc; rw [if_pos hc, h] at h'; cases h'
    · simp [ask]
  | directDone =>
    exfalso
    simp only [step, onDirectDone] at h'
    split at h'
    · rw [h] at h'; cases h'
    · cases h'
  | schedule t =>
    exfalso
    have hf : ∀ s : St, (finish s).unseen = s.unseen := by
      intro s
      simp only [finish, unbump, unalt]
      split_ifs <;> rfl
    have : (onSchedule t s).unseen = s.unseen := by
      simp only [onSchedule]
      split_ifs <;> first | rfl | rw [hf]
    rw [step, this, h] at h'
    cases h'
  | setMode m => rw [step] at h'; rw [h] at h'; cases h'
  | setBatch b => rw [step] at h'; rw [h] at h'; cases h'

/-- The end of a run, after which the client asks. -/
example : (after (init .lazy false) [.establish, .run true false]).unseen = false ∧ (after (init .lazy false) [.establish, .run true false]).asks = 1 ∧
    (after (init .lazy false) [.establish, .run true false, .singleDone]).asks = 2 := by decide

/-- When everything the user has started has come to its end, the client has asked for a schedule since, if runs were not put off or carried out in batches in the same session
in which others were carried out one by one, and none was carried out in alternate mode with incremental reactivity. What is missing: just these cases (`late_after_batch`,
`late_after_deferred`, `late_direct`). -/
theorem asked_partial (m : Mode) (b : Bool) (es : List Ev) (hd : ¬ Direct (after (init m b) es).log)
    (hm : ¬ (Plain (after (init m b) es).log ∧ Leaky (after (init m b) es).log)) (hi : Idle (after (init m b) es)) : (after (init m b) es).unseen = false := by
  cases hu : (after (init m b) es).unseen with
  | false => rfl
  | true =>
    exfalso
    rcases (inv m b es).late hu with d | ⟨p, q | q⟩
    · exact hd d
    · rw [hi.1] at q; omega
    · exact hm ⟨p, q⟩

/-- Two runs, one after the other before the first has come to its end, then `%flow reactivity incremental` and another two. -/
example : (after (init .lazy true) [.establish, .schedule false, .run true false, .run true false, .singleDone, .singleDone, .schedule false, .setBatch false, .run true false,
    .run false false, .singleDone, .singleDone]).unseen = false := by
  refine asked_partial _ _ _ ?_ ?_ ?_ <;> simp [after, step, ask, init, onRun, note, onSingleDone, onSchedule, finish, unalt, unbump, Direct, Leaky, Plain, Idle]

/-- Once a run was put off or carried out in a batch, the end of a run that is carried out by itself never makes the client ask for a schedule again. -/
theorem never_again (m : Mode) (b : Bool) (es es' : List Ev) (h : Leaky (after (init m b) es).log) :
    (step (after (init m b) (es ++ es')) .singleDone).asks = (after (init m b) (es ++ es')).asks := by
  have press : ∀ c d (t : St), Leaky t.log → Leaky (onPress c d t).log := by
    intro c d t ht
    unfold onPress
    dsimp only
    split
    · exact leaky_note ht
    split
    · exact ht
    split
    · exact ht
    split
    · split <;> exact leaky_note ht
    split
    · exact leaky_note ht
    split <;> exact leaky_note ht
  have grow : ∀ (es' : List Ev), Leaky (after (after (init m b) es) es').log := by
    intro es'
    refine after_induction (P := fun _ s => Leaky s.log) h (fun _ t e ht => ?_) es'
    cases e with
    | run c e => simp only [step, onRun]; split; exact leaky_note ht; split; split; exacts [leaky_note ht, leaky_note ht, leaky_note ht]
    | press c => exact press c false t ht
    | slice c => simp only [step, onSlice]; split; exact ht; split; exact leaky_note ht; exact press c true _ ht
    | schedule t => simp only [step, onSchedule, finish, unalt, unbump]; split; exact ht; split; exact ht; split; exact ht; split; exact ht; split <;> exact ht
    | singleDone => simp only [step, onSingleDone]; split; exact ht; split <;> exact ht
    | groupDone => simp only [step, onGroupDone]; split <;> exact ht
    | directDone => simp only [step, onDirectDone]; split <;> exact ht
    | tab => simp only [step]; split <;> exact ht
    | establish => exact ht
    | setMode m => exact ht
    | setBatch b => exact ht
  have hl : 0 < leaks (after (init m b) (es ++ es')).log := leaks_pos.1 (by rw [after_append]; exact grow es')
  have hc := (inv m b (es ++ es')).count
  simp only [step, onSingleDone]
  split
  · rfl
  · rename_i hs
    rw [if_neg (by omega)]

example : Leaky (after (init .reactive true) [.establish, .schedule false, .run true false]).log := ⟨⟨.batch, .reactive⟩, by decide, .inr rfl⟩

/-! ## Alternate mode -/

/-- What holds as long as batch or incremental reactivity is not changed; `m` is the mode that the user has chosen. -/
structure Modes (b : Bool) (m : Mode) (s : St) : Prop where
  batch : s.batch = b
  kbatch : s.kbatch = b
  same : s.mode = s.kmode
  mode : s.kmode = if b = false ∧ 0 < s.alts then m.flip else m

theorem Modes.keep {b : Bool} {m : Mode} {s t : St} (h : Modes b m s) (h1 : t.batch = s.batch) (h2 : t.kbatch = s.kbatch) (h3 : t.mode = s.mode) (h4 : t.kmode = s.kmode)
    (h5 : t.alts = s.alts) : Modes b m t := ⟨by rw [h1, h.batch], by rw [h2, h.kbatch], by rw [h3, h4, h.same], by rw [h4, h5, h.mode]⟩

theorem Modes.press {b : Bool} {m : Mode} {s : St} (h : Modes b m s) (code cells : Bool) : Modes b m (onPress code cells s) := by
  have hb := h.batch
  have hm := h.mode
  unfold onPress
  split
  · exact h.keep rfl rfl rfl rfl rfl
  split
  · exact h
  split
  · exact h
  dsimp only
  split
  · rename_i hbf
    simp only [hb, Bool.not_eq_true'] at hbf
    subst hbf
    split
    · rename_i h1
      have h0 : s.alts = 0 := by omega
      have hm' : s.kmode = m := by rw [hm, if_neg]; simp [h0]
      refine ⟨hb, h.kbatch, by simp [note, toggle, h.same], ?_⟩
      simp [note, toggle, hm', h0]
    · rename_i h1
      refine ⟨hb, h.kbatch, h.same, ?_⟩
      rw [if_pos ⟨rfl, by omega⟩] at hm
      simp [note, hm]
  · rename_i hbt
    have hbt : b = true := by simpa [hb] using hbt
    have hm' : s.kmode = m := by rw [hm, if_neg]; simp [hbt]
    split
    · exact ⟨hb, h.kbatch, h.same, by simp [note, group, hm', hbt]⟩
    split
    · exact ⟨hb, h.kbatch, h.same, by simp [note, group, hm', hbt]⟩
    · exact ⟨hb, h.kbatch, h.same, by simp [note, group, hm', hbt]⟩

theorem Mode.flip_flip (m : Mode) : m.flip.flip = m := by cases m <;> rfl

theorem Modes.finish {b : Bool} {m : Mode} {s : St} (h : Modes b m s) : Modes b m (finish s) := by
  have h' : Modes b m (unalt s) := by
    have hb := h.batch
    have hm := h.mode
    unfold unalt
    split
    · exact h
    · rename_i ha
      split
      · rename_i h1
        simp only [hb, Bool.not_eq_true'] at h1
        obtain ⟨h0, rfl⟩ := h1
        rw [if_pos ⟨rfl, by omega⟩] at hm
        refine ⟨hb, h.kbatch, by simp [toggle, h.same], ?_⟩
        simp [toggle, hm, Mode.flip_flip]
      · rename_i h1
        refine ⟨hb, h.kbatch, h.same, ?_⟩
        show s.kmode = if b = false ∧ 0 < s.alts - 1 then m.flip else m
        rw [hm]
        cases b with
        | true => simp
        | false =>
          simp only [hb, Bool.not_false, and_true] at h1
          rw [if_pos ⟨rfl, by omega⟩, if_pos ⟨rfl, by omega⟩]
  exact h'.keep rfl rfl rfl rfl rfl

theorem Modes.step {b : Bool} {m : Mode} {s : St} (h : Modes b m s) {e : Ev} (he : ∀ b', e ≠ .setBatch b') (hm : ∀ m', e ≠ .setMode m') : Modes b m (step s e) := by
  cases e with
  | establish => exact h.keep rfl rfl rfl rfl rfl
  | tab => simp only [Session.step]; split; exacts [h.keep rfl rfl rfl rfl rfl, h]
  | run c e =>
    simp only [Session.step, onRun]
    split
    · exact h.keep rfl rfl rfl rfl rfl
    split
    · split <;> exact h.keep rfl rfl rfl rfl rfl
    · exact h.keep rfl rfl rfl rfl rfl
  | press c => exact h.press c false
  | slice c =>
    simp only [Session.step, onSlice]
    split
    · exact h
    split
    · exact h.keep rfl rfl rfl rfl rfl
    · exact (h.keep (t := { s with bumps := s.bumps + 1 }) rfl rfl rfl rfl rfl).press c true
  | singleDone => simp only [Session.step, onSingleDone]; split; exact h; split <;> exact h.keep rfl rfl rfl rfl rfl
  | groupDone => simp only [Session.step, onGroupDone]; split; exacts [h, h.keep rfl rfl rfl rfl rfl]
  | directDone => simp only [Session.step, onDirectDone]; split; exacts [h, h.keep rfl rfl rfl rfl rfl]
  | schedule t =>
    simp only [Session.step, onSchedule]
    have h' : Modes b m { s with mode := s.kmode, batch := s.kbatch } := ⟨h.kbatch, h.kbatch, rfl, h.mode⟩
    split
    · exact h
    split
    · exact h'.keep rfl rfl rfl rfl rfl
    split
    · exact h'.keep rfl rfl rfl rfl rfl
    · exact h'.finish
  | setMode m' => exact absurd rfl (hm m')
  | setBatch b' => exact absurd rfl (he b')

theorem chosen_append (m : Mode) (es : List Ev) (e : Ev) : chosen m (es ++ [e]) = match e with
    | .setMode m' => m'
    | _ => chosen m es := by
  induction es generalizing m with
  | nil => cases e <;> rfl
  | cons a es ih => cases a <;> simp only [List.cons_append, chosen, ih]

theorem modes (m : Mode) (b : Bool) (es : List Ev) (h : Steady es) : Modes b (chosen m es) (after (init m b) es) := by
  refine after_induction (P := fun es s => Steady es → Modes b (chosen m es) s) (fun _ => ⟨rfl, rfl, rfl, by simp [init, chosen]⟩) (fun es s e ih hs => ?_) es h
  have ih := ih (fun b' hb' => hs b' (by simp [hb']))
  rw [chosen_append]
  cases e with
  | setMode m' => exact ⟨ih.batch, ih.kbatch, rfl, by simp [step]⟩
  | setBatch b' => exact absurd (by simp) (hs b')
  | _ => exact ih.step (by simp) (by simp)

/-- The kernel is in the mode that the user has chosen, or with incremental reactivity in the other one as long as runs in alternate mode are counted as under way; and the client
knows. What is missing: changes between batch and incremental reactivity (`switched`). -/
theorem mode_partial (m : Mode) (b : Bool) (es : List Ev) (h : Steady es) : (after (init m b) es).mode = (after (init m b) es).kmode ∧
    (after (init m b) es).kmode = if b = false ∧ 0 < (after (init m b) es).alts then (chosen m es).flip else chosen m es :=
  ⟨(modes m b es h).same, (modes m b es h).mode⟩

/-- A run that the user starts is carried out in the mode they have chosen, in reactive mode with all that depends on it if reactivity is in batches – with incremental reactivity,
if no run in alternate mode is counted as under way. What is missing: the run after a run in alternate mode (`lingers`). -/
theorem run_partial (m : Mode) (b : Bool) (es : List Ev) (code empty : Bool) (h : Steady es) (hc : (after (init m b) es).connected = true)
    (ha : b = true ∨ (after (init m b) es).alts = 0) : (step (after (init m b) es) (.run code empty)).log =
      (after (init m b) es).log ++ [⟨if chosen m es = .reactive ∧ b = true ∧ code = true then .batch else .single, chosen m es⟩] := by
  have hm := modes m b es h
  have hk : (after (init m b) es).kmode = chosen m es := by
    rw [hm.mode, if_neg]; rintro ⟨h1, h2⟩; rcases ha with ha | ha
    · rw [h1] at ha; exact Bool.noConfusion ha
    · omega
  have hs := hm.same
  have hb := hm.batch
  simp only [step, onRun, hc, Bool.not_true, hs, hb, hk]
  split
  · contradiction
  · split
    · split <;> simp [note, ask, group]
    · simp [note]

/-- A run in alternate mode is carried out in the other mode: with incremental reactivity the kernel is in the other mode, with batches all that depends on the cell is run, too, exactly
if the chosen mode is `lazy`. What is missing: as for `mode_partial`. -/
theorem press_partial (m : Mode) (b : Bool) (es : List Ev) (h : Steady es) (hc : (after (init m b) es).connected = true) :
    (step (after (init m b) es) (.press true)).log = (after (init m b) es).log ++
      [if b then ⟨if chosen m es = .lazy then .altAll else .altOne, chosen m es⟩ else ⟨.direct, (chosen m es).flip⟩] := by
  have hm := modes m b es h
  have hk := hm.mode
  have hs := hm.same
  have hb := hm.batch
  cases b with
  | true =>
    simp only [Bool.true_eq_false, false_and, if_false] at hk
    simp only [step, onPress, hc, hb, hs, hk, if_true]
    split
    · contradiction
    · simp
      split <;> simp [note, group]
  | false =>
    simp only [step, onPress, hc, hb]
    by_cases ha : (after (init m false) es).alts = 0
    · simp [ha] at hk
      simp [ha, note, toggle, hk]
    · rw [if_pos ⟨rfl, by omega⟩] at hk
      simp [ha, note, hk]

/-- Reactive mode and incremental reactivity; after a run in alternate mode and its schedule, everything is as before. -/
example : (after (init .reactive false) [.establish, .schedule false, .press true, .directDone, .schedule false]).kmode = .reactive ∧
    (step (after (init .reactive false) [.establish, .schedule false]) (.press true)).log = [⟨.direct, .lazy⟩] := by decide

example : (step (after (init .reactive true) [.establish, .schedule false]) (.press true)).log = [⟨.altOne, .reactive⟩] :=
  press_partial .reactive true [.establish, .schedule false] (by simp [Steady]) rfl

example : (step (after (init .lazy false) [.establish, .setMode .reactive, .schedule false, .press true, .schedule false]) (.run true false)).log =
    [⟨.direct, .lazy⟩, ⟨.single, .reactive⟩] :=
  run_partial .lazy false [.establish, .setMode .reactive, .schedule false, .press true, .schedule false] true false (by simp [Steady]) rfl (.inr rfl)

/-- Alternate mode ends: when as many schedules with nothing to run have arrived as runs in alternate mode are counted as under way, the kernel is in the mode that the user has
chosen. What is missing: as for `mode_partial`; that so many schedules arrive (`lingers`, `twice`). -/
theorem returns_partial (m : Mode) (b : Bool) (es es' : List Ev) (h : Steady (es ++ es')) (ho : Ordinary es') (hc : (after (init m b) es).connected = true)
    (hd : (after (init m b) es).deferred = 0) (he : (after (init m b) es).alts ≤ ends es') : (after (init m b) (es ++ es')).kmode = chosen m (es ++ es') := by
  have key : ∀ (es' : List Ev) (s : St), Ordinary es' → s.connected = true → s.deferred = 0 → (after s es').alts ≤ s.alts - ends es' := by
    intro es'
    induction es' with
    | nil => intro s _ _ _; exact Nat.le_refl _
    | cons e es' ih =>
      intro s ho hc hd
      have ho' : Ordinary es' := fun c => ⟨fun h => (ho c).1 (by simp [h]), fun h => (ho c).2 (by simp [h])⟩
      have one : (step s e).connected = true ∧ (step s e).deferred = 0 ∧ (step s e).alts ≤ s.alts - (ends (e :: es') - ends es') := by
        cases e with
        | press c => exact absurd (by simp) (ho c).1
        | slice c => exact absurd (by simp) (ho c).2
        | schedule t =>
          cases t with
          | true => simp [step, onSchedule, hc, hd, ends, group]
          | false =>
            simp only [step, onSchedule, hc, hd, ends, finish, unalt, unbump]
            split
            · contradiction
            split
            · contradiction
            split
            · contradiction
            split
            · exact ⟨rfl, rfl, by simp only; omega⟩
            split
            · exact ⟨rfl, rfl, by simp only [toggle]; omega⟩
            · exact ⟨rfl, rfl, by simp only; omega⟩
        | run c e => simp only [step, onRun, hc, ends]; split; contradiction; split; split; all_goals exact ⟨rfl, hd, by simp [note, ask, group]⟩
        | singleDone => simp only [step, onSingleDone, ends]; split; exact ⟨hc, hd, by simp⟩; split <;> exact ⟨hc, hd, by simp [ask]⟩
        | groupDone => simp only [step, onGroupDone, ends]; split <;> exact ⟨hc, hd, by simp [ask]⟩
        | directDone => simp only [step, onDirectDone, ends]; split <;> exact ⟨hc, hd, by simp⟩
        | tab => simp only [step, ends]; split <;> exact ⟨hc, hd, by simp [ask]⟩
        | establish => exact ⟨rfl, hd, by simp [step, ends, ask]⟩
        | setMode m => exact ⟨hc, hd, by simp [step]⟩
        | setBatch b => exact ⟨hc, hd, by simp [step, ends]⟩
      have := ih (step s e) ho' one.1 one.2.1
      have h3 := one.2.2
      have mono : ends es' ≤ ends (e :: es') := by
        cases e with
        | schedule t => cases t <;> simp [ends]
        | _ => simp [ends]
      show (after (step s e) es').alts ≤ _
      omega
  have h0 := key es' (after (init m b) es) ho hc hd
  rw [(modes m b (es ++ es') h).mode, if_neg]
  rintro ⟨_, h1⟩
  rw [after_append] at h1
  omega

/-- Two runs in alternate mode, `%flow order` in a cell run meanwhile, two schedules. -/
example : (after (init .reactive false) ([.establish, .schedule false, .press true, .press true] ++
    [.run true false, .directDone, .singleDone, .schedule false, .tab, .schedule false])).kmode = .reactive :=
  returns_partial .reactive false _ _ (by simp [Steady]) (by simp [Ordinary]) rfl rfl (by decide)

/-- The commands for slices run the slice, if the mode is `lazy` or reactivity is in batches and the active cell is a code cell. What is missing: reactive mode with incremental
reactivity (`slice_lost`). -/
theorem slice_partial (m : Mode) (b : Bool) (es : List Ev) (h : Steady es) (hc : (after (init m b) es).connected = true)
    (hx : (after (init m b) es).kmode = .lazy ∨ b = true) :
    ∃ k, (step (after (init m b) es) (.slice true)).log = (after (init m b) es).log ++ [⟨.slice, k⟩] := by
  have hm := modes m b es h
  have hs := hm.same
  have hb := hm.batch
  simp only [step, onSlice, hc, hs]
  split
  · contradiction
  split
  · exact ⟨_, rfl⟩
  · rename_i hl
    rcases hx with hx | rfl
    · exact absurd hx hl
    · exact ⟨_, by simp [onPress, hb, note, group]; rfl⟩

example : ∃ k, (step (after (init .reactive true) [.establish, .schedule false]) (.slice true)).log = [⟨.slice, k⟩] :=
  slice_partial .reactive true [.establish, .schedule false] (by simp [Steady]) rfl (.inr rfl)

end Verif.Session
