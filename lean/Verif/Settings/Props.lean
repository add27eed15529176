import Verif.Settings.Model
import Mathlib.Data.List.Basic
import Mathlib.Data.List.TakeWhile

/-! # Invalid values change no setting (C41); incremental reactivity and the schedule (C66) -/

namespace Verif.Settings

/-! ## Specification -/

/-- The user types `%flow <cmd> <value>`. -/
def typed (cmd : String) (value : Str) : Str := lit cmd ++ ' ' :: value

/-- Names of the commands, by setting. -/
def modeCmds : List String := ["mode", "exec_mode", "exec-mode"]
def scheduleCmds : List String := ["schedule", "exec_schedule", "execution_schedule", "exec-schedule"]
def orderCmds : List String :=
  ["direction", "flow_direction", "order", "flow_order", "semantics", "flow_semantics", "flow-order"]

/-- The values that the usage messages and the names in `config.py` offer, and the explicit aliases. -/
def modeValues : List String := ["lazy", "reactive", "normal"]
def scheduleValues : List String := ["liveness_based", "dag_based", "hybrid_dag_liveness_based"]
def orderValues : List String := ["any_order", "in_order", "unordered", "both", "ordered", "linear"]
def reactivityValues : List String := ["batch", "incremental"]

/-- `v` begins with one of `ps`. -/
def Begins (ps : List String) (v : Str) : Prop := ∃ p ∈ ps, lit p <+: v

/-! ## Lemmas -/

theorem splitOnce_append {c : Char} {a b : Str} (h : c ∉ a) : splitOnce c (a ++ c :: b) = some (a, b) := by
  have h1 : ∀ x ∈ a, (decide (x ≠ c)) = true := by
    intro x hx; simp only [ne_eq, decide_not, Bool.not_eq_eq_eq_not, Bool.not_true, decide_eq_false_iff_not]
    rintro rfl; exact h hx
  unfold splitOnce
  rw [List.dropWhile_append_of_pos h1, List.takeWhile_append_of_pos h1]
  simp

theorem splitOnce_none {c : Char} {a : Str} (h : c ∉ a) : splitOnce c a = none := by
  have h1 : ∀ x ∈ a, (decide (x ≠ c)) = true := by
    intro x hx; simp only [ne_eq, decide_not, Bool.not_eq_eq_eq_not, Bool.not_true, decide_eq_false_iff_not]
    rintro rfl; exact h hx
  unfold splitOnce
  rw [List.dropWhile_eq_nil_iff.2 h1]

theorem flowMagic_typed {cmd : String} {v : Str} (hc : ' ' ∉ lit cmd) (hv : '>' ∉ v) (s : S) :
    flowMagic (typed cmd v) s = handle (lit cmd) (strip v) s := by
  simp [flowMagic, typed, splitOnce_append hc, splitOnce_none hv]

theorem strip_strip (v : Str) : strip (strip v) = strip v := by
  have key : ∀ l : Str, (l.dropWhile isSpace).dropWhile isSpace = l.dropWhile isSpace := by
    intro l
    induction l with
    | nil => rfl
    | cons a l ih =>
      by_cases h : isSpace a = true
      · simp [h, ih]
      · simp [h]
  -- the first character of a stripped word is no white space
  have hhead : ∀ l : Str, ∀ a m, l.dropWhile isSpace = a :: m → isSpace a = false := by
    intro l a m h
    have := key l
    rw [h] at this
    by_contra hc
    simp only [Bool.not_eq_false] at hc
    rw [List.dropWhile_cons_of_pos hc] at this
    have h2 : (m.dropWhile isSpace).length ≤ m.length := (List.dropWhile_suffix _).length_le
    rw [this] at h2
    exact Nat.not_succ_le_self _ h2
  unfold strip
  set w := v.dropWhile isSpace with hw
  have h1 : ((w.reverse.dropWhile isSpace).reverse).dropWhile isSpace = (w.reverse.dropWhile isSpace).reverse := by
    rcases h : (w.reverse.dropWhile isSpace).reverse with _ | ⟨a, m⟩
    · rfl
    · have hpre : (w.reverse.dropWhile isSpace).reverse <+: w := by
        have := List.dropWhile_suffix isSpace (l := w.reverse)
        simpa using List.reverse_prefix.2 this
      rw [h] at hpre
      obtain ⟨t, ht⟩ := hpre
      have ha : isSpace a = false := hhead v a (m ++ t) (by rw [← hw, ← ht]; rfl)
      rw [List.dropWhile_cons_of_neg (by simp [ha])]
  rw [h1, List.reverse_reverse, key]

theorem starts_iff {p : String} {v : Str} : starts p v = true ↔ lit p <+: v := by
  unfold starts; exact List.isPrefixOf_iff_prefix

/-! ## C41 -/

/-- **C41**, the part which holds: a schedule that does not begin with `liveness`, `dag` or `hybrid`, a direction
that does not begin with `any` or `in` and is not one of the aliases, and a reactivity other than `batch` and
`incremental` change no setting (upper and lower case and surrounding blanks do not matter for the latter two). Missing
for the full statement (refuted below): every unrecognised mode, and values which merely begin like a recognised one. -/
theorem invalid_unchanged_partial (v : Str) (hv : '>' ∉ v) (s : S) :
    (∀ cmd ∈ scheduleCmds, ¬ Begins ["liveness", "dag", "hybrid"] (strip v) → flowMagic (typed cmd v) s = s) ∧
    (∀ cmd ∈ orderCmds, ¬ Begins ["any", "in"] (strip (lower (strip v))) →
      (∀ w ∈ ["unordered", "both", "ordered", "linear"], strip (lower (strip v)) ≠ lit w) →
      flowMagic (typed cmd v) s = s) ∧
    ((∀ w ∈ reactivityValues, strip (lower (strip v)) ≠ lit w) → flowMagic (typed "reactivity" v) s = s) := by
  refine ⟨?_, ?_, ?_⟩
  · intro cmd hc hb
    have h0 : handle (lit cmd) (strip v) s = setSchedule (strip v) s ∧ ' ' ∉ lit cmd := by
      simp only [scheduleCmds, List.mem_cons, List.not_mem_nil, or_false] at hc
      rcases hc with rfl | rfl | rfl | rfl <;> exact ⟨rfl, by decide⟩
    rw [flowMagic_typed h0.2 hv, h0.1]
    have h1 : ∀ p ∈ ["liveness", "dag", "hybrid"], starts p (strip v) = false := by
      intro p hp
      by_contra h
      exact hb ⟨p, hp, starts_iff.1 (by simpa using h)⟩
    simp [setSchedule, h1 "liveness" (by simp), h1 "dag" (by simp), h1 "hybrid" (by simp)]
  · intro cmd hc hb ha
    have h0 : handle (lit cmd) (strip v) s = setOrder (strip v) s ∧ ' ' ∉ lit cmd := by
      simp only [orderCmds, List.mem_cons, List.not_mem_nil, or_false] at hc
      rcases hc with rfl | rfl | rfl | rfl | rfl | rfl | rfl <;> exact ⟨rfl, by decide⟩
    rw [flowMagic_typed h0.2 hv, h0.1]
    have h1 : ∀ p ∈ ["any", "in"], starts p (strip (lower (strip v))) = false := by
      intro p hp
      by_contra h
      exact hb ⟨p, hp, starts_iff.1 (by simpa using h)⟩
    simp [setOrder, h1 "any" (by simp), h1 "in" (by simp), ha "unordered" (by simp), ha "both" (by simp),
      ha "ordered" (by simp), ha "linear" (by simp)]
  · intro ha
    have h0 : handle (lit "reactivity") (strip v) s = setReactivity (strip v) s := rfl
    rw [flowMagic_typed (by decide) hv, h0]
    simp [setReactivity, ha "batch" (by simp [reactivityValues]), ha "incremental" (by simp [reactivityValues])]

/-- **C41**, counterpart: recognised values set the setting that is named, and no other one, except that incremental
reactivity also replaces the schedule `dag` by `hybrid`. -/
theorem valid_sets (v : Str) (hv : '>' ∉ v) (s : S) :
    (∀ cmd ∈ modeCmds, (strip v = lit "lazy" ∨ strip v = lit "normal" → flowMagic (typed cmd v) s = { s with mode := .lazy }) ∧
      (strip v = lit "reactive" → flowMagic (typed cmd v) s = { s with mode := .reactive })) ∧
    (∀ cmd ∈ scheduleCmds,
      (strip v = lit "liveness_based" → flowMagic (typed cmd v) s = { s with schedule := .liveness }) ∧
      (strip v = lit "dag_based" → flowMagic (typed cmd v) s = { s with schedule := .dag }) ∧
      (strip v = lit "hybrid_dag_liveness_based" → flowMagic (typed cmd v) s = { s with schedule := .hybrid })) ∧
    (∀ cmd ∈ orderCmds,
      (strip v = lit "any_order" ∨ strip v = lit "unordered" ∨ strip v = lit "both" →
        flowMagic (typed cmd v) s = { s with order := .any }) ∧
      (strip v = lit "in_order" ∨ strip v = lit "ordered" ∨ strip v = lit "linear" →
        flowMagic (typed cmd v) s = { s with order := .inOrder })) ∧
    (strip v = lit "batch" → flowMagic (typed "reactivity" v) s = { s with reactivity := .batch }) ∧
    (strip v = lit "incremental" → flowMagic (typed "reactivity" v) s = { s with
      reactivity := .incremental
      schedule := if s.schedule = .dag then .hybrid else s.schedule }) := by
  refine ⟨?_, ?_, ?_, ?_, ?_⟩
  · intro cmd hc
    have h0 : (∀ l, handle (lit cmd) l s = setMode l s) ∧ ' ' ∉ lit cmd := by
      simp only [modeCmds, List.mem_cons, List.not_mem_nil, or_false] at hc
      rcases hc with rfl | rfl | rfl <;> exact ⟨fun _ => rfl, by decide⟩
    rw [flowMagic_typed h0.2 hv, h0.1]
    constructor
    · rintro (h | h) <;> rw [h] <;> rfl
    · intro h; rw [h]; rfl
  · intro cmd hc
    have h0 : (∀ l, handle (lit cmd) l s = setSchedule l s) ∧ ' ' ∉ lit cmd := by
      simp only [scheduleCmds, List.mem_cons, List.not_mem_nil, or_false] at hc
      rcases hc with rfl | rfl | rfl | rfl <;> exact ⟨fun _ => rfl, by decide⟩
    rw [flowMagic_typed h0.2 hv, h0.1]
    exact ⟨fun h => (by rw [h]; rfl), fun h => (by rw [h]; rfl), fun h => (by rw [h]; rfl)⟩
  · intro cmd hc
    have h0 : (∀ l, handle (lit cmd) l s = setOrder l s) ∧ ' ' ∉ lit cmd := by
      simp only [orderCmds, List.mem_cons, List.not_mem_nil, or_false] at hc
      rcases hc with rfl | rfl | rfl | rfl | rfl | rfl | rfl <;> exact ⟨fun _ => rfl, by decide⟩
    rw [flowMagic_typed h0.2 hv, h0.1]
    constructor
    · rintro (h | h | h) <;> rw [h] <;> rfl
    · rintro (h | h | h) <;> rw [h] <;> rfl
  · intro h
    have h0 : ∀ l, handle (lit "reactivity") l s = setReactivity l s := fun _ => rfl
    rw [flowMagic_typed (by decide) hv, h0, h]; rfl
  · intro h
    have h0 : ∀ l, handle (lit "reactivity") l s = setReactivity l s := fun _ => rfl
    rw [flowMagic_typed (by decide) hv, h0, h]
    have h1 : strip (lower (lit "incremental")) = lit "incremental" := by decide
    have h2 : ¬ (lit "incremental" = lit "batch") := by decide
    unfold setReactivity
    simp only [h1, h2, if_false, if_true]
    cases hs : s.schedule <;> simp [hs]

/-- The settings of a fresh session. -/
def fresh : S where
  dataflow := true
  trace := false
  highlights := .executed
  mode := .lazy
  schedule := .dag
  order := .inOrder
  reactivity := .batch
  warnOoo := false
  lintOoo := false
  syntaxOn := true
  syntaxOnly := false

/-- Unrecognised values, with no effect. -/
example : flowMagic (typed "schedule" (lit "livenes")) fresh = fresh ∧
    flowMagic (typed "order" (lit " sideways ")) fresh = fresh ∧
    flowMagic (typed "reactivity" (lit "eager")) fresh = fresh := by decide

/-- **C41 is violated** by `mode`: whatever is not recognised sets the mode to reactive, because `ExecutionMode(...)`
never raises. -/
theorem invalid_violated_mode (v : Str) (hv : '>' ∉ v) (s : S) (h1 : strip v ≠ lit "lazy") (h2 : strip v ≠ lit "normal") :
    flowMagic (typed "mode" v) s = { s with mode := .reactive } := by
  have h0 : ∀ l, handle (lit "mode") l s = setMode l s := fun _ => rfl
  rw [flowMagic_typed (by decide) hv, h0]
  unfold setMode modeOf
  simp only [strip_strip]
  rw [if_neg h2, strip_strip, if_neg h1]

/-- For instance a misspelt `lazy`, and the value which the usage message itself prints for it. -/
example : (flowMagic (typed "mode" (lit "lzay")) fresh).mode = .reactive ∧
    (flowMagic (typed "mode" (lit "ExecutionMode.LAZY")) fresh).mode = .reactive ∧ fresh.mode = .lazy := by decide

/-- **C41 is violated** by values which begin like a recognised one: the direction `invalid` sets the in-order
semantics, the schedule `dagger` the DAG schedule. -/
theorem invalid_violated_prefix : ("invalid" ∉ orderValues ∧
      (flowMagic (typed "direction" (lit "invalid")) { fresh with order := .any }).order = .inOrder) ∧
    ("dagger" ∉ scheduleValues ∧
      (flowMagic (typed "schedule" (lit "dagger")) { fresh with schedule := .liveness }).schedule = .dag) := by
  decide

/-- The commands that change settings. -/
def settingCmds : List String :=
  ["enable", "disable", "on", "off", "trace_messages", "hls", "nohls", "highlight", "highlights", "mode", "exec_mode",
   "schedule", "exec_schedule", "execution_schedule", "direction", "flow_direction", "order", "flow_order", "semantics",
   "flow_semantics", "reactivity", "syntax_transforms", "syntax_transforms_only", "toggle_reactivity"]

/-- **C41**, commands: a command which is none of those above and does not end in `warn_ooo` or `lint_ooo` changes no
setting, whatever follows it. -/
theorem unknown_command_partial (cmd line : Str) (s : S) (h : ∀ c ∈ settingCmds, dashes cmd ≠ lit c)
    (hw : ends "warn_ooo" (dashes cmd) = false) (hl : ends "lint_ooo" (dashes cmd) = false) :
    handle cmd line s = s := by
  have h' : ∀ c ∈ settingCmds, (decide (lit c = dashes cmd)) = false := by
    intro c hc; simpa using fun e => h c hc e.symm
  simp only [settingCmds, List.forall_mem_cons] at h'
  obtain ⟨a1, a2, a3, a4, a5, a6, a7, a8, a9, a10, a11, a12, a13, a14, a15, a16, a17, a18, a19, a20, a21, a22, a23,
    a24⟩ := h'
  unfold handle
  simp only [List.any_cons, List.any_nil, a1, a2, a3, a4, a5, a6, a7, a8, a9, a10, a11, a12, a13, a14, a15, a16, a17,
    a18, a19, a20, a21, a22, a23, a24, hw, hl, Bool.or_false, Bool.false_eq_true, if_false, ite_self]

example : flowMagic (lit "shcedule dag_based") { fresh with schedule := .liveness } =
    { fresh with schedule := .liveness } := by decide

/-- **C41 is violated** by unknown commands that end in `warn_ooo` or `lint_ooo`. -/
theorem unknown_command_violated : (flowMagic (lit "dont_warn_ooo") fresh).warnOoo = true ∧
    fresh.warnOoo = false := by decide

/-- Toggling the reactivity twice changes nothing. -/
theorem toggle_twice (s : S) : toggleReactivity (toggleReactivity s) = s := by
  unfold toggleReactivity
  rcases s with ⟨_, _, _, m, _, _, _, _, _, _, _⟩
  cases m <;> rfl

/-! ## C66 -/

/-- The combination that `set_reactivity` rules out. -/
def Compatible (s : S) : Prop := s.reactivity = .incremental → s.schedule = .liveness ∨ s.schedule = .hybrid

theorem setReactivity_compatible (line : Str) (s : S) (h : Compatible s) : Compatible (setReactivity line s) := by
  unfold setReactivity
  simp only
  split
  · intro h; cases h
  · split
    · intro _
      show (if s.schedule = .liveness ∨ s.schedule = .hybrid then s else { s with schedule := .hybrid }).schedule = _ ∨
        (if s.schedule = .liveness ∨ s.schedule = .hybrid then s else { s with schedule := .hybrid }).schedule = _
      by_cases hs : s.schedule = .liveness ∨ s.schedule = .hybrid
      · rw [if_pos hs]; exact hs
      · rw [if_neg hs]; exact .inr rfl
    · exact h

theorem compatible_ite {c : Prop} [Decidable c] {a b : S} (h1 : c → Compatible a) (h2 : ¬ c → Compatible b) :
    Compatible (if c then a else b) := by
  by_cases h : c
  · rw [if_pos h]; exact h1 h
  · rw [if_neg h]; exact h2 h

/-- **C66**: no command other than one that selects the schedule leads to incremental reactivity with the DAG schedule.
Missing for the full statement (refuted below): the schedule commands. -/
theorem compatible_partial (cmd line : Str) (s : S) (h : Compatible s)
    (hc : ∀ c ∈ scheduleCmds, dashes cmd ≠ lit c) : Compatible (handle cmd line s) := by
  have keep : ∀ s' : S, s'.reactivity = s.reactivity → s'.schedule = s.schedule → Compatible s' := by
    intro s' h1 h2 h3; rw [h2]; exact h (h1 ▸ h3)
  have hsch : ([("schedule" : String), "exec_schedule", "execution_schedule"].any fun x => lit x = dashes cmd) = false := by
    simp only [scheduleCmds, List.forall_mem_cons] at hc
    simp [Ne.symm hc.1, Ne.symm hc.2.1, Ne.symm hc.2.2.1]
  refine compatible_ite (fun _ => ?_) fun _ => compatible_ite (fun _ => h) fun _ => compatible_ite (fun _ => ?_) fun _ =>
    compatible_ite (fun _ => ?_) fun _ => compatible_ite (fun _ => h) fun _ => compatible_ite (fun _ => keep _ rfl rfl)
    fun _ => compatible_ite (fun h1 => (Bool.false_ne_true (hsch.symm.trans h1)).elim) fun _ =>
    compatible_ite (fun _ => ?_) fun _ => compatible_ite (fun _ => setReactivity_compatible line s h) fun _ =>
    compatible_ite (fun _ => h) fun _ => compatible_ite (fun _ => keep _ rfl rfl) fun _ =>
    compatible_ite (fun _ => keep _ rfl rfl) fun _ =>
    compatible_ite (fun _ => compatible_ite (fun _ => keep _ rfl rfl) fun _ => h) fun _ =>
    compatible_ite (fun _ => keep _ rfl rfl) fun _ => compatible_ite (fun _ => ?_) fun _ => h
  · exact compatible_ite (fun _ => keep _ rfl rfl) fun _ => compatible_ite (fun _ => keep _ rfl rfl) fun _ => h
  · exact compatible_ite (fun _ => h) fun _ => compatible_ite (fun _ => keep _ rfl rfl) fun _ =>
      compatible_ite (fun _ => keep _ rfl rfl) fun _ => h
  · exact compatible_ite (fun _ => keep _ rfl rfl) fun _ => compatible_ite (fun _ => keep _ rfl rfl) fun _ =>
      compatible_ite (fun _ => keep _ rfl rfl) fun _ => compatible_ite (fun _ => keep _ rfl rfl) fun _ =>
      compatible_ite (fun _ => keep _ rfl rfl) fun _ => compatible_ite (fun _ => keep _ rfl rfl) fun _ =>
      compatible_ite (fun _ => keep _ rfl rfl) fun _ => h
  · exact compatible_ite (fun _ => keep _ rfl rfl) fun _ => compatible_ite (fun _ => keep _ rfl rfl) fun _ => h
  · unfold toggleReactivity; split <;> exact keep _ rfl rfl

example : Compatible fresh ∧
    (handle (lit "reactivity") (lit "incremental") fresh).schedule = .hybrid ∧ fresh.schedule = .dag := by
  refine ⟨fun h => ?_, by decide, rfl⟩
  exact absurd h (by decide)

/-- **C66 is violated**: `%flow reactivity incremental` changes the schedule because the two do not go together, but a
following `%flow schedule dag_based` is accepted. -/
theorem compatible_violated : ¬ Compatible (flowMagic (lit "schedule dag_based")
    (flowMagic (lit "reactivity incremental") fresh)) := by
  unfold Compatible; decide

end Verif.Settings
