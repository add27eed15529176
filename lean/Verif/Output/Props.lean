import Verif.Output.Model
import Mathlib.Data.List.Induction

/-!
# What is shown and what is recorded (C51, C82) -/

namespace Verif.Output

/-! ## What is shown -/

/-- The messages a program sends to the front end, in order. -/
def sent : Ev → Option Msg
  | .out (.publish d true) => some (.data d)
  | .out .clear => some .clear
  | _ => none

/-- The text a program writes to standard error (`true`) or standard output, in order. -/
def text (b : Bool) : Ev → Option Nat
  | .out (.write _ b' d true) => if b' = b then some d else none
  | _ => none

theorem publish_front (d : Nat) (ok : Bool) (s : St) (p : Pub) :
    (publish s d ok p).front = s.front ++ (if ok then [.data d] else []) := by
  induction p with
  | orig => cases ok <;> simp [publish]
  | tee p c ih => cases ok <;> simp_all [publish, St.record]

theorem clear_front (s : St) (p : Pub) : (clearOutput s p).front = s.front ++ [.clear] := by
  induction p with
  | orig => simp [clearOutput]
  | tee p c ih => simpa [clearOutput] using ih

theorem write_front (s : St) (m b : Bool) (d : Nat) (ok : Bool) : (write s m b d ok).front = s.front := by
  unfold write
  cases s.sys b with
  | file n => cases ok <;> simp [St.emit]
  | proxy =>
    cases s.base b with
    | proxy => rfl
    | file n =>
      cases ok with
      | false => rfl
      | true => cases m <;> cases s.teed <;> simp [St.emit, St.record]

theorem proxies_pos (s : St) (h : s.sysOut = .proxy) : proxies s = s := if_pos h

theorem proxies_neg (s : St) (h : s.sysOut ≠ .proxy) : proxies s = { s with
    baseOut := s.sysOut
    baseErr := s.sysErr
    sysOut := .proxy
    sysErr := .proxy } := if_neg h

theorem start_front (s : St) (k : Kind) : (start s k).front = s.front := by
  cases k with
  | traced =>
    by_cases h : s.sysOut = .proxy
    · simp only [start, initModule, proxies_pos (reset s) h]
      rfl
    · simp only [start, initModule, proxies_neg (reset s) h]
      rfl
  | syntaxError => rfl
  | unrecorded => rfl
  | untraced => rfl

theorem done_front (s : St) : (done s).front = s.front := by
  unfold done exit
  cases s.capturing <;> cases s.inContext <;> rfl

theorem ev_front (s : St) (e : Ev) : (ev s e).front = s.front ++ (sent e).toList := by
  cases e with
  | out o =>
    cases o with
    | write m b d ok => simp [ev, act, write_front, sent]
    | publish d ok => cases ok <;> simp [ev, act, publish_front, sent]
    | clear => simp [ev, act, clear_front, sent]
    | assign b t => cases b <;> simp [ev, act, sent]
  | start k => simp [ev, start_front, sent]
  | finish => simp [ev, done_front, sent]

/-- **C51**, forwarding of displays, in full: whatever cells are run, nested in whatever way, and whatever else they do, the front end
receives exactly what was displayed, once and in order. -/
theorem displays_forwarded (l : List Ev) (s : St) : (evs s l).front = s.front ++ l.filterMap sent := by
  induction l generalizing s with
  | nil => simp [evs]
  | cons e l ih =>
    have := ih (ev s e)
    simp only [evs, List.foldl_cons] at this ⊢
    rw [this, ev_front]
    cases h : sent e <;> simp [h]

/-- The program does not assign `sys.stdout` or `sys.stderr`. -/
def Leaves : Ev → Prop
  | .out (.assign _ _) => False
  | _ => True

/-- The streams lead to the real ones. -/
def Good (s : St) : Prop :=
  (s.sysOut = .file 0 ∧ s.sysErr = .file 1) ∨ (s.sysOut = .proxy ∧ s.sysErr = .proxy ∧ s.baseOut = .file 0 ∧ s.baseErr = .file 1)

/-- The number of the real stream. -/
def real : Bool → Nat
  | true => 1
  | false => 0

theorem publish_rest (s : St) (d : Nat) (ok : Bool) (p : Pub) :
    ∃ kept front, publish s d ok p = { s with
      kept := kept
      front := front } := by
  induction p with
  | orig => cases ok <;> exact ⟨_, _, rfl⟩
  | tee p c ih =>
    obtain ⟨k, f, h⟩ := ih
    cases ok <;> simp only [publish, h] <;> exact ⟨_, _, rfl⟩

theorem clear_rest (s : St) (p : Pub) :
    ∃ kept front, clearOutput s p = { s with
      kept := kept
      front := front } := by
  induction p with
  | orig => exact ⟨_, _, rfl⟩
  | tee p c ih =>
    obtain ⟨k, f, h⟩ := ih
    simp only [clearOutput, h]
    exact ⟨_, _, rfl⟩

theorem write_good (s : St) (h : Good s) (m b : Bool) (d : Nat) (ok : Bool) :
    Good (write s m b d ok) ∧ (∀ b', (write s m b d ok).files (real b') = s.files (real b') ++ if ok ∧ b = b' then [d] else []) ∧
    (write s m b d ok).overflows = s.overflows := by
  unfold write
  rcases h with ⟨h1, h2⟩ | ⟨h1, h2, h3, h4⟩
  · have : s.sys b = .file (real b) := by cases b <;> assumption
    rw [this]
    cases ok with
    | false => exact ⟨.inl ⟨h1, h2⟩, by simp, rfl⟩
    | true =>
      refine ⟨.inl ⟨h1, h2⟩, fun b' => ?_, rfl⟩
      cases b <;> cases b' <;> simp [St.emit, real]
  · have : s.sys b = .proxy := by cases b <;> assumption
    rw [this]
    have : s.base b = .file (real b) := by cases b <;> assumption
    simp only [this]
    cases ok with
    | false => exact ⟨.inr ⟨h1, h2, h3, h4⟩, by simp, rfl⟩
    | true =>
      have hk : ∀ b', (s.emit (real b) d).files (real b') = s.files (real b') ++ if true ∧ b = b' then [d] else [] := by
        intro b'
        cases b <;> cases b' <;> simp [St.emit, real]
      cases m with
      | false => exact ⟨.inr ⟨h1, h2, h3, h4⟩, by simpa using hk, rfl⟩
      | true =>
        cases s.teed with
        | none => exact ⟨.inr ⟨h1, h2, h3, h4⟩, by simpa using hk, rfl⟩
        | some c => exact ⟨.inr ⟨h1, h2, h3, h4⟩, by simpa [St.record] using hk, rfl⟩

theorem start_good (s : St) (h : Good s) (k : Kind) :
    Good (start s k) ∧ (start s k).files = s.files ∧ (start s k).overflows = s.overflows := by
  cases k with
  | traced =>
    rcases h with ⟨h1, h2⟩ | ⟨h1, h2, h3, h4⟩
    · simp only [start, initModule, proxies_neg (reset s) (by simp [reset, h1])]
      exact ⟨.inr ⟨rfl, rfl, h1, h2⟩, rfl, rfl⟩
    · simp only [start, initModule, proxies_pos (reset s) h1]
      exact ⟨.inr ⟨h1, h2, h3, h4⟩, rfl, rfl⟩
  | syntaxError => exact ⟨h, rfl, rfl⟩
  | unrecorded => exact ⟨h, rfl, rfl⟩
  | untraced => exact ⟨h, rfl, rfl⟩

theorem done_good (s : St) (h : Good s) : Good (done s) ∧ (done s).files = s.files ∧ (done s).overflows = s.overflows := by
  unfold done exit
  cases s.capturing <;> cases s.inContext <;> exact ⟨h, rfl, rfl⟩

theorem ev_good (s : St) (h : Good s) (e : Ev) (he : Leaves e) :
    Good (ev s e) ∧ (∀ b, (ev s e).files (real b) = s.files (real b) ++ (text b e).toList) ∧ (ev s e).overflows = s.overflows := by
  cases e with
  | out o =>
    cases o with
    | write m b d ok =>
      obtain ⟨h1, h2, h3⟩ := write_good s h m b d ok
      refine ⟨h1, fun b' => ?_, h3⟩
      have := h2 b'
      simp only [ev, act]
      rw [this]
      cases ok <;> cases b <;> cases b' <;> simp [text]
    | publish d ok =>
      obtain ⟨k, f, hk⟩ := publish_rest s d ok s.pub
      simp only [ev, act, hk, text]
      exact ⟨h, by simp, trivial⟩
    | clear =>
      obtain ⟨k, f, hk⟩ := clear_rest s s.pub
      simp only [ev, act, hk, text]
      exact ⟨h, by simp, trivial⟩
    | assign b t => exact he.elim
  | start k =>
    obtain ⟨h1, h2, h3⟩ := start_good s h k
    exact ⟨h1, by simp [ev, h2, text], h3⟩
  | finish =>
    obtain ⟨h1, h2, h3⟩ := done_good s h
    exact ⟨h1, by simp [ev, h2, text], h3⟩

theorem evs_good (l : List Ev) : ∀ (s : St), Good s → (∀ e ∈ l, Leaves e) →
    Good (evs s l) ∧ (∀ b, (evs s l).files (real b) = s.files (real b) ++ l.filterMap (text b)) ∧
    (evs s l).overflows = s.overflows := by
  induction l with
  | nil => intro s h _; exact ⟨h, by simp [evs], rfl⟩
  | cons e l ih =>
    intro s h hl
    obtain ⟨h1, h2, h3⟩ := ev_good s h e (hl e (by simp))
    obtain ⟨h4, h5, h6⟩ := ih (ev s e) h1 fun x hx => hl x (by simp [hx])
    simp only [evs, List.foldl_cons] at h4 h5 h6 ⊢
    refine ⟨h4, fun b => ?_, by rw [h6, h3]⟩
    rw [h5 b, h2 b]
    cases ht : text b e <;> simp [ht]

/-- **C51**, forwarding of text: as long as no program assigns `sys.stdout` or `sys.stderr`, the real streams receive exactly what was
written, once and in order, and no write fails because of the recording, however the runs of cells are nested. Missing: programs
that assign them, see `assign_breaks` and `assign_loses`. -/
theorem text_forwarded_partial (l : List Ev) (hl : ∀ e ∈ l, Leaves e) :
    (evs {} l).files 0 = l.filterMap (text false) ∧ (evs {} l).files 1 = l.filterMap (text true) ∧ (evs {} l).overflows = [] := by
  obtain ⟨_, h, h2⟩ := evs_good l {} (.inl ⟨rfl, rfl⟩) hl
  exact ⟨by simpa [real] using h false, by simpa [real] using h true, h2⟩

/-- A cell that runs another one, with a write that fails and output from another thread. -/
example : let l : List Ev := [.start .traced, .out (.write true false 1 true), .start .traced, .out (.write true false 2 false), .finish,
      .out (.write false false 3 true), .out (.publish 4 true), .finish]
    (∀ e ∈ l, Leaves e) ∧ (evs {} l).files 0 = [1, 3] ∧ (evs {} l).front = [.data 4] := by
  refine ⟨by simp [Leaves], by rfl, by rfl⟩

/-- **C51 fails** if a cell replaces `sys.stdout` alone: when the next cell begins, the proxy for `sys.stderr` is put on top of itself, and
every write to `sys.stderr` ends in a `RecursionError`, in this cell and in all later ones, even after `sys.stdout` was put back. -/
theorem assign_breaks : ∃ pre : List Ev, (∀ e ∈ pre, ∀ b t, e = .out (.assign b t) → b = false) ∧
    ∀ main d ok, (evs {} (pre ++ [.start .traced, .out (.write main true d ok), .finish])).overflows = [(true, d)] ∧
      (evs {} (pre ++ [.start .traced, .out (.write main true d ok), .finish])).files 1 = [] :=
  ⟨[.start .traced, .out (.assign false (.file 2)), .finish, .start .traced, .finish, .start .traced, .out (.assign false .proxy), .finish],
    by simp, fun main d ok => ⟨rfl, rfl⟩⟩

/-- **C51 fails**: if a cell replaces both streams, a second one is run, and the streams are put back in it, then what later cells write
goes to the replacement and is not seen. -/
theorem assign_loses : ∃ pre : List Ev, (evs {} pre).sysOut = .proxy ∧
    ∀ d, (evs {} (pre ++ [.start .traced, .out (.write true false d true), .finish])).files 0 = [] ∧
      (evs {} (pre ++ [.start .traced, .out (.write true false d true), .finish])).files 2 = [d] :=
  ⟨[.start .traced, .out (.assign false (.file 2)), .out (.assign true (.file 3)), .finish,
    .start .traced, .out (.assign false .proxy), .out (.assign true .proxy), .finish], rfl, fun _ => ⟨rfl, rfl⟩⟩

/-! ## What is recorded -/

/-- What should be recorded of a cell: the text that was accepted. -/
def textOf (b : Bool) : Out → Option Nat
  | .write _ b' d true => if b' = b then some d else none
  | _ => none

/-- What should be recorded of a cell: the displays that were accepted. -/
def shownBy : Out → Option Nat
  | .publish d true => some d
  | _ => none

/-- What should be recorded of a cell: all text, and the displays since the last time it was cleared. -/
def recordOf (outs : List Out) : Sink → List Nat
  | .out => outs.filterMap (textOf false)
  | .err => outs.filterMap (textOf true)
  | .disp => ((outs.reverse.takeWhile (· ≠ .clear)).reverse).filterMap shownBy

theorem record_append (outs : List Out) (o : Out) (k : Sink) : recordOf (outs ++ [o]) k =
    match k with
    | .out => recordOf outs .out ++ (textOf false o).toList
    | .err => recordOf outs .err ++ (textOf true o).toList
    | .disp => if o = .clear then [] else recordOf outs .disp ++ (shownBy o).toList := by
  cases k with
  | out => cases h : textOf false o <;> simp [recordOf, h]
  | err => cases h : textOf true o <;> simp [recordOf, h]
  | disp =>
    by_cases ho : o = .clear
    · simp [recordOf, ho]
    · cases h : shownBy o <;> simp [recordOf, ho, h]

/-- Output of the main thread that leaves `sys.stdout` and `sys.stderr` alone. -/
def Plain : Out → Prop
  | .write main _ _ _ => main = true
  | .assign _ _ => False
  | _ => True

/-- Recording number `c` is on, and nothing else. -/
structure Rec (s : St) (c : Nat) : Prop where
  teed : s.teed = some c
  pub : s.pub = .tee .orig c
  saved : s.saved = some .orig
  ctx : s.inContext = true
  cap : s.capturing = true
  cur : s.cur = some c
  sys : s.sysOut = .proxy ∧ s.sysErr = .proxy ∧ s.baseOut = .file 0 ∧ s.baseErr = .file 1

/-- Nothing is recorded. -/
structure Idle (s : St) : Prop where
  teed : s.teed = none
  pub : s.pub = .orig
  ctx : s.inContext = false
  cap : s.capturing = false
  good : Good s
  fresh : ∀ c, s.next ≤ c → ∀ k, s.kept c k = []

theorem act_rec (s : St) (c : Nat) (h : Rec s c) (o : Out) (ho : Plain o) :
    Rec (act s o) c ∧ (act s o).next = s.next ∧ (∀ c' k, c' ≠ c → (act s o).kept c' k = s.kept c' k) ∧
    ∀ k, (act s o).kept c k = match k with
      | .out => s.kept c .out ++ (textOf false o).toList
      | .err => s.kept c .err ++ (textOf true o).toList
      | .disp => if o = .clear then [] else s.kept c .disp ++ (shownBy o).toList := by
  obtain ⟨h1, h2, h3, h4, h5, h6, h7, h8, h9, h10⟩ := h
  cases o with
  | write m b d ok =>
    have : m = true := ho
    subst this
    have hs : s.sys b = .proxy := by cases b <;> assumption
    have hb : s.base b = .file (real b) := by cases b <;> assumption
    cases ok with
    | false =>
      simp only [act, write, hs, hb]
      refine ⟨⟨h1, h2, h3, h4, h5, h6, h7, h8, h9, h10⟩, rfl, by simp, fun k => ?_⟩
      cases k <;> simp [textOf, shownBy]
    | true =>
      simp only [act, write, hs, hb, h1]
      refine ⟨⟨h1, h2, h3, h4, h5, h6, h7, h8, h9, h10⟩, rfl, ?_, fun k => ?_⟩
      · intro c' k hc
        simp [St.record, St.emit, hc]
      · cases b <;> cases k <;> simp [textOf, shownBy, St.record, St.emit, std]
  | publish d ok =>
    simp only [act, h2]
    cases ok with
    | false =>
      simp only [publish]
      refine ⟨⟨h1, h2, h3, h4, h5, h6, h7, h8, h9, h10⟩, rfl, by simp, fun k => ?_⟩
      cases k <;> simp [textOf, shownBy]
    | true =>
      simp only [publish]
      refine ⟨⟨h1, h2, h3, h4, h5, h6, h7, h8, h9, h10⟩, rfl, ?_, fun k => ?_⟩
      · intro c' k hc
        simp [St.record, hc]
      · cases k <;> simp [textOf, shownBy, St.record]
  | clear =>
    have e : act s .clear = clearOutput s (.tee .orig c) := by simp only [act, h2]
    rw [e]
    refine ⟨⟨h1, h2, h3, h4, h5, h6, h7, h8, h9, h10⟩, rfl, ?_, fun k => ?_⟩
    · intro c' k hc
      simp [clearOutput, hc]
    · cases k <;> simp [clearOutput, textOf]
  | assign b t => exact ho.elim

theorem acts_rec (c : Nat) (outs : List Out) (s : St) (h : Rec s c) (hk : ∀ k, s.kept c k = []) (ho : ∀ o ∈ outs, Plain o) :
    Rec (evs s (outs.map .out)) c ∧ (evs s (outs.map .out)).next = s.next ∧
    (∀ c' k, c' ≠ c → (evs s (outs.map .out)).kept c' k = s.kept c' k) ∧ ∀ k, (evs s (outs.map .out)).kept c k = recordOf outs k := by
  induction outs using List.reverseRecOn with
  | nil =>
    refine ⟨h, rfl, by simp [evs], fun k => ?_⟩
    cases k <;> simp [evs, recordOf, hk]
  | append_singleton outs o ih =>
    obtain ⟨g1, g2, g3, g4⟩ := ih fun x hx => ho x (by simp [hx])
    obtain ⟨f1, f2, f3, f4⟩ := act_rec _ c g1 o (ho o (by simp))
    have hev : evs s ((outs ++ [o]).map .out) = act (evs s (outs.map .out)) o := by simp [evs, ev]
    rw [hev]
    refine ⟨f1, by rw [f2, g2], fun c' k hc => by rw [f3 c' k hc, g3 c' k hc], fun k => ?_⟩
    rw [f4 k, record_append]
    cases k <;> simp [g4]

/-- Without recording, nothing is recorded. -/
theorem act_idle (s : St) (h : Idle s) (o : Out) (ho : Plain o) :
    Idle (act s o) ∧ (act s o).next = s.next ∧ (act s o).kept = s.kept ∧ (act s o).cur = s.cur := by
  obtain ⟨h1, h2, h3, h4, h5, h6⟩ := h
  cases o with
  | write m b d ok =>
    have hw : ∃ f ov, write s m b d ok = { s with
        files := f
        overflows := ov } := by
      unfold write
      cases s.sys b with
      | file n => cases ok <;> exact ⟨_, _, rfl⟩
      | proxy =>
        cases s.base b with
        | proxy => exact ⟨_, _, rfl⟩
        | file n =>
          cases ok with
          | false => exact ⟨_, _, rfl⟩
          | true =>
            refine ⟨(s.emit n d).files, s.overflows, ?_⟩
            cases m <;> simp [h1, St.emit]
    obtain ⟨f, ov, hw⟩ := hw
    simp only [act, hw]
    exact ⟨⟨h1, h2, h3, h4, h5, h6⟩, trivial, trivial, trivial⟩
  | publish d ok =>
    have e : act s (.publish d ok) = publish s d ok .orig := by simp only [act, h2]
    rw [e]
    cases ok <;> exact ⟨⟨h1, h2, h3, h4, h5, h6⟩, rfl, rfl, rfl⟩
  | clear =>
    have e : act s .clear = clearOutput s .orig := by simp only [act, h2]
    rw [e]
    exact ⟨⟨h1, h2, h3, h4, h5, h6⟩, rfl, rfl, rfl⟩
  | assign b t => exact ho.elim

theorem acts_idle (outs : List Out) : ∀ (s : St), Idle s → (∀ o ∈ outs, Plain o) →
    Idle (evs s (outs.map .out)) ∧ (evs s (outs.map .out)).next = s.next ∧ (evs s (outs.map .out)).kept = s.kept ∧
    (evs s (outs.map .out)).cur = s.cur := by
  induction outs with
  | nil => intro s h _; exact ⟨h, rfl, rfl, rfl⟩
  | cons o outs ih =>
    intro s h ho
    obtain ⟨h1, h2, h3, h4⟩ := act_idle s h o (ho o (by simp))
    obtain ⟨g1, g2, g3, g4⟩ := ih (act s o) h1 fun x hx => ho x (by simp [hx])
    have hev : evs s ((o :: outs).map .out) = evs (act s o) (outs.map .out) := by simp [evs, ev]
    rw [hev]
    exact ⟨g1, g2.trans h2, g3.trans h3, g4.trans h4⟩

/-- A run of a cell that runs no other. -/
def run (c : Kind × List Out) : List Ev := .start c.1 :: c.2.map .out ++ [.finish]

/-- The run up to the end of the user's code. -/
def upTo (c : Kind × List Out) : List Ev := .start c.1 :: c.2.map .out

/-- A recording begins with the run. -/
def begins : Kind → Nat
  | .traced => 1
  | _ => 0

theorem evs_append (s : St) (l l' : List Ev) : evs s (l ++ l') = evs (evs s l) l' := by simp [evs]

theorem run_post (s : St) (h : Idle s) (c : Kind × List Out) (ho : ∀ o ∈ c.2, Plain o) :
    Idle (evs s (run c)) ∧ (evs s (run c)).next = s.next + begins c.1 ∧
    (∀ n, n < s.next → ∀ k, (evs s (run c)).kept n k = s.kept n k) ∧
    (c.1 = .traced → (evs s (upTo c)).cur = some s.next ∧ ∀ k, (evs s (run c)).kept s.next k = recordOf c.2 k) ∧
    (c.1 = .syntaxError → (evs s (upTo c)).cur = none) := by
  obtain ⟨kind, outs⟩ := c
  have hrun : ∀ t, evs t (run (kind, outs)) = done (evs t (upTo (kind, outs))) := by
    intro t
    simp [run, upTo, evs, ev]
  have hup : ∀ t, evs t (upTo (kind, outs)) = evs (start t kind) (outs.map .out) := by
    intro t
    simp [upTo, evs, ev]
  have hother : ∀ t, Idle t → t.next = s.next → t.kept = s.kept → t.cur = (if kind = .syntaxError then none else s.cur) →
      kind ≠ .traced → start s kind = t →
      Idle (evs s (run (kind, outs))) ∧ (evs s (run (kind, outs))).next = s.next + begins kind ∧
      (∀ n, n < s.next → ∀ k, (evs s (run (kind, outs))).kept n k = s.kept n k) ∧
      (kind = .traced → (evs s (upTo (kind, outs))).cur = some s.next ∧ ∀ k, (evs s (run (kind, outs))).kept s.next k = recordOf outs k) ∧
      (kind = .syntaxError → (evs s (upTo (kind, outs))).cur = none) := by
    intro t ht hn hk hc hkind hst
    obtain ⟨h1, h2, h3, h4⟩ := acts_idle outs t ht ho
    have hd : done (evs t (outs.map .out)) = evs t (outs.map .out) := by
      unfold done
      simp [h1.cap]
    rw [hrun, hup, hst, hd]
    refine ⟨h1, ?_, fun n _ k => by rw [h3, hk], fun h => absurd h hkind, fun h => ?_⟩
    · rw [h2, hn]
      cases kind <;> simp_all [begins]
    · rw [h4, hc, if_pos h]
  cases kind with
  | traced =>
    have hr : Rec (start s .traced) s.next ∧ (start s .traced).next = s.next + 1 ∧ (start s .traced).kept = s.kept := by
      obtain ⟨h1, h2, h3, h4, h5, h6⟩ := h
      rcases h5 with ⟨g1, g2⟩ | ⟨g1, g2, g3, g4⟩
      · simp only [start, initModule, proxies_neg (reset s) (by simp [reset, g1])]
        exact ⟨⟨rfl, by simp [enter, reset, h2], by simp [enter, reset, h2], rfl, rfl, rfl, rfl, rfl, g1, g2⟩, rfl, rfl⟩
      · simp only [start, initModule, proxies_pos (reset s) g1]
        exact ⟨⟨rfl, by simp [enter, reset, h2], by simp [enter, reset, h2], rfl, rfl, rfl, g1, g2, g3, g4⟩, rfl, rfl⟩
    obtain ⟨hr, hn, hk⟩ := hr
    obtain ⟨h1, h2, h3, h4⟩ := acts_rec s.next outs _ hr (fun k => by rw [hk]; exact h.fresh _ (Nat.le_refl _) k) ho
    have hd : ∀ t, Rec t s.next → (done t).kept = t.kept ∧ (done t).next = t.next ∧ (done t).teed = none ∧ (done t).pub = .orig ∧
        (done t).inContext = false ∧ (done t).capturing = false ∧ Good (done t) := by
      intro t ht
      obtain ⟨t1, t2, t3, t4, t5, t6, t7⟩ := ht
      simp only [done, t5, exit, t4, t3]
      exact ⟨rfl, rfl, rfl, rfl, rfl, rfl, .inr t7⟩
    rw [hrun, hup]
    obtain ⟨d1, d2, d3, d4, d5, d6, d7⟩ := hd _ h1
    have hnext : (done (evs (start s .traced) (outs.map .out))).next = s.next + 1 := by rw [d2, h2, hn]
    refine ⟨⟨d3, d4, d5, d6, d7, fun c hc k => ?_⟩, hnext, fun n hlt k => ?_, fun _ => ⟨h1.cur, fun k => ?_⟩, by simp⟩
    · rw [hnext] at hc
      rw [d1, h3 c k (by omega), hk]
      exact h.fresh c (by omega) k
    · rw [d1, h3 n k (by omega), hk]
    · rw [d1, h4 k]
  | syntaxError =>
    exact hother (reset s) ⟨h.teed, h.pub, h.ctx, rfl, h.good, h.fresh⟩ rfl rfl rfl (by simp) rfl
  | unrecorded => exact hother s h rfl rfl rfl (by simp) rfl
  | untraced => exact hother s h rfl rfl rfl (by simp) rfl

theorem runs_post (cs : List (Kind × List Out)) : ∀ (s : St), Idle s → (∀ c ∈ cs, ∀ o ∈ c.2, Plain o) →
    Idle (evs s (cs.flatMap run)) ∧ s.next ≤ (evs s (cs.flatMap run)).next ∧
    ∀ n, n < s.next → ∀ k, (evs s (cs.flatMap run)).kept n k = s.kept n k := by
  induction cs with
  | nil => intro s h _; exact ⟨h, Nat.le_refl _, fun _ _ _ => rfl⟩
  | cons c cs ih =>
    intro s h ho
    obtain ⟨h1, h2, h3, _, _⟩ := run_post s h c (ho c (by simp))
    obtain ⟨g1, g2, g3⟩ := ih (evs s (run c)) h1 fun x hx => ho x (by simp [hx])
    rw [List.flatMap_cons, evs_append]
    exact ⟨g1, by omega, fun n hn k => by rw [g3 n (by omega) k, h3 n hn k]⟩

theorem idle_init : Idle {} := ⟨rfl, rfl, rfl, rfl, .inl ⟨rfl, rfl⟩, fun _ _ _ => rfl⟩

/-- **C51**, restoring: after any number of runs that are not nested, the display publisher is the shell's, nothing is recorded any more and
the streams lead to the real ones. Missing: nested runs, see `nested_violated`, and assignments, see `assign_breaks`. -/
theorem restored_partial (cs : List (Kind × List Out)) (ho : ∀ c ∈ cs, ∀ o ∈ c.2, Plain o) :
    (evs {} (cs.flatMap run)).pub = .orig ∧ (evs {} (cs.flatMap run)).teed = none ∧ Good (evs {} (cs.flatMap run)) := by
  obtain ⟨h, _, _⟩ := runs_post cs {} idle_init ho
  exact ⟨h.pub, h.teed, h.good⟩

/-- **C51**, recording, and **C82**: the output a cell is given at the end of its run is, then and after any number of further runs, what it
wrote and displayed in that run, in order; a cell with a syntax error is given none. Missing: nested runs, other threads, assignments
and cells run without the recorder, see the theorems below. -/
theorem cell_output_partial (cs : List (Kind × List Out)) (ho : ∀ c ∈ cs, ∀ o ∈ c.2, Plain o)
    (i : Nat) (kind : Kind) (outs : List Out) (hi : cs[i]? = some (kind, outs)) (hk : kind ≠ .unrecorded) :
    match captured (evs {} ((cs.take i).flatMap run ++ upTo (kind, outs))) kind none with
    | none => kind ≠ .traced
    | some c => kind = .traced ∧ ∀ k, (evs {} (cs.flatMap run)).kept c k = recordOf outs k := by
  obtain ⟨hlt, hget⟩ := List.getElem?_eq_some_iff.mp hi
  have hsplit : cs = cs.take i ++ (kind, outs) :: cs.drop (i + 1) := by
    conv_lhs => rw [← List.take_append_drop i cs, List.drop_eq_getElem_cons hlt, hget]
  obtain ⟨h1, _, _⟩ := runs_post (cs.take i) {} idle_init fun c hc => ho c (List.mem_of_mem_take hc)
  have hmem : (kind, outs) ∈ cs := List.mem_of_getElem? hi
  rw [evs_append]
  have hall : evs {} (cs.flatMap run) = evs (evs (evs {} ((cs.take i).flatMap run)) (run (kind, outs))) ((cs.drop (i + 1)).flatMap run) := by
    conv_lhs => rw [hsplit]
    rw [List.flatMap_append, evs_append, List.flatMap_cons, evs_append]
  rw [hall]
  generalize evs {} ((cs.take i).flatMap run) = s at h1
  obtain ⟨g1, g2, g3, g4, g5⟩ := run_post s h1 (kind, outs) (ho _ hmem)
  obtain ⟨_, _, f3⟩ := runs_post (cs.drop (i + 1)) _ g1 fun c hc => ho c (List.mem_of_mem_drop hc)
  cases kind with
  | traced =>
    obtain ⟨e1, e2⟩ := g4 rfl
    simp only [captured, e1]
    refine ⟨trivial, fun k => ?_⟩
    rw [f3 _ (by simp only [begins] at g2; omega) k, e2 k]
  | syntaxError =>
    simp [captured, g5 rfl]
  | unrecorded => exact absurd rfl hk
  | untraced => simp [captured]

/-- Two cells with a syntax error between them; the second clears what it displayed. -/
example : let cs : List (Kind × List Out) := [(.traced, [.write true false 1 true, .publish 2 true, .write true true 3 true]),
      (.syntaxError, []), (.traced, [.publish 4 true, .clear, .publish 5 true, .write true false 6 false])]
    (∀ c ∈ cs, ∀ o ∈ c.2, Plain o) ∧ recordOf [.publish 4 true, .clear, .publish 5 true, .write true false 6 false] .disp = [5] ∧
    (evs {} (cs.flatMap run)).kept 1 .disp = [5] ∧ (evs {} (cs.flatMap run)).kept 0 .disp = [2] := by
  refine ⟨by simp [Plain], by decide, by rfl, by rfl⟩

/-- **C51 fails** for other threads: what they write while a cell runs is shown but not recorded. -/
theorem thread_violated : ∃ outs : List Out, (∀ o ∈ outs, ∀ b t, o ≠ .assign b t) ∧
    (evs {} (run (.traced, outs))).files 0 = [1] ∧ recordOf outs .out = [1] ∧ ∀ c, (evs {} (run (.traced, outs))).kept c .out = [] :=
  ⟨[.write false false 1 true], by simp, rfl, rfl, fun _ => rfl⟩

/-- A cell that runs another in between two outputs. -/
def nested : List Ev := [.start .traced, .start .traced, .finish, .out (.write true false 1 true), .out (.publish 2 true), .finish]

/-- **C51 fails** for nested runs: what the outer cell writes after the inner one has ended is not recorded, the original publisher does
not come back, and what later cells display is recorded as output of the outer cell too. -/
theorem nested_violated : (∀ c, (evs {} nested).kept c .out = []) ∧ (evs {} nested).files 0 = [1] ∧ (evs {} nested).pub ≠ .orig ∧
    (evs {} (nested ++ run (.traced, [.publish 7 true]))).kept 0 .disp = [2, 7] := by
  refine ⟨fun c => ?_, by rfl, by decide, by rfl⟩
  simp [nested, evs, ev, start, initModule, proxies, reset, enter, done, exit, act, write, St.sys, St.base, St.emit, publish, St.record]

/-- **C82 fails** for cells run without the recorder, such as all after `%flow syntax_transforms_only`: they are given the output of the cell
recorded last. -/
theorem cell_output_violated : ∃ (before after : Kind × List Out), after.2 = [] ∧
    ∃ c, captured (evs {} (run before ++ upTo after)) after.1 none = some c ∧ (evs {} (run before ++ run after)).kept c .out = [5] :=
  ⟨(.traced, [.write true false 5 true]), (.unrecorded, []), rfl, 0, rfl, rfl⟩

end Verif.Output
