import Verif.Nest.EdgeLemmas

/-!
# Runs of code inside runs of cells: properties (C147, C148) -/

namespace Verif.Nest
open Verif

/-! ## Which cell set a variable -/

/-- **C147, in part.** As long as no cell is run after a cell that ran code inside (with magics only), every variable is taken to have been set by the cell whose run set it
last, be it in the code of the cell or in code run inside. Missing: further runs of cells (`taken_over`), and code run by direct calls (`after_call_unrecorded`). -/
theorem attributed_partial {h : List Ev} {w : W} (hr : run h = .ok w) (hc : ∀ e ∈ h, NoCall e) (hl : Late h) (v : Var) : whoSet w v = setBy v h := by
  have hI := inv_run hr hc hl
  unfold whoSet
  cases hs : setBy v h with
  | none => rw [hI.unset v hs]
  | some i =>
    obtain ⟨n, s, o, h1, h2, h3⟩ := hI.set v i hs
    rw [h1]
    show Option.map w.idOf (w.byCtr n) = some i
    rw [h2, ← h3]
    rfl

/-- **C147, violated.** What the `j`-th run inside a run of a cell has set is taken to have been set by the `j`-th cell that is run afterwards, as soon as this cell is run, whatever
it does. -/
theorem taken_over {A : Id} {c : Code} {h0 a b : List Ev} {w : W} {v : Var} {j : Nat} (hr : run (b ++ Ev.finish :: (a ++ Ev.start A c :: h0)) = .ok w)
    (h0p : ∀ e ∈ h0, Plain e) (ha : ∀ e ∈ a, NoStart e ∧ NoCall e) (hb : ∀ e ∈ b, Plain e ∧ Keeps v e) (hj : setIn v a = some j) (hpos : 1 ≤ j) :
    whoSet w v = some (((cellsRun b)[j - 1]?).getD A) := by
  obtain ⟨w1, h1⟩ := run_split hr
  obtain ⟨w2, h2, hs2⟩ := run_cons h1
  obtain ⟨w3, h3⟩ := run_split h2
  obtain ⟨w4, h4, -⟩ := run_cons h3
  have hD := during_run h4 h0p h2 (finish_frame hs2).1 ha
  have hA := after_run h1 (during_finish hD hs2) hr (fun e he => (hb e he).1)
  obtain ⟨hle, s, hts⟩ := hD.set v j hj
  have ht := hA.set v (fun e he => (hb e he).2)
  obtain ⟨o, ho1, -, ho3⟩ := hA.own j hpos hle
  unfold whoSet
  rw [ht, hts]
  show Option.map w.idOf (w.byCtr (w4.host + j)) = _
  rw [ho1, ← ho3]
  rfl

/-! ## The current code of a cell -/

/-- **C147, in part.** Without runs inside runs, the kernel's code for a cell is the one that the user ran last. -/
theorem code_partial : ∀ {h : List Ev} {w : W}, run h = .ok w → (∀ e ∈ h, Plain e) → ∀ i, codeNow w i = givenCode i h
  | [], w, hr, _, i => by rw [run] at hr; injection hr with hr; subst hr; rfl
  | e :: h, w, hr, hp, i => by
    have hp' := fun x hx => hp x (List.mem_cons_of_mem _ hx)
    obtain ⟨w0, h0, hs⟩ := run_cons hr
    have ih := code_partial h0 hp' i
    have hI := inv_plain h0 hp'
    have hV := vers_run h0 (noCall_of_plain hp') (late_of_plain hp')
    cases e with
    | start j c =>
      obtain ⟨hrn, e⟩ := start_step hs
      have hsy := hI.sync hp'
      rw [if_neg (by rw [hrn]; decide)] at hsy
      have hn : number { w0 with active := j } true = w0.ctr + 1 := by rw [number_true]; exact hsy.symm
      have hC := vers_create (w := { w0 with active := j }) (c := c) (v := true) (i := j) ⟨hV.cur, hV.num, fun h => by rw [hrn] at h; cases h⟩ hn
      subst e
      show Option.map (upd w0.code w0.made c) ((create { w0 with active := j } j c true).cur i) = givenCode i (.start j c :: h)
      rw [hC.2.2.2, givenCode]
      by_cases hij : j = i
      · subst hij
        rw [upd_same, if_pos rfl]
        show some (upd w0.code w0.made c w0.made) = _
        rw [upd_same]
      · rw [upd_ne _ _ (Ne.symm hij), if_neg hij, ← ih]
        unfold codeNow
        show Option.map (upd w0.code w0.made c) (w0.cur i) = _
        cases hcur : w0.cur i with
        | none => rfl
        | some o =>
          show some (upd w0.code w0.made c o) = _
          rw [upd_ne _ _ (by have := (hV.cur i o hcur).1; omega)]
          rfl
    | enter m c => exact (hp _ (List.mem_cons_self ..)).elim
    | stmt us ds =>
      obtain ⟨hrn, hd⟩ := stmt_step hs
      obtain ⟨ps, ks, e⟩ := doStmt_frame (hI.on hrn).1 hd
      subst e
      exact ih
    | leave =>
      obtain ⟨f, rest, ks, hst, e, -⟩ := leave_frame hs
      subst e
      exact ih
    | finish =>
      obtain ⟨-, hst, ks, e, -⟩ := finish_frame hs
      subst e
      exact ih

/-- The version of the running cell, during a run with runs inside: its code is the code run last. -/
theorem inner_version {A : Id} {c : Code} {h0 : List Ev} {w0 : W} (h : run h0 = .ok w0) (hp : ∀ e ∈ h0, Plain e) :
    ∀ {a : List Ev} {w : W}, run (a ++ Ev.start A c :: h0) = .ok w → w.running = true → (∀ e ∈ a, NoStart e ∧ NoCall e) →
      Vers w ∧ (1 ≤ inner a → ∃ o, w.cur A = some o ∧ innerCode a = some (w.code o) ∧ w.num o = w.ctr)
  | [], w, hr, _, _ => by
    have hl : Late (Ev.start A c :: h0) := hp
    refine ⟨vers_run hr ?_ hl, fun h => absurd h (by decide)⟩
    intro e he
    rcases List.mem_cons.mp he with h1 | h1
    · subst h1; trivial
    · exact noCall_of_plain hp e h1
  | e :: a, w, hr, hrun, ha => by
    have hDur := during_run h hp hr hrun ha
    obtain ⟨w1, h1, hs⟩ := run_cons hr
    have he := ha e (List.mem_cons_self ..)
    have ha' := fun x hx => ha x (List.mem_cons_of_mem _ hx)
    have hrun1 := running_back hs hrun he.1
    obtain ⟨hV, ih⟩ := inner_version h hp h1 hrun1 ha'
    have hD := during_run h hp h1 hrun1 ha'
    cases e with
    | start i c => exact he.1.elim
    | enter m c' =>
      obtain ⟨-, e⟩ := enter_step hs
      have hC := vers_create (w := w1) (c := c') (v := false) (i := w1.active) hV (number_false w1)
      have hcur : (create w1 w1.active c' false).cur w1.active = some w1.made := by rw [hC.2.2.2, upd_same]
      subst e
      refine ⟨⟨hC.1, hC.2.1, fun _ => ⟨w1.made, hC.2.2.1, hcur⟩⟩, fun _ => ⟨w1.made, ?_, ?_, ?_⟩⟩
      · rw [← hD.active]; exact hcur
      · show some c' = some (upd w1.code w1.made c' w1.made)
        rw [upd_same]
      · show upd w1.num w1.made (number w1 false) w1.made = number w1 false
        rw [upd_same]
    | stmt us ds =>
      obtain ⟨-, hd⟩ := stmt_step hs
      obtain ⟨ps, ks, e⟩ := doStmt_frame hD.on.1 hd
      subst e
      exact ⟨⟨hV.cur, hV.num, hV.busy⟩, ih⟩
    | leave =>
      obtain ⟨f, rest, ks, hst, e, -⟩ := leave_frame hs
      subst e
      exact ⟨⟨hV.cur, hV.num, hV.busy⟩, ih⟩
    | finish =>
      obtain ⟨-, -, ks, e, -⟩ := finish_frame hs
      subst e
      cases hrun

/-- The next run of a cell that ran code inside, if it is the very next run: the version made for it is not looked up by the id of the cell. -/
structure Stale (A : Id) (w1 w : W) : Prop where
  cur : w.cur A = w1.cur A
  new : w.running = true → w.byCtr w.ctr = some w1.made
  code : ∀ o, o < w1.made → w.code o = w1.code o
  parents : ∀ o, o < w1.made → w.parents o = w1.parents o
  on : w.running = true → w.on = true
  stack : w.stack = []

theorem stale_run {A : Id} {c' : Code} {h1 : List Ev} {w1 : W} (h : run h1 = .ok w1) {o : Nat} (hcur : w1.cur A = some o) (hlt : w1.host ≤ w1.num o) :
    ∀ {b : List Ev} {w : W}, run (b ++ Ev.start A c' :: h1) = .ok w → (∀ e ∈ b, NoStart e ∧ Plain e) → Stale A w1 w
  | [], w, hr, _ => by
    obtain ⟨w2, h2, hs⟩ := run_cons hr
    rw [h] at h2
    injection h2 with h2
    subst h2
    obtain ⟨hrn, e⟩ := start_step hs
    have hnew : newest { w1 with active := A } A (number { w1 with active := A } true) = false := by
      rw [number_true]
      unfold newest
      dsimp only
      rw [hcur]
      simpa using hlt
    subst e
    exact
      { cur := by
          show (if newest { w1 with active := A } A (number { w1 with active := A } true) then _ else w1.cur) A = _
          rw [hnew]
          rfl
        new := fun _ => upd_same ..
        code := fun o ho => upd_ne _ _ (Nat.ne_of_lt ho)
        parents := fun o ho => upd_ne _ _ (Nat.ne_of_lt ho)
        on := fun _ => rfl
        stack := rfl }
  | e :: b, w, hr, hb => by
    obtain ⟨w2, h2, hs⟩ := run_cons hr
    have ih := stale_run h hcur hlt h2 (fun x hx => hb x (List.mem_cons_of_mem _ hx))
    have he := hb e (List.mem_cons_self ..)
    cases e with
    | start i c => exact he.1.elim
    | enter m c => exact he.2.elim
    | stmt us ds =>
      obtain ⟨hrn, hd⟩ := stmt_step hs
      obtain ⟨ps, ks, e, hm⟩ := doStmt_moved (ih.on hrn) (ih.new hrn) hd
      subst e
      exact ⟨ih.cur, ih.new, ih.code, fun o ho => (hm.others o (by omega)).trans (ih.parents o ho), ih.on, ih.stack⟩
    | leave =>
      obtain ⟨f, rest, ks, hst, e, -⟩ := leave_frame hs
      rw [ih.stack] at hst
      cases hst
    | finish =>
      obtain ⟨hrn, hst, ks, e, -⟩ := finish_frame hs
      subst e
      exact ⟨ih.cur, fun h => (by cases h), ih.code, ih.parents, fun h => (by cases h), ih.stack⟩

/-- **C147, violated.** If a cell that ran code inside is changed and run again right away, the kernel keeps the code that was run inside as the code of the cell, and the
dependencies of that, whatever the new code is and does. -/
theorem rerun_stale {A : Id} {c c' : Code} {h0 a b : List Ev} {w w1 : W} (h1 : run (Ev.finish :: (a ++ Ev.start A c :: h0)) = .ok w1)
    (hr : run (b ++ Ev.start A c' :: Ev.finish :: (a ++ Ev.start A c :: h0)) = .ok w)
    (h0p : ∀ e ∈ h0, Plain e) (ha : ∀ e ∈ a, NoStart e ∧ NoCall e) (hb : ∀ e ∈ b, NoStart e ∧ Plain e) (hi : 1 ≤ inner a) :
    codeNow w A = innerCode a ∧ deps w A = deps w1 A := by
  obtain ⟨w2, h2, hs2⟩ := run_cons h1
  obtain ⟨w3, h3⟩ := run_split h2
  obtain ⟨w4, h4, -⟩ := run_cons h3
  have hrun := (finish_frame hs2).1
  have hD := during_run h4 h0p h2 hrun ha
  obtain ⟨hV, hin⟩ := inner_version h4 h0p h2 hrun ha
  obtain ⟨o, ho1, ho2, ho3⟩ := hin hi
  obtain ⟨-, -, ks, e, -⟩ := finish_frame hs2
  have hcur : w1.cur A = some o := by rw [e]; exact ho1
  have hlt : w1.host ≤ w1.num o := by
    rw [e]
    show w2.host + 1 ≤ w2.num o
    rw [ho3, hD.ctr, hD.host]
    omega
  have hmade : o < w1.made := by rw [e]; exact (hV.cur A o ho1).1
  have hS := stale_run h1 hcur hlt hr hb
  refine ⟨?_, ?_⟩
  · unfold codeNow
    rw [hS.cur, hcur, ho2]
    show some (w.code o) = some (w2.code o)
    rw [hS.code o hmade, e]
  · unfold deps
    rw [hS.cur, hcur]
    exact hS.parents o hmade

/-! ## Dependencies -/

/-- **C147, violated.** What a cell has read before it runs code inside is forgotten: when code is run inside, all that is recorded for the cell comes from what was read after
the last such run began. -/
theorem earlier_uses_lost {h' : List Ev} {c : Code} {i : Id} {v : Var} :
    ∀ {s : List Ev} {w : W}, run (s ++ Ev.enter true c :: h') = .ok w → (∀ e ∈ s ++ Ev.enter true c :: h', NoCall e) → Late (s ++ Ev.enter true c :: h') →
      cellOf h' = some i → (∀ e ∈ s, NoStart e ∧ Plain e ∧ Ignores v e) → ∀ p, (p, v) ∉ deps w i
  | s, w, hr, hc, hl, hi, hs => by
    suffices H : ∀ {s : List Ev} {w : W}, run (s ++ Ev.enter true c :: h') = .ok w → (∀ e ∈ s ++ Ev.enter true c :: h', NoCall e) → Late (s ++ Ev.enter true c :: h') →
        (∀ e ∈ s, NoStart e ∧ Plain e ∧ Ignores v e) → ∃ o, w.cur i = some o ∧ w.byCtr w.ctr = some o ∧ ∀ p, (p, v) ∉ w.parents o by
      obtain ⟨o, h1, -, h2⟩ := H hr hc hl hs
      intro p hp
      unfold deps at hp
      rw [h1] at hp
      exact h2 p hp
    intro s
    induction s with
    | nil =>
      intro w hr hc hl _
      obtain ⟨w0, h0, hst⟩ := run_cons hr
      have hc0 := fun x hx => hc x (List.mem_cons_of_mem _ hx)
      have hV := vers_run h0 hc0 hl.tail
      have hI := inv_run h0 hc0 hl.tail
      obtain ⟨hrn, e⟩ := enter_step hst
      have hC := vers_create (w := w0) (c := c) (v := false) (i := w0.active) hV (number_false w0)
      obtain ⟨o', -, -, hact⟩ := hI.here hrn
      have : w0.active = i := by rw [hi] at hact; exact (Option.some.inj hact).symm
      subst e
      refine ⟨w0.made, ?_, hC.2.2.1, ?_⟩
      · rw [← this]
        show (create w0 w0.active c false).cur w0.active = _
        rw [hC.2.2.2, upd_same]
      · intro p hp
        replace hp : (p, v) ∈ upd w0.parents w0.made [] w0.made := hp
        rw [upd_same] at hp
        cases hp
    | cons e s ih =>
      intro w hr hc hl hs
      obtain ⟨w0, h0, hst⟩ := run_cons hr
      have hc0 := fun x hx => hc x (List.mem_cons_of_mem _ hx)
      have hI := inv_run h0 hc0 hl.tail
      obtain ⟨o, h1, h2, h3⟩ := ih h0 hc0 hl.tail (fun x hx => hs x (List.mem_cons_of_mem _ hx))
      obtain ⟨he1, he2, he3⟩ := hs e (List.mem_cons_self ..)
      cases e with
      | start i c => exact he1.elim
      | enter m c => exact he2.elim
      | stmt us ds =>
        obtain ⟨hrn, hd⟩ := stmt_step hst
        obtain ⟨ps, ks, e, hm⟩ := doStmt_moved (hI.on hrn).1 h2 hd
        subst e
        refine ⟨o, h1, h2, fun p hp => ?_⟩
        rcases hm.only (p, v) hp with h4 | h4
        · exact h3 p h4
        · exact he3 h4
      | leave =>
        obtain ⟨f, rest, ks, -, e, -⟩ := leave_frame hst
        subst e
        exact ⟨o, h1, h2, h3⟩
      | finish =>
        obtain ⟨-, -, ks, e, -⟩ := finish_frame hst
        subst e
        exact ⟨o, h1, h2, h3⟩

/-- The state of the run of a cell right after a cell that ran code inside. -/
structure Next (B : Id) (N : Nat) (v : Var) (w1 w : W) : Prop where
  on : w.running = true → w.on = true
  stack : w.stack = []
  ctr : w.ctr = N
  new : w.byCtr N = some w1.made
  prev : w.prev w1.made = w1.cur B
  set : ∃ s, w.ts v = some (N, s)
  old : ∀ o, o < w1.made → w.parents o = w1.parents o
  only : ∀ p, (p, v) ∈ w.parents w1.made → (p, v) ∈ deps w1 B
  cur : w.cur B = some w1.made ∨ w.cur B = w1.cur B

theorem use_self {w w' : W} {c N s : Nat} {v : Var} (hc : w.ctr = N) (hb : w.byCtr N = some c) (ht : w.ts v = some (N, s)) (h : use w v = .ok w') :
    ∀ e ∈ w'.parents c, e ∈ w.parents c ∨ e ∈ inherited w c v := by
  unfold use at h
  rw [ht] at h
  dsimp only at h
  split at h
  · unfold addDep at h
    rw [hc, hb] at h
    dsimp only at h
    injection h with h
    subst h
    intro e he
    split at he
    · unfold addParent at he
      split at he
      · exact Or.inl he
      · rw [if_pos rfl] at he
        replace he : e ∈ upd w.parents c (w.parents c ++ inherited w c v) c := he
        rw [upd_same] at he
        exact List.mem_append.mp he
    · exact Or.inl he
  · injection h with h
    subst h
    exact fun e he => Or.inl he

theorem next_use {B : Id} {N : Nat} {v u : Var} {w1 w w' : W} (hV : ∀ q, w1.cur B = some q → q < w1.made) (hN : Next B N v w1 w) (h : use w u = .ok w') :
    Next B N v w1 w' := by
  have hm := use_moved (by rw [hN.ctr]; exact hN.new) h
  obtain ⟨ps, ks, e⟩ := hm.frame
  have hself : u = v → ∀ p, (p, v) ∈ w'.parents w1.made → (p, v) ∈ deps w1 B := by
    intro huv p hp
    subst huv
    obtain ⟨s, hs⟩ := hN.set
    rcases use_self hN.ctr hN.new hs h (p, u) hp with h1 | h1
    · exact hN.only p h1
    · unfold inherited at h1
      rw [hN.prev] at h1
      unfold deps
      cases hq : w1.cur B with
      | none => rw [hq] at h1; cases h1
      | some q =>
        rw [hq] at h1
        have h1 := (List.mem_filter.mp h1).1
        rw [hN.old q (hV q hq)] at h1
        exact h1
  have honly : ∀ p, (p, v) ∈ w'.parents w1.made → (p, v) ∈ deps w1 B := by
    intro p hp
    by_cases huv : u = v
    · exact hself huv p hp
    · rcases hm.only (p, v) hp with h1 | h1
      · exact hN.only p h1
      · exact absurd h1.symm huv
  have hold : ∀ o, o < w1.made → w'.parents o = w1.parents o := fun o ho => (hm.others o (by omega)).trans (hN.old o ho)
  rw [e] at honly hold ⊢
  exact ⟨hN.on, hN.stack, hN.ctr, hN.new, hN.prev, hN.set, hold, honly, hN.cur⟩

theorem next_useAll {B : Id} {N : Nat} {v : Var} {w1 : W} (hV : ∀ q, w1.cur B = some q → q < w1.made) :
    ∀ {us : List Var} {w w' : W}, Next B N v w1 w → useAll us w = .ok w' → Next B N v w1 w'
  | [], w, w', hN, h => by rw [useAll] at h; injection h with h; subst h; exact hN
  | u :: us, w, w', hN, h => by
    rw [useAll] at h
    cases hu : use w u with
    | error e => rw [hu] at h; cases h
    | ok w2 => rw [hu] at h; exact next_useAll hV (next_use hV hN hu) h

theorem next_run {B : Id} {c' : Code} {v : Var} {h1 : List Ev} {w1 : W} (h : run h1 = .ok w1) (hV : ∀ q, w1.cur B = some q → q < w1.made) (hset : ∃ s, w1.ts v = some (w1.host, s)) :
    ∀ {b : List Ev} {w : W}, run (b ++ Ev.start B c' :: h1) = .ok w → (∀ e ∈ b, NoStart e ∧ Plain e) → Next B w1.host v w1 w
  | [], w, hr, _ => by
    obtain ⟨w2, h2, hs⟩ := run_cons hr
    rw [h] at h2
    injection h2 with h2
    subst h2
    obtain ⟨hrn, e⟩ := start_step hs
    have hn : number { w1 with active := B } true = w1.host := number_true _
    subst e
    exact
      { on := fun _ => rfl
        stack := rfl
        ctr := hn
        new := by
          show upd w1.byCtr (number { w1 with active := B } true) (some w1.made) w1.host = _
          rw [hn, upd_same]
        prev := upd_same ..
        set := hset
        old := fun o ho => upd_ne _ _ (Nat.ne_of_lt ho)
        only := by
          intro p hp
          replace hp : (p, v) ∈ upd w1.parents w1.made [] w1.made := hp
          rw [upd_same] at hp
          cases hp
        cur := by
          show (if newest { w1 with active := B } B (number { w1 with active := B } true) then upd w1.cur B (some w1.made) else w1.cur) B = some w1.made ∨
            (if newest { w1 with active := B } B (number { w1 with active := B } true) then upd w1.cur B (some w1.made) else w1.cur) B = w1.cur B
          cases newest { w1 with active := B } B (number { w1 with active := B } true) with
          | true => exact Or.inl (upd_same ..)
          | false => exact Or.inr rfl }
  | e :: b, w, hr, hb => by
    obtain ⟨w2, h2, hs⟩ := run_cons hr
    have ih := next_run h hV hset h2 (fun x hx => hb x (List.mem_cons_of_mem _ hx))
    have he := hb e (List.mem_cons_self ..)
    cases e with
    | start i c => exact he.1.elim
    | enter m c => exact he.2.elim
    | stmt us ds =>
      obtain ⟨hrn, hd⟩ := stmt_step hs
      obtain ⟨w3, hu, e⟩ := doStmt_on (ih.on hrn) hd
      have h3 := next_useAll hV ih hu
      subst e
      refine ⟨h3.on, h3.stack, h3.ctr, h3.new, h3.prev, ?_, h3.old, h3.only, h3.cur⟩
      by_cases hv : v ∈ ds
      · exact ⟨w3.nstmt, by
          show (if v ∈ ds then some (w3.ctr, w3.nstmt) else w3.ts v) = _
          rw [if_pos hv, h3.ctr]⟩
      · obtain ⟨s, hs⟩ := h3.set
        exact ⟨s, by
          show (if v ∈ ds then some (w3.ctr, w3.nstmt) else w3.ts v) = _
          rw [if_neg hv]
          exact hs⟩
    | leave =>
      obtain ⟨f, rest, ks, hst, e, -⟩ := leave_frame hs
      rw [ih.stack] at hst
      cases hst
    | finish =>
      obtain ⟨hrn, hst, ks, e, -⟩ := finish_frame hs
      subst e
      exact ⟨fun h => (by cases h), ih.stack, ih.ctr, ih.new, ih.prev, ih.set, ih.old, ih.only, ih.cur⟩

/-- **C147, violated.** A cell that is run right after a cell that ran code inside and reads a variable set by that code gets no dependency by this variable: what is recorded
for it was recorded before. -/
theorem use_lost {A B : Id} {c c' : Code} {h0 a b : List Ev} {w w1 : W} {v : Var} (h1 : run (Ev.finish :: (a ++ Ev.start A c :: h0)) = .ok w1)
    (hr : run (b ++ Ev.start B c' :: Ev.finish :: (a ++ Ev.start A c :: h0)) = .ok w)
    (h0p : ∀ e ∈ h0, Plain e) (ha : ∀ e ∈ a, NoStart e ∧ NoCall e) (hb : ∀ e ∈ b, NoStart e ∧ Plain e) (hv : setIn v a = some 1) :
    ∀ p, (p, v) ∈ deps w B → (p, v) ∈ deps w1 B := by
  obtain ⟨w2, h2, hs2⟩ := run_cons h1
  obtain ⟨w3, h3⟩ := run_split h2
  obtain ⟨w4, h4, -⟩ := run_cons h3
  have hrun := (finish_frame hs2).1
  have hD := during_run h4 h0p h2 hrun ha
  obtain ⟨hV, -⟩ := inner_version h4 h0p h2 hrun ha
  obtain ⟨-, s, hts⟩ := hD.set v 1 hv
  obtain ⟨-, -, ks, e, -⟩ := finish_frame hs2
  have hN := next_run (v := v) h1 (by rw [e]; exact fun q hq => (hV.cur B q hq).1) (by
    rw [e]
    exact ⟨s, by show w2.ts v = some (w2.host + 1, s); rw [hts, hD.host]⟩) hr hb
  intro p hp
  rcases hN.cur with hcur | hcur
  · unfold deps at hp
    rw [hcur] at hp
    exact hN.only p hp
  · unfold deps at hp ⊢
    rw [hcur] at hp
    cases hq : w1.cur B with
    | none => rw [hq] at hp; cases hp
    | some q =>
      rw [hq] at hp
      have hq' : q < w1.made := by rw [e] at hq ⊢; exact (hV.cur B q hq).1
      show (p, v) ∈ w1.parents q
      rw [← hN.old q hq']
      exact hp

/-! ## Direct calls -/

/-- **C147, violated.** Once code that was run by a direct call of `run_cell` has come to its end, the statements of the code that called it are not tracked any more: nothing they
set or read is recorded. -/
theorem after_call_unrecorded {h : List Ev} {c : Code} {e1 : List Ev} {w1 : W} (h1 : run (Ev.leave :: (e1 ++ Ev.enter false c :: h)) = .ok w1)
    (he1 : ∀ e ∈ e1, ∃ us ds, e = Ev.stmt us ds) :
    ∀ {s : List Ev} {w : W}, run (s ++ Ev.leave :: (e1 ++ Ev.enter false c :: h)) = .ok w → (∀ e ∈ s, ∃ us ds, e = Ev.stmt us ds) → w = w1 := by
  have hstack : ∀ {e1 : List Ev} {w : W}, run (e1 ++ Ev.enter false c :: h) = .ok w → (∀ e ∈ e1, ∃ us ds, e = Ev.stmt us ds) → ∃ r, w.stack = none :: r := by
    intro e1
    induction e1 with
    | nil =>
      intro w hr _
      obtain ⟨w0, h0, hs⟩ := run_cons hr
      obtain ⟨-, e⟩ := enter_step hs
      subst e
      exact ⟨_, rfl⟩
    | cons e e1 ih =>
      intro w hr he
      obtain ⟨w0, h0, hs⟩ := run_cons hr
      obtain ⟨us, ds, e'⟩ := he e (List.mem_cons_self ..)
      subst e'
      obtain ⟨r, hst⟩ := ih h0 (fun x hx => he x (List.mem_cons_of_mem _ hx))
      obtain ⟨-, hd⟩ := stmt_step hs
      cases ho : w0.on with
      | true =>
        obtain ⟨ps, ks, e⟩ := doStmt_frame ho hd
        subst e
        exact ⟨r, hst⟩
      | false => rw [doStmt_off ho hd]; exact ⟨r, hst⟩
  have hoff : w1.on = false := by
    obtain ⟨w2, h2, hs2⟩ := run_cons h1
    obtain ⟨f, rest, ks, hst, e, -⟩ := leave_frame hs2
    obtain ⟨r, hst'⟩ := hstack h2 he1
    rw [hst'] at hst
    injection hst with hf _
    subst e
    show f.getD false = false
    rw [← hf]
    rfl
  intro s
  induction s with
  | nil =>
    intro w hr _
    rw [List.nil_append, h1] at hr
    exact (Except.ok.inj hr).symm
  | cons e s ih =>
    intro w hr he
    obtain ⟨w0, h0, hs⟩ := run_cons hr
    obtain ⟨us, ds, e'⟩ := he e (List.mem_cons_self ..)
    subst e'
    have hw := ih h0 (fun x hx => he x (List.mem_cons_of_mem _ hx))
    subst hw
    exact doStmt_off hoff (stmt_step hs).2

/-! ## Dependencies without runs inside runs -/

/-- What is recorded then. -/
structure Rec (h : List Ev) (w : W) : Prop where
  kids : ∀ k ∈ w.kids, Used k.2.1 k.1 h
  time : ∀ v t, w.ts v = some t → t.1 < w.ctr ∨ (t.1 = w.ctr ∧ (w.running = true → t.2 < w.nstmt))
  latest : ∀ v i, SetByLatest v i h → ∃ n s o, w.ts v = some (n, s) ∧ w.byCtr n = some o ∧ w.cur i = some o

theorem used_cons {r u : Id} {e : Ev} {h : List Ev} (hu : Used r u h) : Used r u (e :: h) := by
  cases e with
  | stmt us ds => exact Or.inr hu
  | _ => exact hu

theorem rec_step {e : Ev} {h : List Ev} {w w' : W} (hI : Inv h w) (hV : Vers w) (hR : Rec h w) (hp : ∀ x ∈ e :: h, Plain x) (hs : step e w = .ok w') : Rec (e :: h) w' := by
  have hp' := fun x hx => hp x (List.mem_cons_of_mem _ hx)
  cases e with
  | start i c =>
    obtain ⟨hrn, e⟩ := start_step hs
    have hsy := hI.sync hp'
    rw [if_neg (by rw [hrn]; decide)] at hsy
    have hn : number { w with active := i } true = w.ctr + 1 := by rw [number_true]; exact hsy.symm
    have hC := vers_create (w := { w with active := i }) (c := c) (v := true) (i := i) ⟨hV.cur, hV.num, fun h => by rw [hrn] at h; cases h⟩ hn
    subst e
    refine ⟨hR.kids, ?_, ?_⟩
    · intro v t ht
      left
      show t.1 < number { w with active := i } true
      rw [hn]
      have ht : w.ts v = some t := ht
      rcases hR.time v t ht with h1 | h1 <;> omega
    · intro v j hj
      obtain ⟨hne, hj⟩ := hj
      obtain ⟨n, s, o, h1, h2, h3⟩ := hR.latest v j hj
      refine ⟨n, s, o, h1, ?_, ?_⟩
      · show upd w.byCtr (number { w with active := i } true) (some w.made) n = _
        have := (hI.below n o h2).1
        rw [hn, upd_ne _ _ (by omega)]
        exact h2
      · show (create { w with active := i } i c true).cur j = _
        rw [hC.2.2.2, upd_ne _ _ (Ne.symm hne)]
        exact h3
  | enter m c => exact (hp _ (List.mem_cons_self ..)).elim
  | stmt us ds =>
    obtain ⟨hrn, hd⟩ := stmt_step hs
    obtain ⟨o, ho1, ho2⟩ := hV.busy hrn
    obtain ⟨o', ho1', hid, hcell⟩ := hI.here hrn
    have hoo : o' = o := by rw [ho1] at ho1'; exact (Option.some.inj ho1').symm
    subst hoo
    obtain ⟨ps, ks, e, hm⟩ := doStmt_moved (hI.on hrn).1 ho1 hd
    subst e
    refine ⟨?_, ?_, ?_⟩
    · intro k hk
      rcases hm.kids k hk with h1 | ⟨h1, h2, t, p, h3, h4, h5⟩
      · exact used_cons (hR.kids k h1)
      · refine Or.inl ⟨?_, k.2.2, h2, ?_⟩
        · show cellOf h = _
          rw [hcell, h1, hid]
        · cases hsb : setBy k.2.2 h with
          | none => rw [hI.unset _ hsb] at h3; cases h3
          | some i =>
            obtain ⟨n, s, q, g1, g2, g3⟩ := hI.set _ i hsb
            rw [h3] at g1
            have := Option.some.inj g1
            subst this
            rw [h4] at g2
            have := Option.some.inj g2
            subst this
            rw [h5, ← g3]
    · intro v t ht
      replace ht : (if v ∈ ds then some (w.ctr, w.nstmt) else w.ts v) = some t := ht
      show t.1 < w.ctr ∨ (t.1 = w.ctr ∧ (w.running = true → t.2 < w.nstmt + 1))
      split at ht
      · injection ht with ht
        subst ht
        exact Or.inr ⟨rfl, fun _ => Nat.lt_succ_self _⟩
      · rcases hR.time v t ht with h1 | ⟨h1, h2⟩
        · exact Or.inl h1
        · exact Or.inr ⟨h1, fun hr => Nat.lt_succ_of_lt (h2 hr)⟩
    · intro v i hi
      show ∃ n s q, (if v ∈ ds then some (w.ctr, w.nstmt) else w.ts v) = some (n, s) ∧ w.byCtr n = some q ∧ w.cur i = some q
      unfold SetByLatest at hi
      split at hi
      · rename_i hv
        have hi : cellOf h = some i := hi
        rw [hcell] at hi
        rw [if_pos hv, ← Option.some.inj hi]
        exact ⟨w.ctr, w.nstmt, o', rfl, ho1, ho2⟩
      · rename_i hv
        rw [if_neg hv]
        exact hR.latest v i hi
  | leave =>
    obtain ⟨f, rest, ks, -, e, hk⟩ := leave_frame hs
    subst e
    exact ⟨fun k h => hR.kids k (hk k h), hR.time, hR.latest⟩
  | finish =>
    obtain ⟨-, -, ks, e, hk⟩ := finish_frame hs
    subst e
    refine ⟨fun k h => hR.kids k (hk k h), ?_, hR.latest⟩
    intro v t ht
    rcases hR.time v t ht with h1 | ⟨h1, -⟩
    · exact Or.inl h1
    · exact Or.inr ⟨h1, fun h => by cases h⟩

theorem rec_run : ∀ {h : List Ev} {w : W}, run h = .ok w → (∀ e ∈ h, Plain e) → Rec h w
  | [], w, hr, _ => by
    rw [run] at hr; injection hr with hr; subst hr
    refine ⟨?_, ?_, ?_⟩
    · intro k hk; cases hk
    · intro v t h; cases h
    · intro v i h; exact h.elim
  | e :: h, w, hr, hp => by
    obtain ⟨w0, h0, hs⟩ := run_cons hr
    have hp' := fun x hx => hp x (List.mem_cons_of_mem _ hx)
    exact rec_step (inv_plain h0 hp') (vers_run h0 (noCall_of_plain hp') (late_of_plain hp')) (rec_run h0 hp') hp hs

theorem use_records {w w' : W} {v : Var} {A B : Id} {c p : Nat} {t : Nat × Nat} (hc : w.byCtr w.ctr = some c) (hcur : w.cur B = some c) (hcid : w.idOf c = B)
    (ht : w.ts v = some t) (hbef : before t (w.ctr, w.nstmt) = true) (hp : w.byCtr t.1 = some p) (hpc : w.cur A = some p) (hpid : w.idOf p = A) (hne : A ≠ B)
    (hk : ∀ k ∈ w.kids, ¬(k.1 = B ∧ k.2.1 = A)) (h : use w v = .ok w') : (A, v) ∈ w'.parents c := by
  unfold use at h
  rw [ht] at h
  dsimp only at h
  rw [if_pos hbef] at h
  unfold addDep at h
  rw [hc, hp] at h
  dsimp only at h
  have h1 : isCurrent w c = true := by unfold isCurrent; rw [hcid, hcur]; simp
  have h2 : isCurrent w p = true := by unfold isCurrent; rw [hpid, hpc]; simp
  rw [h1, h2, if_pos (by rfl)] at h
  injection h with h
  subst h
  unfold addParent
  rw [if_neg (by
    intro hany
    obtain ⟨k, hk1, hk2⟩ := List.any_eq_true.mp hany
    rw [hcid, hpid] at hk2
    exact hk k hk1 (of_decide_eq_true hk2)), if_neg (by rw [hpid, hcid]; exact hne)]
  show (A, v) ∈ upd w.parents c (w.parents c ++ [(w.idOf p, v)]) c
  rw [upd_same, hpid]
  exact List.mem_append_right _ (List.mem_singleton.mpr rfl)

theorem useAll_records {v : Var} {A B : Id} {c p : Nat} {t : Nat × Nat} (hne : A ≠ B) :
    ∀ {us : List Var} {w w' : W}, w.byCtr w.ctr = some c → w.cur B = some c → w.idOf c = B → w.ts v = some t → before t (w.ctr, w.nstmt) = true → w.byCtr t.1 = some p →
      w.cur A = some p → w.idOf p = A → (∀ k ∈ w.kids, ¬(k.1 = B ∧ k.2.1 = A)) → useAll us w = .ok w' → v ∈ us → (A, v) ∈ w'.parents c
  | [], w, w', _, _, _, _, _, _, _, _, _, _, hv => by cases hv
  | u :: us, w, w', hc, hcur, hcid, ht, hbef, hp, hpc, hpid, hk, h, hv => by
    rw [useAll] at h
    cases hu : use w u with
    | error e => rw [hu] at h; cases h
    | ok w1 =>
      rw [hu] at h
      have m1 := use_moved hc hu
      obtain ⟨ps, ks, e1⟩ := m1.frame
      have hk1 : ∀ k ∈ w1.kids, ¬(k.1 = B ∧ k.2.1 = A) := by
        intro k hkm
        rcases m1.kids k hkm with h1 | ⟨h1, -⟩
        · exact hk k h1
        · rw [hcid] at h1
          intro h2
          exact hne (h2.2.symm.trans h1)
      have m2 := useAll_moved (c := c) (by rw [e1]; exact hc) h
      rcases List.mem_cons.mp hv with h1 | h1
      · subst h1
        exact m2.keep _ (use_records hc hcur hcid ht hbef hp hpc hpid hne hk hu)
      · exact useAll_records hne (by rw [e1]; exact hc) (by rw [e1]; exact hcur) (by rw [e1]; exact hcid) (by rw [e1]; exact ht) (by rw [e1]; exact hbef)
          (by rw [e1]; exact hp) (by rw [e1]; exact hpc) (by rw [e1]; exact hpid) hk1 h h1

/-- **C147, in part.** Without runs inside runs, a cell that reads a variable gets a dependency on the cell that set it, if that cell has not been run again since and has itself
never read anything that the reading cell had set. -/
theorem recorded_partial {h : List Ev} {w : W} {us ds : List Var} {v : Var} {A B : Id} (hr : run (Ev.stmt us ds :: h) = .ok w) (hp : ∀ e ∈ h, Plain e) (hv : v ∈ us)
    (hB : cellOf h = some B) (hA : SetByLatest v A h) (hne : A ≠ B) (hu : ¬Used A B h) : (A, v) ∈ deps w B := by
  obtain ⟨w0, h0, hs⟩ := run_cons hr
  have hI := inv_plain h0 hp
  have hV := vers_run h0 (noCall_of_plain hp) (late_of_plain hp)
  have hR := rec_run h0 hp
  obtain ⟨hrn, hd⟩ := stmt_step hs
  obtain ⟨o, ho1, ho2⟩ := hV.busy hrn
  obtain ⟨o', -, -, hcell⟩ := hI.here hrn
  have hact : w0.active = B := by rw [hB] at hcell; exact (Option.some.inj hcell).symm
  rw [hact] at ho2
  obtain ⟨n, s, p, h1, h2, h3⟩ := hR.latest v A hA
  have hbef : before (n, s) (w0.ctr, w0.nstmt) = true := by
    unfold before
    have := hR.time v (n, s) h1
    simp only [decide_eq_true_eq]
    rcases this with h4 | ⟨h4, h5⟩
    · exact Or.inl h4
    · exact Or.inr ⟨h4, h5 hrn⟩
  obtain ⟨w1, hua, e⟩ := doStmt_on (hI.on hrn).1 hd
  have hin := useAll_records hne ho1 ho2 (hV.cur _ _ ho2).2.2 h1 hbef h2 h3 (hV.cur _ _ h3).2.2 (by
    intro k hk hkk
    have := hR.kids k hk
    rw [hkk.1, hkk.2] at this
    exact hu this) hua hv
  obtain ⟨ps, ks, e1⟩ := useAll_frame hua
  subst e
  unfold deps
  have : w1.cur B = some o := by rw [e1]; exact ho2
  show (A, v) ∈ (match w1.cur B with | none => [] | some o => w1.parents o)
  rw [this]
  exact hin

/-! ## The variable of `%%capture` -/

theorem dropWhile_head {w : List Char} (h : w ≠ []) (hw : w.head? ≠ some ' ') : w.dropWhile (· = ' ') = w := by
  cases w with
  | nil => exact absurd rfl h
  | cons x xs =>
    have : x ≠ ' ' := fun he => hw (by rw [he]; rfl)
    simp [List.dropWhile, this]

theorem strip_id {w : List Char} (h : w ≠ []) (h1 : w.head? ≠ some ' ') (h2 : w.getLast? ≠ some ' ') : strip w = w := by
  unfold strip
  rw [dropWhile_head h h1, dropWhile_head (by simpa using h) (by rw [List.head?_reverse]; exact h2), List.reverse_reverse]

theorem line_ne {w : List Char} {ws : List (List Char)} (h : Word w) : line (w :: ws) ≠ [] := by
  cases ws with
  | nil => exact h.1
  | cons a as => simp [line]

theorem line_head {w : List Char} {ws : List (List Char)} (h : Word w) : (line (w :: ws)).head? = w.head? := by
  cases ws with
  | nil => rfl
  | cons a as =>
    cases w with
    | nil => exact absurd rfl h.1
    | cons x xs => rfl

theorem line_last : ∀ {ws : List (List Char)}, ws ≠ [] → (∀ w ∈ ws, Word w) → (line ws).getLast? ≠ some ' '
  | [], h, _ => absurd rfl h
  | [w], _, hw => by
    intro h
    exact (hw w (List.mem_singleton.mpr rfl)).2 (List.mem_of_getLast? h)
  | w :: a :: as, _, hw => by
    have ih := line_last (ws := a :: as) (by simp) (fun x hx => hw x (List.mem_cons_of_mem _ hx))
    intro h
    rw [line] at h
    have hne : line (a :: as) ≠ [] := line_ne (hw a (by simp))
    rw [List.getLast?_append_of_ne_nil _ (by simp), List.getLast?_cons_of_ne_nil hne] at h
    · exact ih h
    · simp

theorem outvar_line {ws : List (List Char)} (hne : ws ≠ []) (hw : ∀ w ∈ ws, Word w) : outvar (line ws) = line ws := by
  cases ws with
  | nil => exact absurd rfl hne
  | cons w ws =>
    have h := hw w (List.mem_cons_self ..)
    refine strip_id (line_ne h) ?_ (line_last hne hw)
    rw [line_head h]
    intro he
    exact h.2 (List.mem_of_mem_head? he)

theorem dropWhile_blanks : ∀ (n : Nat) (w : List Char), (List.replicate n ' ' ++ w).dropWhile (· = ' ') = w.dropWhile (· = ' ')
  | 0, _ => rfl
  | n + 1, w => by
    rw [List.replicate_succ, List.cons_append, List.dropWhile_cons_of_pos (by simp)]
    exact dropWhile_blanks n w

theorem line_blank : ∀ {ws : List (List Char)}, 2 ≤ ws.length → ' ' ∈ line ws
  | [], h => by simp at h
  | [_], h => by simp at h
  | w :: a :: as, _ => by simp [line]

/-- **C148, in part.** If the name of a variable is all that follows `%%capture` on its line, whatever the blanks, the output is recorded under this name. -/
theorem outvar_partial {w : List Char} (h : Word w) (n m : Nat) : outvar (List.replicate n ' ' ++ w ++ List.replicate m ' ') = w := by
  have h1 : w.head? ≠ some ' ' := fun he => h.2 (List.mem_of_mem_head? he)
  have h2 : w.reverse.head? ≠ some ' ' := fun he => h.2 (List.mem_reverse.mp (List.mem_of_mem_head? he))
  unfold outvar strip
  rw [List.append_assoc, dropWhile_blanks]
  have h3 : (w ++ List.replicate m ' ').dropWhile (· = ' ') = w ++ List.replicate m ' ' := by
    apply dropWhile_head
    · simp [h.1]
    · cases w with
      | nil => exact absurd rfl h.1
      | cons x xs => exact h1
  rw [h3, List.reverse_append, List.reverse_replicate, dropWhile_blanks, dropWhile_head (by simpa using h.1) h2, List.reverse_reverse]

/-- **C148, violated.** If options are given along with the name, the output is recorded under something with a blank in it, which is the name of no variable. -/
theorem outvar_no_name {ws : List (List Char)} {w o : List Char} (hw : ∀ w ∈ ws, Word w) (hm : w ∈ ws) (hn : ¬IsOption w) (ho : o ∈ ws) (hopt : IsOption o) :
    ' ' ∈ outvar (line ws) ∧ outvar (line ws) ≠ w := by
  have hne : ws ≠ [] := by intro h; rw [h] at hm; cases hm
  have hlen : 2 ≤ ws.length := by
    match ws, hm, ho with
    | [x], hm, ho =>
      rw [List.mem_singleton] at hm ho
      rw [hm, ← ho] at hn
      exact absurd hopt hn
    | _ :: _ :: _, _, _ => simp
  have hb : ' ' ∈ outvar (line ws) := by rw [outvar_line hne hw]; exact line_blank hlen
  exact ⟨hb, fun he => (hw w hm).2 (he ▸ hb)⟩

/-- **C148, violated.** If only options are given, so that the output is thrown away, a symbol is made for the options. -/
theorem outvar_spurious {ws : List (List Char)} (hne : ws ≠ []) (hw : ∀ w ∈ ws, Word w) (ho : ∀ w ∈ ws, IsOption w) : IsOption (outvar (line ws)) := by
  rw [outvar_line hne hw]
  cases ws with
  | nil => exact absurd rfl hne
  | cons w ws =>
    unfold IsOption
    rw [line_head (hw w (List.mem_cons_self ..))]
    exact ho w (List.mem_cons_self ..)

end Verif.Nest
