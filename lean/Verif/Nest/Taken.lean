import Verif.Nest.Lemmas

/-!
# Runs of code inside runs of cells: the numbers that are given out twice -/

namespace Verif.Nest
open Verif

/-- Only the start of a cell makes a kernel busy that was not. -/
theorem running_back {e : Ev} {w w' : W} (hs : step e w = .ok w') (hr : w'.running = true) (he : NoStart e) : w.running = true := by
  cases e with
  | start i c => exact he.elim
  | enter m c => exact (enter_step hs).1
  | stmt us ds => exact (stmt_step hs).1
  | leave =>
    obtain ⟨f, rest, ks, -, e, -⟩ := leave_frame hs
    subst e
    exact hr
  | finish => exact (finish_frame hs).1

/-- During a run that began in a state where the numbers agree. -/
structure During (A : Id) (N : Nat) (a : List Ev) (w : W) : Prop where
  on : w.on = true ∧ ∀ f ∈ w.stack, f = some true
  active : w.active = A
  ctr : w.ctr = N + inner a
  host : w.host = N
  below : ∀ n o, w.byCtr n = some o → n ≤ w.ctr ∧ o < w.made
  own : ∀ m, m ≤ inner a → ∃ o, w.byCtr (N + m) = some o ∧ w.idOf o = A
  set : ∀ v j, setIn v a = some j → j ≤ inner a ∧ ∃ s, w.ts v = some (N + j, s)

theorem during_step {A : Id} {N : Nat} {a : List Ev} {e : Ev} {w w' : W} (hD : During A N a w) (hs : step e w = .ok w') (hr : w'.running = true) (hn : NoStart e)
    (hc : NoCall e) : During A N (e :: a) w' := by
  cases e with
  | start i c => exact hn.elim
  | enter m c =>
    obtain ⟨hr, e⟩ := enter_step hs
    cases m with
    | false => exact hc.elim
    | true =>
      have hn : number w false = w.ctr + 1 := number_false w
      have hC := fun n => inv_create (w := w) (n := n) (c := c) hD.below (v := false) hn w.active
      have hct : (create w w.active c false).ctr = N + (inner a + 1) := by
        show number w false = _
        rw [hn, hD.ctr]; omega
      subst e
      exact
        { on := ⟨rfl, by
            intro f hf
            rcases List.mem_cons.mp hf with h1 | h1
            · rw [h1, hD.on.1]; rfl
            · exact hD.on.2 f h1⟩
          active := hD.active
          ctr := hct
          host := hD.host
          below := (hC 0).1
          own := by
            intro m hm
            have hm : m ≤ inner a + 1 := hm
            rcases Nat.lt_or_ge (inner a) m with h1 | h1
            · have : m = inner a + 1 := by omega
              subst this
              refine ⟨w.made, ?_, (hC 0).2.2.1.trans hD.active⟩
              rw [← hct]
              exact (hC 0).2.1
            · obtain ⟨o, h2, h3⟩ := hD.own m h1
              obtain ⟨h4, h5⟩ := (hC (N + m)).2.2.2 o h2
              exact ⟨o, h4, h5.trans h3⟩
          set := by
            intro v j hv
            obtain ⟨h1, h2⟩ := hD.set v j hv
            exact ⟨Nat.le_succ_of_le h1, h2⟩ }
  | stmt us ds =>
    obtain ⟨hr, hd⟩ := stmt_step hs
    obtain ⟨ps, ks, e⟩ := doStmt_frame hD.on.1 hd
    subst e
    exact
      { on := hD.on
        active := hD.active
        ctr := hD.ctr
        host := hD.host
        below := hD.below
        own := hD.own
        set := by
          intro v j hv
          rw [setIn] at hv
          by_cases hm : v ∈ ds
          · rw [if_pos hm] at hv
            injection hv with hv
            subst hv
            exact ⟨le_refl _, w.nstmt, by simp [hm, hD.ctr]⟩
          · rw [if_neg hm] at hv
            have := hD.set v j hv
            exact ⟨this.1, by simpa [hm] using this.2⟩ }
  | leave =>
    obtain ⟨f, rest, ks, hst, e, -⟩ := leave_frame hs
    have hf : f = some true := hD.on.2 f (by rw [hst]; exact List.mem_cons_self ..)
    subst e
    exact
      { on := ⟨by rw [hf]; rfl, fun g hg => hD.on.2 g (by rw [hst]; exact List.mem_cons_of_mem _ hg)⟩
        active := hD.active
        ctr := hD.ctr
        host := hD.host
        below := hD.below
        own := hD.own
        set := hD.set }
  | finish =>
    obtain ⟨-, -, ks, e, -⟩ := finish_frame hs
    subst e
    cases hr

theorem during_start {A : Id} {c : Code} {h0 : List Ev} {w w' : W} (h : run h0 = .ok w) (hp : ∀ e ∈ h0, Plain e) (hs : step (.start A c) w = .ok w') :
    During A w.host [] w' := by
  have hI := inv_plain h hp
  obtain ⟨hr, e⟩ := start_step hs
  have hsy := hI.sync hp
  rw [if_neg (by rw [hr]; decide)] at hsy
  have hn : number { w with active := A } true = w.ctr + 1 := by rw [number_true]; exact hsy.symm
  have hC := fun n => inv_create (w := { w with active := A }) (n := n) (c := c) hI.below (v := true) hn A
  have hct : (create { w with active := A } A c true).ctr = w.host := by
    show number { w with active := A } true = _
    rw [number_true]
  subst e
  exact
    { on := ⟨rfl, by intro f hf; cases hf⟩
      active := rfl
      ctr := hct
      host := rfl
      below := (hC 0).1
      own := by
        intro m hm
        have hm : m ≤ 0 := hm
        have : m = 0 := by omega
        subst this
        refine ⟨w.made, ?_, (hC 0).2.2.1⟩
        show _ = _
        have := (hC 0).2.1
        rw [hct] at this
        exact this
      set := by intro v j hv; cases hv }

theorem during_run {A : Id} {c : Code} {h0 : List Ev} {w0 : W} (h : run h0 = .ok w0) (hp : ∀ e ∈ h0, Plain e) :
    ∀ {a : List Ev} {w : W}, run (a ++ Ev.start A c :: h0) = .ok w → w.running = true → (∀ e ∈ a, NoStart e ∧ NoCall e) → During A w0.host a w
  | [], w, hr, _, _ => by
    obtain ⟨w1, h1, hs⟩ := run_cons hr
    rw [h] at h1
    injection h1 with h1
    subst h1
    exact during_start h hp hs
  | e :: a, w, hr, hrun, ha => by
    obtain ⟨w1, h1, hs⟩ := run_cons hr
    have he := ha e (List.mem_cons_self ..)
    exact during_step (during_run h hp h1 (running_back hs hrun he.1) (fun x hx => ha x (List.mem_cons_of_mem _ hx))) hs hrun he.1 he.2

/-- After such a run and further runs of cells. -/
structure After (A : Id) (N k : Nat) (t : Var → Option (Nat × Nat)) (b : List Ev) (w : W) : Prop where
  on : w.running = true → w.on = true
  stack : w.stack = []
  busy : w.running = true → w.host = N + (cellsRun b).length ∧ w.ctr = w.host
  idle : w.running = false → w.host = N + 1 + (cellsRun b).length
  own : ∀ m, 1 ≤ m → m ≤ k → ∃ o, w.byCtr (N + m) = some o ∧ o < w.made ∧ w.idOf o = ((cellsRun b)[m - 1]?).getD A
  set : ∀ v, (∀ e ∈ b, Keeps v e) → w.ts v = t v

theorem after_step {A : Id} {N k : Nat} {t : Var → Option (Nat × Nat)} {b : List Ev} {e : Ev} {w w' : W} (hA : After A N k t b w) (hs : step e w = .ok w') (he : Plain e) :
    After A N k t (e :: b) w' := by
  have hset : ∀ v, (∀ x ∈ e :: b, Keeps v x) → w.ts v = t v := fun v hv => hA.set v (fun x hx => hv x (List.mem_cons_of_mem _ hx))
  cases e with
  | start i c =>
    obtain ⟨hr, e⟩ := start_step hs
    have hh := hA.idle hr
    have hn : number { w with active := i } true = w.host := number_true _
    have hl : (cellsRun (.start i c :: b)).length = (cellsRun b).length + 1 := by rw [cellsRun]; simp
    subst e
    exact
      { on := fun _ => rfl
        stack := rfl
        busy := by
          intro _
          refine ⟨?_, ?_⟩
          · show w.host = _
            rw [hl]; omega
          · show number { w with active := i } true = w.host
            exact hn
        idle := by intro h; cases h
        own := by
          intro m h1 h2
          obtain ⟨o, h3, h4, h5⟩ := hA.own m h1 h2
          by_cases hm : m = (cellsRun b).length + 1
          · refine ⟨w.made, ?_, ?_, ?_⟩
            · show upd w.byCtr (number { w with active := i } true) (some w.made) (N + m) = _
              rw [hn, show N + m = w.host by omega]
              exact upd_same ..
            · show w.made < w.made + 1
              omega
            · show upd w.idOf w.made i w.made = _
              rw [upd_same, cellsRun, hm]
              simp
          · refine ⟨o, ?_, ?_, ?_⟩
            · show upd w.byCtr (number { w with active := i } true) (some w.made) (N + m) = _
              rw [hn, upd_ne _ _ (by omega)]
              exact h3
            · show o < w.made + 1
              omega
            · show upd w.idOf w.made i o = _
              rw [upd_ne _ _ (by omega), h5, cellsRun]
              rcases Nat.lt_or_ge (m - 1) (cellsRun b).length with h6 | h6
              · rw [List.getElem?_append_left h6]
              · rw [List.getElem?_eq_none h6, List.getElem?_eq_none (by simp; omega)]
        set := hset }
  | enter m c => exact he.elim
  | stmt us ds =>
    obtain ⟨hr, hd⟩ := stmt_step hs
    obtain ⟨ps, ks, e⟩ := doStmt_frame (hA.on hr) hd
    subst e
    exact
      { on := hA.on
        stack := hA.stack
        busy := hA.busy
        idle := hA.idle
        own := hA.own
        set := by
          intro v hv
          have hk : v ∉ ds := hv _ (List.mem_cons_self ..)
          show (if v ∈ ds then _ else _) = _
          rw [if_neg hk]
          exact hset v hv }
  | leave =>
    obtain ⟨f, rest, ks, hst, e, -⟩ := leave_frame hs
    rw [hA.stack] at hst
    cases hst
  | finish =>
    obtain ⟨hr, hst, ks, e, -⟩ := finish_frame hs
    have hb := hA.busy hr
    subst e
    exact
      { on := by intro h; cases h
        stack := hA.stack
        busy := by intro h; cases h
        idle := by
          intro _
          show w.host + 1 = N + 1 + (cellsRun b).length
          omega
        own := hA.own
        set := hset }

theorem during_finish {A : Id} {N : Nat} {a : List Ev} {w w' : W} (hD : During A N a w) (hs : step .finish w = .ok w') : After A N (inner a) w.ts [] w' := by
  obtain ⟨hr, hst, ks, e, -⟩ := finish_frame hs
  subst e
  exact
    { on := by intro h; cases h
      stack := hst
      busy := by intro h; cases h
      idle := by intro _; show w.host + 1 = N + 1; rw [hD.host]
      own := by
        intro m _ h2
        obtain ⟨o, h3, h4⟩ := hD.own m h2
        exact ⟨o, h3, (hD.below _ _ h3).2, h4⟩
      set := fun _ _ => rfl }

theorem after_run {A : Id} {N k : Nat} {t : Var → Option (Nat × Nat)} {h1 : List Ev} {w1 : W} (h : run h1 = .ok w1) (hA : After A N k t [] w1) :
    ∀ {b : List Ev} {w : W}, run (b ++ h1) = .ok w → (∀ e ∈ b, Plain e) → After A N k t b w
  | [], w, hr, _ => by
    rw [List.nil_append, h] at hr
    injection hr with hr
    subst hr
    exact hA
  | e :: b, w, hr, hb => by
    obtain ⟨w2, h2, hs⟩ := run_cons hr
    exact after_step (after_run h hA h2 (fun x hx => hb x (List.mem_cons_of_mem _ hx))) hs (hb e (List.mem_cons_self ..))

/-- A history with a run of a cell in it, taken apart. -/
theorem run_split : ∀ {b h : List Ev} {w : W}, run (b ++ h) = .ok w → ∃ w1, run h = .ok w1
  | [], _, w, hr => ⟨w, hr⟩
  | _ :: b, h, w, hr => by
    obtain ⟨w1, h1, -⟩ := run_cons hr
    exact run_split h1

end Verif.Nest
