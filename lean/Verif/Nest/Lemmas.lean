import Verif.Nest.Spec

/-!
# Runs of code inside runs of cells: lemmas -/

namespace Verif.Nest
open Verif

theorem upd_same {α : Type} (f : Nat → α) (k : Nat) (a : α) : upd f k a k = a := by simp [upd]
theorem upd_ne {α : Type} (f : Nat → α) {k x : Nat} (a : α) (h : x ≠ k) : upd f k a x = f x := by simp [upd, h]

theorem run_cons {e : Ev} {h : List Ev} {w : W} (hr : run (e :: h) = .ok w) : ∃ w0, run h = .ok w0 ∧ step e w0 = .ok w := by
  rw [run] at hr
  cases hw : run h with
  | error e' => rw [hw] at hr; cases hr
  | ok w0 => rw [hw] at hr; exact ⟨w0, rfl, hr⟩

/-! ## Frames -/

theorem addParent_frame (w : W) (c p : Nat) (v : Var) : ∃ ps ks, addParent w c p v = { w with parents := ps, kids := ks } := by
  unfold addParent
  split
  · exact ⟨_, _, rfl⟩
  · split <;> exact ⟨_, _, rfl⟩

theorem addDep_frame {w w' : W} {t : Nat} {v : Var} (h : addDep w t v = .ok w') : ∃ ps ks, w' = { w with parents := ps, kids := ks } := by
  unfold addDep at h
  split at h
  · injection h with h
    subst h
    split
    · exact addParent_frame ..
    · exact ⟨_, _, rfl⟩
  · cases h

theorem use_frame {w w' : W} {v : Var} (h : use w v = .ok w') : ∃ ps ks, w' = { w with parents := ps, kids := ks } := by
  unfold use at h
  split at h
  · injection h with h; subst h; exact ⟨_, _, rfl⟩
  · split at h
    · exact addDep_frame h
    · injection h with h; subst h; exact ⟨_, _, rfl⟩

theorem useAll_frame : ∀ {us : List Var} {w w' : W}, useAll us w = .ok w' → ∃ ps ks, w' = { w with parents := ps, kids := ks }
  | [], w, w', h => by
    rw [useAll] at h; injection h with h; subst h; exact ⟨_, _, rfl⟩
  | v :: vs, w, w', h => by
    rw [useAll] at h
    cases hu : use w v with
    | error e => rw [hu] at h; cases h
    | ok w1 =>
      rw [hu] at h
      obtain ⟨ps, ks, e1⟩ := use_frame hu
      obtain ⟨ps', ks', e2⟩ := useAll_frame h
      exact ⟨ps', ks', by rw [e2, e1]⟩

theorem doStmt_off {w w' : W} {us ds : List Var} (ho : w.on = false) (h : doStmt w us ds = .ok w') : w' = w := by
  unfold doStmt at h
  rw [ho] at h
  simp at h
  exact h.symm

theorem doStmt_on {w w' : W} {us ds : List Var} (ho : w.on = true) (h : doStmt w us ds = .ok w') :
    ∃ w1, useAll us w = .ok w1 ∧ w' = { define w1 ds with nstmt := w1.nstmt + 1 } := by
  unfold doStmt at h
  rw [if_pos ho] at h
  cases hu : useAll us w with
  | error e => rw [hu] at h; cases h
  | ok w1 => rw [hu] at h; injection h with h; exact ⟨w1, rfl, h.symm⟩

/-- What a statement changes while tracing is on. -/
theorem doStmt_frame {w w' : W} {us ds : List Var} (ho : w.on = true) (h : doStmt w us ds = .ok w') :
    ∃ ps ks, w' = { w with parents := ps, kids := ks, ts := fun v => if v ∈ ds then some (w.ctr, w.nstmt) else w.ts v, nstmt := w.nstmt + 1 } := by
  obtain ⟨w1, hu, e⟩ := doStmt_on ho h
  obtain ⟨ps, ks, e1⟩ := useAll_frame hu
  exact ⟨ps, ks, by rw [e, e1]; rfl⟩

theorem sweep_frame {w w' : W} (h : sweep w = .ok w') : ∃ ks, w' = { w with kids := ks } ∧ ∀ k ∈ ks, k ∈ w.kids := by
  unfold sweep at h
  split at h
  · cases h
  · split at h
    · injection h with h; subst h; exact ⟨_, rfl, fun k hk => hk⟩
    · injection h with h; subst h; exact ⟨_, rfl, fun k hk => (List.mem_filter.mp hk).1⟩

theorem endRun_frame {w w' : W} (h : endRun w = .ok w') : ∃ ks, w' = { w with kids := ks, on := false } ∧ ∀ k ∈ ks, k ∈ w.kids := by
  obtain ⟨ks, e, hk⟩ := sweep_frame h
  exact ⟨ks, e, hk⟩

theorem leave_frame {w w' : W} (h : step .leave w = .ok w') :
    ∃ f rest ks, w.stack = f :: rest ∧ w' = { w with kids := ks, on := f.getD false, stack := rest } ∧ ∀ k ∈ ks, k ∈ w.kids := by
  unfold step at h
  dsimp only at h
  cases hs : w.stack with
  | nil => rw [hs] at h; cases h
  | cons f rest =>
    rw [hs] at h
    dsimp only at h
    cases he : endRun w with
    | error e => rw [he] at h; cases h
    | ok w1 =>
      rw [he] at h
      injection h with h
      obtain ⟨ks, e, hk⟩ := endRun_frame he
      refine ⟨f, rest, ks, rfl, ?_, hk⟩
      rw [← h, e]
      simp [resume]

theorem finish_frame {w w' : W} (h : step .finish w = .ok w') :
    w.running = true ∧ w.stack = [] ∧ ∃ ks, w' = { w with kids := ks, on := false, running := false, host := w.host + 1 } ∧ ∀ k ∈ ks, k ∈ w.kids := by
  unfold step at h
  dsimp only at h
  split at h
  · rename_i hc
    simp only [Bool.and_eq_true, List.isEmpty_iff] at hc
    cases he : endRun w with
    | error e => rw [he] at h; cases h
    | ok w1 =>
      rw [he] at h
      injection h with h
      obtain ⟨ks, e, hk⟩ := endRun_frame he
      exact ⟨hc.1, hc.2, ks, by rw [← h, e], hk⟩
  · cases h

theorem stmt_step {w w' : W} {us ds : List Var} (h : step (.stmt us ds) w = .ok w') : w.running = true ∧ doStmt w us ds = .ok w' := by
  unfold step at h
  dsimp only at h
  split at h
  · exact ⟨‹_›, h⟩
  · cases h

theorem start_step {w w' : W} {i : Id} {c : Code} (h : step (.start i c) w = .ok w') :
    w.running = false ∧ w' = { begin { w with active := i } c true with running := true, stack := [] } := by
  unfold step at h
  dsimp only at h
  split at h
  · cases h
  · rename_i hc
    injection h with h
    exact ⟨by simpa using hc, h.symm⟩

theorem enter_step {w w' : W} {m : Bool} {c : Code} (h : step (.enter m c) w = .ok w') :
    w.running = true ∧ w' = { begin w c false with stack := (if m then some w.on else none) :: w.stack } := by
  unfold step at h
  dsimp only at h
  split at h
  · injection h with h
    exact ⟨‹_›, h.symm⟩
  · cases h

/-- A run of a cell always takes the number from `IPython`. -/
theorem number_true (w : W) : number w true = w.host := by
  unfold number
  by_cases h : w.ctr + 1 = w.host
  · simp [h]
  · simp [h]

theorem number_false (w : W) : number w false = w.ctr + 1 := by simp [number]

/-! ## Histories in which no cell is run after the first run inside a run -/

/-- What holds then. -/
structure Inv (h : List Ev) (w : W) : Prop where
  on : w.running = true → w.on = true ∧ ∀ f ∈ w.stack, f = some true
  idle : w.running = false → w.stack = []
  sync : (∀ e ∈ h, Plain e) → if w.running = true then w.ctr = w.host else w.ctr + 1 = w.host
  below : ∀ n o, w.byCtr n = some o → n ≤ w.ctr ∧ o < w.made
  here : w.running = true → ∃ o, w.byCtr w.ctr = some o ∧ w.idOf o = w.active ∧ cellOf h = some w.active
  set : ∀ v i, setBy v h = some i → ∃ n s o, w.ts v = some (n, s) ∧ w.byCtr n = some o ∧ w.idOf o = i
  unset : ∀ v, setBy v h = none → w.ts v = none

theorem inv_nil : Inv [] start₀ where
  on := by intro h; cases h
  idle := fun _ => rfl
  sync := by intro _; simp [start₀]
  below := by intro n o h; cases h
  here := by intro h; cases h
  set := by intro v i h; cases h
  unset := fun _ _ => rfl

/-- A new version with the next number. -/
theorem inv_create {w : W} {n : Nat} {c : Code} (hb : ∀ n o, w.byCtr n = some o → n ≤ w.ctr ∧ o < w.made) {v : Bool} (hn : number w v = w.ctr + 1) (i : Id) :
    (∀ m o, (create w i c v).byCtr m = some o → m ≤ (create w i c v).ctr ∧ o < (create w i c v).made) ∧
      (create w i c v).byCtr (create w i c v).ctr = some w.made ∧ (create w i c v).idOf w.made = i ∧
      (∀ o, w.byCtr n = some o → (create w i c v).byCtr n = some o ∧ (create w i c v).idOf o = w.idOf o) := by
  unfold create
  dsimp only
  rw [hn]
  refine ⟨?_, upd_same .., upd_same .., ?_⟩
  · intro m o h
    by_cases hm : m = w.ctr + 1
    · subst hm
      rw [upd_same] at h
      injection h with h
      exact ⟨le_refl _, by omega⟩
    · rw [upd_ne _ _ hm] at h
      obtain ⟨h1, h2⟩ := hb m o h
      exact ⟨by omega, by omega⟩
  · intro o ho
    obtain ⟨h1, h2⟩ := hb n o ho
    exact ⟨by rw [upd_ne _ _ (by omega)]; exact ho, upd_ne _ _ (by omega)⟩

theorem inv_step {e : Ev} {h : List Ev} {w w' : W} (hI : Inv h w) (hs : step e w = .ok w') (hc : NoCall e) (hl : Late (e :: h)) : Inv (e :: h) w' := by
  cases e with
  | start i c =>
    obtain ⟨hr, e⟩ := start_step hs
    have hsy := hI.sync hl
    rw [if_neg (by rw [hr]; decide)] at hsy
    have hn : number { w with active := i } true = w.ctr + 1 := by rw [number_true]; exact hsy.symm
    have hC := fun n => inv_create (w := { w with active := i }) (n := n) (c := c) hI.below (v := true) hn i
    subst e
    exact
      { on := fun _ => ⟨rfl, by intro f hf; cases hf⟩
        idle := by intro h; cases h
        sync := by intro _; rw [if_pos (by rfl)]; show number { w with active := i } true = _; exact hn.trans hsy
        below := (hC 0).1
        here := fun _ => ⟨w.made, (hC 0).2.1, (hC 0).2.2.1, rfl⟩
        set := by
          intro v j hv
          obtain ⟨n, s, o, h1, h2, h3⟩ := hI.set v j hv
          obtain ⟨h4, h5⟩ := (hC n).2.2.2 o h2
          exact ⟨n, s, o, h1, h4, h5.trans h3⟩
        unset := fun v hv => hI.unset v hv }
  | enter m c =>
    obtain ⟨hr, e⟩ := enter_step hs
    cases m with
    | false => exact hc.elim
    | true =>
      have hn : number w false = w.ctr + 1 := number_false w
      have hC := fun n => inv_create (w := w) (n := n) (c := c) hI.below (v := false) hn w.active
      obtain ⟨o0, hh1, hh2, hh3⟩ := hI.here hr
      subst e
      exact
        { on := fun _ => ⟨rfl, by
            intro f hf
            rcases List.mem_cons.mp hf with h1 | h1
            · rw [h1, (hI.on hr).1]; rfl
            · exact (hI.on hr).2 f h1⟩
          idle := by intro h; exact absurd (hr.symm.trans h) (by decide)
          sync := by intro h; exact (h _ (List.mem_cons_self ..)).elim
          below := (hC 0).1
          here := fun _ => ⟨w.made, (hC 0).2.1, (hC 0).2.2.1, hh3⟩
          set := by
            intro v j hv
            obtain ⟨n, s, o, h1, h2, h3⟩ := hI.set v j hv
            obtain ⟨h4, h5⟩ := (hC n).2.2.2 o h2
            exact ⟨n, s, o, h1, h4, h5.trans h3⟩
          unset := fun v hv => hI.unset v hv }
  | stmt us ds =>
    obtain ⟨hr, hd⟩ := stmt_step hs
    obtain ⟨ps, ks, e⟩ := doStmt_frame (hI.on hr).1 hd
    obtain ⟨o0, hh1, hh2, hh3⟩ := hI.here hr
    subst e
    exact
      { on := hI.on
        idle := hI.idle
        sync := fun hp => hI.sync (fun e he => hp e (List.mem_cons_of_mem _ he))
        below := hI.below
        here := hI.here
        set := by
          intro v j hv
          rw [setBy] at hv
          by_cases hm : v ∈ ds
          · rw [if_pos hm] at hv
            refine ⟨w.ctr, w.nstmt, o0, by simp [hm], hh1, ?_⟩
            have : cellOf h = some j := hv
            rw [hh3] at this
            exact hh2.trans (Option.some.inj this)
          · rw [if_neg hm] at hv
            simpa [hm] using hI.set v j hv
        unset := by
          intro v hv
          rw [setBy] at hv
          by_cases hm : v ∈ ds
          · rw [if_pos hm] at hv
            have : cellOf h = none := hv
            rw [hh3] at this
            cases this
          · rw [if_neg hm] at hv
            simpa [hm] using hI.unset v hv }
  | leave =>
    obtain ⟨f, rest, ks, hst, e, -⟩ := leave_frame hs
    have hr : w.running = true := by
      cases hr : w.running with
      | true => rfl
      | false => rw [hI.idle hr] at hst; cases hst
    have hf : f = some true := (hI.on hr).2 f (by rw [hst]; exact List.mem_cons_self ..)
    subst e
    exact
      { on := fun _ => ⟨by rw [hf]; rfl, fun g hg => (hI.on hr).2 g (by rw [hst]; exact List.mem_cons_of_mem _ hg)⟩
        idle := by intro h; exact absurd (hr.symm.trans h) (by decide)
        sync := fun hp => hI.sync (fun e he => hp e (List.mem_cons_of_mem _ he))
        below := hI.below
        here := hI.here
        set := hI.set
        unset := hI.unset }
  | finish =>
    obtain ⟨hr, hst, ks, e, -⟩ := finish_frame hs
    subst e
    exact
      { on := by intro h; cases h
        idle := fun _ => hst
        sync := by
          intro hp
          have := hI.sync (fun e he => hp e (List.mem_cons_of_mem _ he))
          rw [if_pos hr] at this
          rw [if_neg (by exact Bool.false_ne_true)]
          show w.ctr + 1 = w.host + 1
          omega
        below := hI.below
        here := by intro h; cases h
        set := hI.set
        unset := hI.unset }

theorem late_of_plain {h : List Ev} (hp : ∀ e ∈ h, Plain e) : Late h := by
  induction h with
  | nil => trivial
  | cons e h ih =>
    have ht := fun x hx => hp x (List.mem_cons_of_mem _ hx)
    cases e with
    | start i c => exact ht
    | _ => exact ih ht

theorem Late.tail {e : Ev} {h : List Ev} (hl : Late (e :: h)) : Late h := by
  cases e with
  | start i c => exact late_of_plain hl
  | _ => exact hl

theorem inv_run : ∀ {h : List Ev} {w : W}, run h = .ok w → (∀ e ∈ h, NoCall e) → Late h → Inv h w
  | [], w, hr, _, _ => by rw [run] at hr; injection hr with hr; subst hr; exact inv_nil
  | e :: h, w, hr, hc, hl => by
    obtain ⟨w0, h0, hs⟩ := run_cons hr
    exact inv_step (inv_run h0 (fun x hx => hc x (List.mem_cons_of_mem _ hx)) hl.tail) hs (hc e (List.mem_cons_self ..)) hl

theorem noCall_of_plain {h : List Ev} (hp : ∀ e ∈ h, Plain e) : ∀ e ∈ h, NoCall e := by
  intro e he
  have := hp e he
  cases e <;> trivial

theorem inv_plain {h : List Ev} {w : W} (hr : run h = .ok w) (hp : ∀ e ∈ h, Plain e) : Inv h w := inv_run hr (noCall_of_plain hp) (late_of_plain hp)

end Verif.Nest
