import Verif.Nest.Swept

/-!
# A variable that the last run of its cell did not set -/

namespace Verif.Nest
open Verif

/-- The version that set a variable is not the current one of its cell, once the cell was run again without setting it. -/
theorem outdated_run : ∀ {h : List Ev} {w : W}, run h = .ok w → (∀ e ∈ h, Plain e) → ∀ v i, setBy v h = some i → ¬SetByLatest v i h →
    ∃ n s o, w.ts v = some (n, s) ∧ w.byCtr n = some o ∧ w.idOf o = i ∧ w.cur i ≠ some o
  | [], _, _, _, v, i, hs, _ => by cases hs
  | e :: h, w, hr, hp, v, i, hs, hl => by
    obtain ⟨w0, h0, hst⟩ := run_cons hr
    have hp' := fun x hx => hp x (List.mem_cons_of_mem _ hx)
    have hI := inv_plain h0 hp'
    have hV := vers_run h0 (noCall_of_plain hp') (late_of_plain hp')
    cases e with
    | start j c =>
      have hs : setBy v h = some i := hs
      obtain ⟨hrn, e⟩ := start_step hst
      have hsy := hI.sync hp'
      rw [if_neg (by rw [hrn]; decide)] at hsy
      have hn : number { w0 with active := j } true = w0.ctr + 1 := by rw [number_true]; exact hsy.symm
      have hC := vers_create (w := { w0 with active := j }) (c := c) (v := true) (i := j) ⟨hV.cur, hV.num, fun h => by rw [hrn] at h; cases h⟩ hn
      have key : ∃ n s o, w0.ts v = some (n, s) ∧ w0.byCtr n = some o ∧ w0.idOf o = i ∧ (j ≠ i → w0.cur i ≠ some o) := by
        by_cases hj : j = i
        · obtain ⟨n, s, o, h1, h2, h3⟩ := hI.set v i hs
          exact ⟨n, s, o, h1, h2, h3, fun h => absurd hj h⟩
        · obtain ⟨n, s, o, h1, h2, h3, h4⟩ := outdated_run h0 hp' v i hs (fun h => hl ⟨hj, h⟩)
          exact ⟨n, s, o, h1, h2, h3, fun _ => h4⟩
      obtain ⟨n, s, o, h1, h2, h3, h4⟩ := key
      have hb := hI.below n o h2
      subst e
      refine ⟨n, s, o, h1, ?_, ?_, ?_⟩
      · show upd w0.byCtr (number { w0 with active := j } true) (some w0.made) n = _
        rw [hn, upd_ne _ _ (by omega)]
        exact h2
      · show upd w0.idOf w0.made j o = _
        rw [upd_ne _ _ (by omega)]
        exact h3
      · show (create { w0 with active := j } j c true).cur i ≠ _
        rw [hC.2.2.2]
        by_cases hj : j = i
        · subst hj
          rw [upd_same]
          intro h
          have := Option.some.inj h
          have h5 : w0.made = o := this
          omega
        · rw [upd_ne _ _ (Ne.symm hj)]
          exact h4 hj
    | enter m c => exact (hp _ (List.mem_cons_self ..)).elim
    | stmt us ds =>
      obtain ⟨hrn, hd⟩ := stmt_step hst
      unfold setBy at hs
      unfold SetByLatest at hl
      by_cases hv : v ∈ ds
      · rw [if_pos hv] at hs hl
        exact absurd hs hl
      · rw [if_neg hv] at hs hl
        obtain ⟨n, s, o, h1, h2, h3, h4⟩ := outdated_run h0 hp' v i hs hl
        obtain ⟨w1, hu, e⟩ := doStmt_on (hI.on hrn).1 hd
        obtain ⟨ps, ks, e1⟩ := useAll_frame hu
        subst e1
        subst e
        refine ⟨n, s, o, ?_, h2, h3, h4⟩
        show (if v ∈ ds then some (w0.ctr, w0.nstmt) else w0.ts v) = _
        rw [if_neg hv]
        exact h1
    | leave =>
      obtain ⟨f, rest, ks, -, e, hk⟩ := leave_frame hst
      subst e
      exact outdated_run h0 hp' v i hs hl
    | finish =>
      obtain ⟨-, -, ks, e, hk⟩ := finish_frame hst
      subst e
      exact outdated_run h0 hp' v i hs hl

/-- Reading a variable that an outdated version has set changes nothing. -/
theorem use_outdated {w w' : W} {v : Var} {n s o : Nat} (ht : w.ts v = some (n, s)) (hb : w.byCtr n = some o) (hc : w.cur (w.idOf o) ≠ some o) (h : use w v = .ok w') : w' = w := by
  have hcur : isCurrent w o = false := by unfold isCurrent; simp [hc]
  unfold use at h
  rw [ht] at h
  dsimp only at h
  split at h
  · unfold addDep at h
    rw [hb] at h
    split at h
    · rename_i c p _ hp
      have := Option.some.inj hp
      subst this
      rw [hcur, Bool.and_false, if_neg (by decide)] at h
      injection h with h
      exact h.symm
    · cases h
  · injection h with h; exact h.symm

theorem useAll_outdated {v : Var} {c n s o : Nat} : ∀ {us : List Var} {w w' : W}, w.byCtr w.ctr = some c → w.ts v = some (n, s) → w.byCtr n = some o → w.cur (w.idOf o) ≠ some o →
    useAll us w = .ok w' → ∀ x, (x, v) ∈ w'.parents c → (x, v) ∈ w.parents c
  | [], w, w', _, _, _, _, h => by rw [useAll] at h; injection h with h; subst h; exact fun x hx => hx
  | u :: us, w, w', hc, ht, hb, ho, h => by
    rw [useAll] at h
    cases hu : use w u with
    | error e => rw [hu] at h; cases h
    | ok w1 =>
      rw [hu] at h
      have hm := use_moved hc hu
      obtain ⟨ps, ks, e1⟩ := hm.frame
      intro x hx
      have h1 := useAll_outdated (us := us) (w := w1) (by rw [e1]; exact hc) (by rw [e1]; exact ht) (by rw [e1]; exact hb) (by rw [e1]; exact ho) h x hx
      by_cases huv : u = v
      · subst huv
        rw [use_outdated ht hb ho hu] at h1
        exact h1
      · rcases hm.only _ h1 with h2 | h2
        · exact h2
        · exact absurd h2.symm huv

/-- **C147, violated.** A cell that reads a variable gets no dependency by it, on any cell, if the cell that set it has been run again since without setting it. -/
theorem outdated_unrecorded {h : List Ev} {w0 w : W} {us ds : List Var} {v : Var} {A B : Id} (h0 : run h = .ok w0) (hr : run (Ev.stmt us ds :: h) = .ok w) (hp : ∀ e ∈ h, Plain e)
    (hB : cellOf h = some B) (hA : setBy v h = some A) (hl : ¬SetByLatest v A h) : ∀ x, (x, v) ∈ deps w B → (x, v) ∈ deps w0 B := by
  obtain ⟨w0', h0', hs⟩ := run_cons hr
  rw [h0] at h0'
  injection h0' with h0'
  subst h0'
  have hI := inv_plain h0 hp
  have hV := vers_run h0 (noCall_of_plain hp) (late_of_plain hp)
  obtain ⟨hrn, hd⟩ := stmt_step hs
  obtain ⟨c, ho1, ho2⟩ := hV.busy hrn
  obtain ⟨o', -, -, hcell⟩ := hI.here hrn
  have hact : w0.active = B := by rw [hB] at hcell; exact (Option.some.inj hcell).symm
  rw [hact] at ho2
  obtain ⟨n, s, o, h1, h2, h3, h4⟩ := outdated_run h0 hp v A hA hl
  obtain ⟨w1, hua, e⟩ := doStmt_on (hI.on hrn).1 hd
  have hin := useAll_outdated ho1 h1 h2 (by rw [h3]; exact h4) hua
  obtain ⟨ps, ks, e1⟩ := useAll_frame hua
  intro x hx
  have hc1 : w.cur B = some c := by rw [e, e1]; exact ho2
  have hpa : w.parents c = w1.parents c := by rw [e]; rfl
  unfold deps at hx ⊢
  rw [hc1] at hx
  rw [ho2]
  refine hin x ?_
  rw [← hpa]
  exact hx

/-- Cell 7 sets a variable and is run again without setting it; cell 8 then reads it. -/
def again : List Ev := [.start 8 20, .finish, .stmt [] [1], .start 7 11, .finish, .stmt [] [0], .start 7 10]

example : (∀ e ∈ again, Plain e) ∧ cellOf again = some 8 ∧ setBy 0 again = some 7 ∧ ¬SetByLatest 0 7 again := by
  refine ⟨?_, rfl, rfl, ?_⟩
  · intro e he
    simp only [again, List.mem_cons, List.not_mem_nil, or_false] at he
    rcases he with rfl | rfl | rfl | rfl | rfl | rfl | rfl <;> trivial
  · intro h
    exact h.2.1 rfl

example : ((run (Ev.stmt [0, 1] [] :: again)).toOption.map fun w => deps w 8) = some [(7, 1)] := by decide

end Verif.Nest
