import Verif.Nest.Witness

/-!
# Dependencies without runs inside runs: only what the other cell depends on now is in the way -/

namespace Verif.Nest
open Verif

/-- A child that was recorded while a cell read something is matched by a parent of its version. -/
theorem addParent_both (w : W) (c p : Nat) (v : Var) : ∀ k ∈ (addParent w c p v).kids, k ∈ w.kids ∨ (k.2.1 = w.idOf c ∧ (k.1, k.2.2) ∈ (addParent w c p v).parents c) := by
  intro k hk
  unfold addParent at hk ⊢
  split
  · rename_i h
    rw [if_pos h] at hk
    exact Or.inl hk
  · rename_i h
    rw [if_neg h] at hk
    split
    · rename_i h2
      rw [if_pos h2] at hk
      exact Or.inl hk
    · rename_i h2
      rw [if_neg h2] at hk
      rcases List.mem_append.mp hk with h1 | h1
      · exact Or.inl h1
      · have := List.mem_singleton.mp h1
        subst this
        refine Or.inr ⟨rfl, ?_⟩
        show _ ∈ upd w.parents c (w.parents c ++ [(w.idOf p, v)]) c
        rw [upd_same]
        exact List.mem_append_right _ (List.mem_singleton.mpr rfl)

theorem use_both {w w' : W} {c : Nat} {v : Var} (hc : w.byCtr w.ctr = some c) (h : use w v = .ok w') :
    ∀ k ∈ w'.kids, k ∈ w.kids ∨ (k.2.1 = w.idOf c ∧ (k.1, k.2.2) ∈ w'.parents c) := by
  intro k hk
  unfold use at h
  split at h
  · injection h with h; subst h; exact Or.inl hk
  · split at h
    · unfold addDep at h
      rw [hc] at h
      split at h
      · rename_i c' p hc' _
        have := Option.some.inj hc'
        subst this
        injection h with h
        subst h
        split at hk
        · rename_i hcond
          rw [if_pos hcond]
          exact addParent_both w c p v k hk
        · exact Or.inl hk
      · cases h
    · injection h with h; subst h; exact Or.inl hk

theorem useAll_both : ∀ {us : List Var} {w w' : W} {c : Nat}, w.byCtr w.ctr = some c → useAll us w = .ok w' →
    ∀ k ∈ w'.kids, k ∈ w.kids ∨ (k.2.1 = w.idOf c ∧ (k.1, k.2.2) ∈ w'.parents c)
  | [], w, w', c, _, h => by rw [useAll] at h; injection h with h; subst h; exact fun k hk => Or.inl hk
  | v :: vs, w, w', c, hc, h => by
    rw [useAll] at h
    cases hu : use w v with
    | error e => rw [hu] at h; cases h
    | ok w1 =>
      rw [hu] at h
      obtain ⟨ps, ks, e1⟩ := (use_moved hc hu).frame
      have hc1 : w1.byCtr w1.ctr = some c := by rw [e1]; exact hc
      have hid : w1.idOf = w.idOf := by rw [e1]
      intro k hk
      rcases useAll_both hc1 h k hk with h1 | ⟨h1, h2⟩
      · rcases use_both hc hu k h1 with h3 | ⟨h3, h4⟩
        · exact Or.inl h3
        · exact Or.inr ⟨h3, (useAll_moved hc1 h).keep _ h4⟩
      · exact Or.inr ⟨by rw [h1, hid], h2⟩

/-- Every child is matched by a parent of the current version, or, while the cell runs, of the version before. -/
def Matched (w : W) : Prop :=
  ∀ k ∈ w.kids, ∃ o, w.cur k.2.1 = some o ∧ ((k.1, k.2.2) ∈ w.parents o ∨ (w.running = true ∧ k.2.1 = w.active ∧ ∃ q, w.prev o = some q ∧ (k.1, k.2.2) ∈ w.parents q ∧ q ≠ o))

theorem matched_start {w w' : W} {i : Id} {c : Code} {h : List Ev} (hI : Inv h w) (hV : Vers w) (hp : ∀ e ∈ h, Plain e) (hM : Matched w) (hs : step (.start i c) w = .ok w') : Matched w' := by
  obtain ⟨hrn, e⟩ := start_step hs
  have hsy := hI.sync hp
  rw [if_neg (by rw [hrn]; decide)] at hsy
  have hn : number { w with active := i } true = w.ctr + 1 := by rw [number_true]; exact hsy.symm
  have hC := vers_create (w := { w with active := i }) (c := c) (v := true) (i := i) ⟨hV.cur, hV.num, fun h => by rw [hrn] at h; cases h⟩ hn
  subst e
  intro k hk
  obtain ⟨o, h1, h2⟩ := hM k hk
  have h2 : (k.1, k.2.2) ∈ w.parents o := by
    rcases h2 with h2 | ⟨h2, -⟩
    · exact h2
    · rw [hrn] at h2; cases h2
  have hlt := (hV.cur _ _ h1).1
  by_cases hi : k.2.1 = i
  · refine ⟨w.made, ?_, Or.inr ⟨rfl, hi, o, ?_, ?_, by omega⟩⟩
    · show (create { w with active := i } i c true).cur k.2.1 = _
      rw [hC.2.2.2, hi, upd_same]
    · show upd w.prev w.made (w.cur i) w.made = _
      rw [upd_same, ← hi]; exact h1
    · show _ ∈ upd w.parents w.made [] o
      rw [upd_ne _ _ (by omega)]; exact h2
  · refine ⟨o, ?_, Or.inl ?_⟩
    · show (create { w with active := i } i c true).cur k.2.1 = _
      rw [hC.2.2.2, upd_ne _ _ hi]; exact h1
    · show _ ∈ upd w.parents w.made [] o
      rw [upd_ne _ _ (by omega)]; exact h2

theorem matched_stmt {w w' : W} {us ds : List Var} {h : List Ev} (hI : Inv h w) (hV : Vers w) (hM : Matched w) (hs : step (.stmt us ds) w = .ok w') : Matched w' := by
  obtain ⟨hrn, hd⟩ := stmt_step hs
  obtain ⟨c, hc, hcur⟩ := hV.busy hrn
  obtain ⟨w1, hu, e⟩ := doStmt_on (hI.on hrn).1 hd
  have hm := useAll_moved hc hu
  obtain ⟨ps, ks, e1⟩ := hm.frame
  have hcu : w1.cur = w.cur := by rw [e1]
  have hpr : w1.prev = w.prev := by rw [e1]
  have hru : w1.running = w.running := by rw [e1]
  have hac : w1.active = w.active := by rw [e1]
  have hid := (hV.cur _ _ hcur).2.2
  subst e
  intro k hk
  replace hk : k ∈ w1.kids := hk
  show ∃ o, w1.cur k.2.1 = some o ∧ ((k.1, k.2.2) ∈ w1.parents o ∨ (w1.running = true ∧ k.2.1 = w1.active ∧ ∃ q, w1.prev o = some q ∧ (k.1, k.2.2) ∈ w1.parents q ∧ q ≠ o))
  rw [hcu, hpr, hru, hac]
  rcases useAll_both hc hu k hk with h1 | ⟨h1, h2⟩
  · obtain ⟨o, g1, g2⟩ := hM k h1
    refine ⟨o, g1, ?_⟩
    rcases g2 with g2 | ⟨g2, g3, q, g4, g5, g6⟩
    · left
      by_cases ho : o = c
      · subst ho; exact hm.keep _ g2
      · rw [hm.others o ho]; exact g2
    · refine Or.inr ⟨g2, g3, q, g4, ?_, g6⟩
      by_cases hq : q = c
      · subst hq; exact hm.keep _ g5
      · rw [hm.others q hq]; exact g5
  · refine ⟨c, ?_, Or.inl h2⟩
    rw [h1, hid]; exact hcur

theorem matched_finish {w w' : W} (hV : Vers w) (hM : Matched w) (hs : step .finish w = .ok w') : Matched w' := by
  obtain ⟨hrn, hst, -⟩ := finish_frame hs
  obtain ⟨c, hc, hcur⟩ := hV.busy hrn
  have hid := (hV.cur _ _ hcur).2.2
  unfold step at hs
  dsimp only at hs
  rw [if_pos (by rw [hrn, hst]; rfl)] at hs
  unfold endRun sweep at hs
  dsimp only at hs
  rw [hc] at hs
  dsimp only at hs
  cases hq : w.prev c with
  | none =>
    rw [hq] at hs
    injection hs with hs
    subst hs
    intro k hk
    obtain ⟨o, g1, g2⟩ := hM k hk
    refine ⟨o, g1, ?_⟩
    rcases g2 with g2 | ⟨_, g3, q, g4, _⟩
    · exact Or.inl g2
    · rw [g3, hcur] at g1
      have := Option.some.inj g1
      subst this
      rw [hq] at g4; cases g4
  | some q =>
    rw [hq] at hs
    injection hs with hs
    subst hs
    intro k hk
    obtain ⟨hk1, hk2⟩ := List.mem_filter.mp hk
    obtain ⟨o, g1, g2⟩ := hM k hk1
    refine ⟨o, g1, ?_⟩
    rcases g2 with g2 | ⟨_, g3, q', g4, g5, _⟩
    · exact Or.inl g2
    · rw [g3, hcur] at g1
      have := Option.some.inj g1
      subst this
      rw [hq] at g4
      have := Option.some.inj g4
      subst this
      left
      by_cases hin : (k.1, k.2.2) ∈ w.parents c
      · exact hin
      · exfalso
        simp only [hid, g3, g5, hin, decide_true, decide_false, Bool.and_self, Bool.not_false, Bool.not_true] at hk2
        cases hk2

theorem matched_run : ∀ {h : List Ev} {w : W}, run h = .ok w → (∀ e ∈ h, Plain e) → Matched w
  | [], w, hr, _ => by
    rw [run] at hr; injection hr with hr; subst hr
    intro k hk; cases hk
  | e :: h, w, hr, hp => by
    obtain ⟨w0, h0, hs⟩ := run_cons hr
    have hp' := fun x hx => hp x (List.mem_cons_of_mem _ hx)
    have hI := inv_plain h0 hp'
    have hV := vers_run h0 (noCall_of_plain hp') (late_of_plain hp')
    have hM := matched_run h0 hp'
    cases e with
    | start i c => exact matched_start hI hV hp' hM hs
    | enter m c => exact (hp _ (List.mem_cons_self ..)).elim
    | stmt us ds => exact matched_stmt hI hV hM hs
    | leave =>
      obtain ⟨f, rest, ks, -, e, hk⟩ := leave_frame hs
      subst e
      exact fun k h => hM k (hk k h)
    | finish => exact matched_finish hV hM hs

/-- **C147, in part.** Without runs inside runs, a cell that reads a variable gets a dependency on the cell that set it, if that cell has not been run again since and does not
itself depend now on the reading cell. (What it depended on in runs before its last one does not matter.) -/
theorem recorded_now_partial {h : List Ev} {w0 w : W} {us ds : List Var} {v : Var} {A B : Id} (h0 : run h = .ok w0) (hr : run (Ev.stmt us ds :: h) = .ok w) (hp : ∀ e ∈ h, Plain e)
    (hv : v ∈ us) (hB : cellOf h = some B) (hA : SetByLatest v A h) (hne : A ≠ B) (hu : ∀ x, (B, x) ∉ deps w0 A) : (A, v) ∈ deps w B := by
  obtain ⟨w0', h0', hs⟩ := run_cons hr
  rw [h0] at h0'
  injection h0' with h0'
  subst h0'
  have hI := inv_plain h0 hp
  have hV := vers_run h0 (noCall_of_plain hp) (late_of_plain hp)
  have hR := rec_run h0 hp
  have hM := matched_run h0 hp
  obtain ⟨hrn, hd⟩ := stmt_step hs
  obtain ⟨o, ho1, ho2⟩ := hV.busy hrn
  obtain ⟨o', -, -, hcell⟩ := hI.here hrn
  have hact : w0.active = B := by rw [hB] at hcell; exact (Option.some.inj hcell).symm
  rw [hact] at ho2
  obtain ⟨n, s, p, h1, h2, h3⟩ := hR.latest v A hA
  have hbef : before (n, s) (w0.ctr, w0.nstmt) = true := by
    unfold before
    have := hR.time v (n, s) h1
    simp only [decide_eq_true_eq]
    rcases this with h4 | ⟨h4, h5⟩
    · exact Or.inl h4
    · exact Or.inr ⟨h4, h5 hrn⟩
  obtain ⟨w1, hua, e⟩ := doStmt_on (hI.on hrn).1 hd
  have hin := useAll_records hne ho1 ho2 (hV.cur _ _ ho2).2.2 h1 hbef h2 h3 (hV.cur _ _ h3).2.2 (by
    intro k hk hkk
    obtain ⟨q, g1, g2⟩ := hM k hk
    rcases g2 with g2 | ⟨_, g3, _⟩
    · apply hu k.2.2
      unfold deps
      rw [← hkk.2, g1, ← hkk.1]
      exact g2
    · rw [hkk.2, hact] at g3
      exact hne g3) hua hv
  obtain ⟨ps, ks, e1⟩ := useAll_frame hua
  subst e
  unfold deps
  have : w1.cur B = some o := by rw [e1]; exact ho2
  show (A, v) ∈ (match w1.cur B with | none => [] | some o => w1.parents o)
  rw [this]
  exact hin

/-- Cell 8 first reads what cell 7 has set, and then, run again, sets something without reading; then cell 7 is run again. -/
def turned : List Ev := [.start 7 11, .finish, .stmt [] [1], .start 8 21, .finish, .stmt [0] [1], .start 8 20, .finish, .stmt [] [0], .start 7 10]

example : (∀ e ∈ turned, Plain e) ∧ cellOf turned = some 7 ∧ SetByLatest 1 8 turned ∧ Used 8 7 turned := by
  refine ⟨?_, rfl, ?_, ?_⟩
  · intro e he
    simp only [turned, List.mem_cons, List.not_mem_nil, or_false] at he
    rcases he with rfl | rfl | rfl | rfl | rfl | rfl | rfl | rfl | rfl | rfl <;> trivial
  · refine ⟨by decide, ?_⟩
    unfold SetByLatest SetByLatest
    rw [if_pos (by decide)]; rfl
  · exact Or.inr (Or.inl ⟨rfl, 0, by decide, by decide⟩)
example : view turned 1 8 = .ok (some 8, [], some 21) := by rfl
example : view (.stmt [1] [2] :: turned) 1 7 = .ok (some 8, [(8, 1)], some 11) := by rfl
-- as long as cell 8 depends on cell 7, the dependency is not recorded
example : view [.stmt [1] [2], .start 7 11, .finish, .stmt [0] [1], .start 8 20, .finish, .stmt [] [0], .start 7 10] 1 7 = .ok (some 8, [], some 11) := by rfl

end Verif.Nest
