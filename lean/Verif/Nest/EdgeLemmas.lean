import Verif.Nest.Taken

/-!
# Runs of code inside runs of cells: lemmas on dependencies and versions -/

namespace Verif.Nest
open Verif

/-- What recording that a variable is read can do to the dependencies. -/
structure Moved (c : Nat) (V : Var → Prop) (w w' : W) : Prop where
  frame : ∃ ps ks, w' = { w with parents := ps, kids := ks }
  others : ∀ o, o ≠ c → w'.parents o = w.parents o
  only : ∀ e ∈ w'.parents c, e ∈ w.parents c ∨ V e.2
  keep : ∀ e ∈ w.parents c, e ∈ w'.parents c
  kids : ∀ k ∈ w'.kids, k ∈ w.kids ∨ (k.2.1 = w.idOf c ∧ V k.2.2 ∧ ∃ t p, w.ts k.2.2 = some t ∧ w.byCtr t.1 = some p ∧ k.1 = w.idOf p)

theorem Moved.refl (c : Nat) (V : Var → Prop) (w : W) : Moved c V w w :=
  ⟨⟨_, _, rfl⟩, fun _ _ => rfl, fun _ h => Or.inl h, fun _ h => h, fun _ h => Or.inl h⟩

theorem Moved.trans {c : Nat} {V : Var → Prop} {w w1 w2 : W} (h1 : Moved c V w w1) (h2 : Moved c V w1 w2) : Moved c V w w2 := by
  obtain ⟨ps, ks, e1⟩ := h1.frame
  obtain ⟨ps', ks', e2⟩ := h2.frame
  have hid : w1.idOf = w.idOf := by rw [e1]
  have hts : w1.ts = w.ts := by rw [e1]
  have hb : w1.byCtr = w.byCtr := by rw [e1]
  refine ⟨⟨ps', ks', by rw [e2, e1]⟩, fun o ho => (h2.others o ho).trans (h1.others o ho), ?_, fun e he => h2.keep e (h1.keep e he), ?_⟩
  · intro e he
    rcases h2.only e he with h | h
    · exact h1.only e h
    · exact Or.inr h
  · intro k hk
    rcases h2.kids k hk with h | h
    · exact h1.kids k h
    · rw [hid, hts, hb] at h
      exact Or.inr h

theorem Moved.mono {c : Nat} {V V' : Var → Prop} {w w1 : W} (h : Moved c V w w1) (hV : ∀ v, V v → V' v) : Moved c V' w w1 :=
  ⟨h.frame, h.others, fun e he => (h.only e he).imp id (hV _), h.keep, fun k hk => (h.kids k hk).imp id (fun h => ⟨h.1, hV _ h.2.1, h.2.2⟩)⟩

theorem addParent_moved (w : W) (c p : Nat) (v : Var) {t : Nat × Nat} (ht : w.ts v = some t) (hp : w.byCtr t.1 = some p) :
    Moved c (fun u => u = v) w (addParent w c p v) := by
  unfold addParent
  split
  · exact Moved.refl ..
  · split
    · refine ⟨⟨_, _, rfl⟩, fun o ho => upd_ne _ _ ho, ?_, ?_, fun k hk => Or.inl hk⟩
      · intro e he
        replace he : e ∈ upd w.parents c (w.parents c ++ inherited w c v) c := he
        rw [upd_same] at he
        rcases List.mem_append.mp he with h | h
        · exact Or.inl h
        · unfold inherited at h
          split at h
          · cases h
          · exact Or.inr (by simpa using (List.mem_filter.mp h).2)
      · intro e he
        show e ∈ upd w.parents c (w.parents c ++ inherited w c v) c
        rw [upd_same]
        exact List.mem_append_left _ he
    · refine ⟨⟨_, _, rfl⟩, fun o ho => upd_ne _ _ ho, ?_, ?_, ?_⟩
      · intro e he
        replace he : e ∈ upd w.parents c (w.parents c ++ [(w.idOf p, v)]) c := he
        rw [upd_same] at he
        rcases List.mem_append.mp he with h | h
        · exact Or.inl h
        · exact Or.inr (by rw [List.mem_singleton.mp h])
      · intro e he
        show e ∈ upd w.parents c (w.parents c ++ [(w.idOf p, v)]) c
        rw [upd_same]
        exact List.mem_append_left _ he
      · intro k hk
        rcases List.mem_append.mp hk with h | h
        · exact Or.inl h
        · rw [List.mem_singleton.mp h]
          exact Or.inr ⟨rfl, rfl, t, p, ht, hp, rfl⟩

theorem use_moved {w w' : W} {c : Nat} {v : Var} (hc : w.byCtr w.ctr = some c) (h : use w v = .ok w') : Moved c (fun u => u = v) w w' := by
  unfold use at h
  split at h
  · injection h with h; subst h; exact Moved.refl ..
  · rename_i t ht
    split at h
    · unfold addDep at h
      rw [hc] at h
      cases hp : w.byCtr t.1 with
      | none => rw [hp] at h; cases h
      | some p =>
        rw [hp] at h
        injection h with h
        subst h
        split
        · exact addParent_moved w c p v ht hp
        · exact Moved.refl ..
    · injection h with h; subst h; exact Moved.refl ..

theorem useAll_moved : ∀ {us : List Var} {w w' : W} {c : Nat}, w.byCtr w.ctr = some c → useAll us w = .ok w' → Moved c (fun u => u ∈ us) w w'
  | [], w, w', c, _, h => by rw [useAll] at h; injection h with h; subst h; exact Moved.refl ..
  | v :: vs, w, w', c, hc, h => by
    rw [useAll] at h
    cases hu : use w v with
    | error e => rw [hu] at h; cases h
    | ok w1 =>
      rw [hu] at h
      have m1 := use_moved hc hu
      obtain ⟨ps, ks, e1⟩ := m1.frame
      have m2 := useAll_moved (c := c) (by rw [e1]; exact hc) h
      exact (m1.mono (fun u hu => by rw [hu]; exact List.mem_cons_self ..)).trans (m2.mono (fun u hu => List.mem_cons_of_mem _ hu))

/-- A statement, with what it does to the dependencies. -/
theorem doStmt_moved {w w' : W} {c : Nat} {us ds : List Var} (ho : w.on = true) (hc : w.byCtr w.ctr = some c) (h : doStmt w us ds = .ok w') :
    ∃ ps ks, w' = { w with parents := ps, kids := ks, ts := fun v => if v ∈ ds then some (w.ctr, w.nstmt) else w.ts v, nstmt := w.nstmt + 1 } ∧
      Moved c (fun u => u ∈ us) w { w with parents := ps, kids := ks } := by
  obtain ⟨w1, hu, e⟩ := doStmt_on ho h
  have hm := useAll_moved hc hu
  obtain ⟨ps, ks, e1⟩ := useAll_frame hu
  refine ⟨ps, ks, by rw [e, e1]; rfl, ?_⟩
  rw [← e1]
  exact hm

/-! ## Versions -/

/-- The versions that are looked up by id. -/
structure Vers (w : W) : Prop where
  cur : ∀ i o, w.cur i = some o → o < w.made ∧ w.num o ≤ w.ctr ∧ w.idOf o = i
  num : ∀ n o, w.byCtr n = some o → w.num o = n ∧ n ≤ w.ctr ∧ o < w.made
  busy : w.running = true → ∃ o, w.byCtr w.ctr = some o ∧ w.cur w.active = some o

theorem vers_create {w : W} {c : Code} {v : Bool} {i : Id} (hv : Vers w) (hn : number w v = w.ctr + 1) :
    (∀ j o, (create w i c v).cur j = some o → o < (create w i c v).made ∧ (create w i c v).num o ≤ (create w i c v).ctr ∧ (create w i c v).idOf o = j) ∧
      (∀ n o, (create w i c v).byCtr n = some o → (create w i c v).num o = n ∧ n ≤ (create w i c v).ctr ∧ o < (create w i c v).made) ∧
      (create w i c v).byCtr (create w i c v).ctr = some w.made ∧ (create w i c v).cur = upd w.cur i (some w.made) := by
  have hnew : newest w i (number w v) = true := by
    unfold newest
    split
    · rfl
    · rename_i o ho
      have := (hv.cur i o ho).2.1
      rw [hn]
      simp
      omega
  have hcur : (create w i c v).cur = upd w.cur i (some w.made) := by
    show (if newest w i (number w v) then _ else _) = _
    rw [if_pos hnew]
  refine ⟨?_, ?_, ?_, hcur⟩
  · intro j o ho
    rw [hcur] at ho
    show o < w.made + 1 ∧ upd w.num w.made (number w v) o ≤ number w v ∧ upd w.idOf w.made i o = j
    by_cases hj : j = i
    · subst hj
      rw [upd_same] at ho
      injection ho with ho
      subst ho
      rw [upd_same, upd_same]
      exact ⟨by omega, le_refl _, rfl⟩
    · rw [upd_ne _ _ hj] at ho
      obtain ⟨h1, h2, h3⟩ := hv.cur j o ho
      rw [upd_ne _ _ (by omega), upd_ne _ _ (by omega), hn]
      exact ⟨by omega, by omega, h3⟩
  · intro n o ho
    replace ho : upd w.byCtr (number w v) (some w.made) n = some o := ho
    show upd w.num w.made (number w v) o = n ∧ n ≤ number w v ∧ o < w.made + 1
    by_cases hm : n = number w v
    · subst hm
      rw [upd_same] at ho
      injection ho with ho
      subst ho
      rw [upd_same]
      exact ⟨rfl, le_refl _, by omega⟩
    · rw [upd_ne _ _ hm] at ho
      obtain ⟨h1, h2, h3⟩ := hv.num n o ho
      rw [upd_ne _ _ (by omega), hn]
      exact ⟨h1, by omega, by omega⟩
  · exact upd_same ..

theorem vers_step {e : Ev} {h : List Ev} {w w' : W} (hI : Inv h w) (hv : Vers w) (hs : step e w = .ok w') (hl : Late (e :: h)) : Vers w' := by
  cases e with
  | start i c =>
    obtain ⟨hr, e⟩ := start_step hs
    have hsy := hI.sync hl
    rw [if_neg (by rw [hr]; decide)] at hsy
    have hn : number { w with active := i } true = w.ctr + 1 := by rw [number_true]; exact hsy.symm
    have hC := vers_create (w := { w with active := i }) (c := c) (v := true) (i := i) ⟨hv.cur, hv.num, fun h => by rw [hr] at h; cases h⟩ hn
    subst e
    exact ⟨hC.1, hC.2.1, fun _ => ⟨w.made, hC.2.2.1, by
      show (create { w with active := i } i c true).cur i = _
      rw [hC.2.2.2, upd_same]⟩⟩
  | enter m c =>
    obtain ⟨hr, e⟩ := enter_step hs
    have hC := vers_create (w := w) (c := c) (v := false) (i := w.active) hv (number_false w)
    subst e
    exact ⟨hC.1, hC.2.1, fun _ => ⟨w.made, hC.2.2.1, by
      show (create w w.active c false).cur w.active = _
      rw [hC.2.2.2, upd_same]⟩⟩
  | stmt us ds =>
    obtain ⟨hr, hd⟩ := stmt_step hs
    obtain ⟨ps, ks, e⟩ := doStmt_frame (hI.on hr).1 hd
    subst e
    exact ⟨hv.cur, hv.num, hv.busy⟩
  | leave =>
    obtain ⟨f, rest, ks, hst, e, -⟩ := leave_frame hs
    subst e
    exact ⟨hv.cur, hv.num, hv.busy⟩
  | finish =>
    obtain ⟨hr, hst, ks, e, -⟩ := finish_frame hs
    subst e
    exact ⟨hv.cur, hv.num, fun h => by cases h⟩

theorem vers_run : ∀ {h : List Ev} {w : W}, run h = .ok w → (∀ e ∈ h, NoCall e) → Late h → Vers w
  | [], w, hr, _, _ => by
    rw [run] at hr; injection hr with hr; subst hr
    refine ⟨?_, ?_, ?_⟩
    · intro i o h; cases h
    · intro i o h; cases h
    · intro h; cases h
  | e :: h, w, hr, hc, hl => by
    obtain ⟨w0, h0, hs⟩ := run_cons hr
    have hc' := fun x hx => hc x (List.mem_cons_of_mem _ hx)
    exact vers_step (inv_run h0 hc' hl.tail) (vers_run h0 hc' hl.tail) hs hl

end Verif.Nest
