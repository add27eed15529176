import Verif.Naming.Lemmas

/-! The statements keep the names right. -/

namespace Verif.Naming
open Verif

/-- The keys of all items are natural numbers. -/
def Ints (py : Py) : Prop := ∀ l p i, Assoc.get (py.tab l) p = some i → ∀ k ∈ p, ∃ n, k = Key.int n

theorem tab_step {py : Py} {e : Ev} {l : Nat} (hl : l < py.next) : (py.step e).tab l = py.tab l := by
  cases e with
  | display x items =>
    cases hi : py.items items with
    | none => simp only [Py.step, hi]
    | some t => simp only [Py.step, hi, upd]; rw [if_neg (Nat.ne_of_lt hl)]
  | copy x y ks => cases hv : py.value y ks <;> simp only [Py.step, hv]
  | del x => rfl

/-- What can be got at by way of other variables than `x`, after `x` alone has changed and no object, could be before. -/
theorem from_other {py py' : Py} (ht : py'.tab = py.tab) {z : Nat} (he : py'.env z = py.env z) {P : Obj} (h : From py' z P) : From py z P := by
  induction h with
  | var hx => exact .var (he ▸ hx)
  | part _ hp ih => exact .part ih (by rwa [part_old (congrFun ht _)] at hp)

theorem from_value {py py' : Py} (ht : py'.tab = py.tab) {x y : Nat} {o : Obj} (hx : py'.env x = some o) (hy : From py y o) {P : Obj}
    (h : From py' x P) : From py y P := by
  induction h with
  | var h1 => rw [hx] at h1; cases h1; exact hy
  | part _ hp ih => exact .part ih (by rwa [part_old (congrFun ht _)] at hp)

theorem right_del {first : Obj → Bool} {st : St} {x : Nat} (w : Wf st.py) (r : Right first st) (ha : Alone st.py x) : Right first (st.step (.del x)) := by
  have hq : (st.step (.del x)).py.tab = st.py.tab := rfl
  have hqx : (st.step (.del x)).py.env x = none := by simp [St.step, Py.step, upd]
  have hqe : ∀ z, z ≠ x → (st.step (.del x)).py.env z = st.py.env z := fun z hz => by simp [St.step, Py.step, upd, hz]
  have hn : (st.step (.del x)).name = st.name := rfl
  intro z P hz
  rw [hn]
  generalize (st.step (.del x)).py = q at *
  have hzx : z ≠ x := by
    rintro rfl
    have : ∀ Q, From q z Q → False := by
      intro Q hQ
      induction hQ with
      | var h1 => rw [hqx] at h1; cases h1
      | part _ _ ih => exact ih
    exact this P hz
  have hold : From st.py z P := from_other hq (hqe z hzx) hz
  exact denotes_kept w (fun l _ => congrFun hq l) hqe (r z P hold) (ha z P hzx hold)

theorem right_copy {first : Obj → Bool} {st : St} {x y : Nat} {ks : List Key} (w : Wf st.py) (r : Right first st)
    (hg : Gentle st.py (.copy x y ks)) : Right first (st.step (.copy x y ks)) := by
  cases hv : st.py.value y ks with
  | none =>
    have : st.step (.copy x y ks) = st := by simp only [St.step, Py.step, hv]
    rw [this]; exact r
  | some o =>
    by_cases hsame : st.py.env x = some o
    · have : st.step (.copy x y ks) = st := by
        have he : upd st.py.env x (some o) = st.py.env := by
          funext z
          simp only [upd]
          split
          · rename_i hz; rw [hz, hsame]
          · rfl
        simp only [St.step, Py.step, hv, he, rename, hsame, ne_eq, not_true_eq_false, false_and, if_false]
      rw [this]; exact r
    · obtain ⟨ha, hyx⟩ : Alone st.py x ∧ y ≠ x := by
        rcases hg with hg | hg
        · exact absurd (hg ▸ hv) hsame
        · exact hg
      have hq : (st.step (.copy x y ks)).py.tab = st.py.tab := by simp only [St.step, Py.step, hv]
      have hqx : (st.step (.copy x y ks)).py.env x = some o := by simp [St.step, Py.step, hv, upd]
      have hqe : ∀ z, z ≠ x → (st.step (.copy x y ks)).py.env z = st.py.env z := fun z hz => by simp [St.step, Py.step, hv, upd, hz]
      have hnm : (st.step (.copy x y ks)).name = rename st.name x (st.py.env x) o := by simp only [St.step, hv]
      intro z P hz
      rw [hnm]
      generalize (st.step (.copy x y ks)).py = q at *
      obtain ⟨z', hz', hold⟩ : ∃ z', z' ≠ x ∧ From st.py z' P := by
        by_cases hzx : z = x
        · subst hzx
          exact ⟨y, hyx, from_value hq hqx (value_from hv) hz⟩
        · exact ⟨z, hzx, from_other hq (hqe z hzx) hz⟩
      have hkeep : denotes q (path st.name first P.lit P.pos) = some (.obj P) :=
        denotes_kept w (fun l _ => congrFun hq l) hqe (r z' P hold) (ha z' P hz' hold)
      unfold rename
      cases hx : st.py.env x with
      | none => exact hkeep
      | some old =>
        dsimp only
        by_cases hc : old ≠ o ∧ st.name old = some x
        · rw [if_pos hc]
          rcases path_rename st.name first o x P.lit P.pos with h1 | ⟨s, h1, h2⟩
          · rw [h1]; exact hkeep
          · rw [h1]
            have hO := r y o (value_from hv)
            have hP := r z' P hold
            rw [h2, denotes_append s hO] at hP
            simp only [denotes, hqx]
            refine go_old w (fun l _ => congrFun hq l) hP ?_
            rintro o1 h3
            cases h3; exact w.from (value_from hv)
        · rw [if_neg hc]; exact hkeep

theorem right_display {first : Obj → Bool} {st : St} {x : Nat} {items : List (Pos × Src)} (w : Wf st.py) (nm : Named st) (r : Right first st)
    (hg : Gentle st.py (.display x items)) (hint : ∀ p s, (p, s) ∈ items → ∀ k ∈ p, ∃ n, k = Key.int n) :
    Right first (st.step (.display x items)) := by
  cases hi : st.py.items items with
  | none =>
    have : st.step (.display x items) = st := by simp only [St.step, Py.step, hi]
    rw [this]; exact r
  | some t =>
    obtain ⟨ha, href⟩ := hg
    have htab : ∀ l, l < st.py.next → (st.step (.display x items)).py.tab l = st.py.tab l := fun l hl => by
      have : (st.step (.display x items)).py = st.py.step (.display x items) := by simp only [St.step, hi]
      rw [this]; exact tab_step hl
    have hpy : (st.step (.display x items)).py = ⟨upd st.py.tab st.py.next t, st.py.next + 1, upd st.py.env x (some ⟨st.py.next, []⟩)⟩ := by
      simp only [St.step, Py.step, hi]
    have hname : (st.step (.display x items)).name = fun b => if b = ⟨st.py.next, []⟩ then some x else st.name b := by simp only [St.step, hi]
    generalize hst : st.step (.display x items) = st' at *
    have hnew : st'.py.tab st.py.next = t := by rw [hpy]; simp [upd]
    have henvx : st'.py.env x = some ⟨st.py.next, []⟩ := by rw [hpy]; simp [upd]
    have henv : ∀ z, z ≠ x → st'.py.env z = st.py.env z := fun z hz => by rw [hpy]; simp [upd, hz]
    have hold : ∀ z P, z ≠ x → From st.py z P → denotes st'.py (path st'.name first P.lit P.pos) = some (.obj P) := by
      intro z P hz hP
      have hlt := w.from hP
      have hpath : path st'.name first P.lit P.pos = path st.name first P.lit P.pos := by
        apply path_congr
        intro p
        rw [hname]
        have : (⟨P.lit, p⟩ : Obj) ≠ ⟨st.py.next, []⟩ := by
          intro h; rw [Obj.mk.injEq] at h; omega
        simp only [if_neg this]
      rw [hpath]
      exact denotes_kept w htab henv (r z P hP) (ha z P hz hP)
    have hfresh : ∀ k p, st'.name ⟨st.py.next, k :: p⟩ = none := by
      intro k p
      rw [hname]
      have hne : (⟨st.py.next, k :: p⟩ : Obj) ≠ ⟨st.py.next, []⟩ := by intro h; rw [Obj.mk.injEq] at h; simp at h
      simp only [if_neg hne]
      cases hn : st.name ⟨st.py.next, k :: p⟩ with
      | none => rfl
      | some y => exact absurd (nm _ _ hn) (Nat.lt_irrefl _)
    have main : ∀ z P, From st'.py z P → denotes st'.py (path st'.name first P.lit P.pos) = some (.obj P) ∧
        (P.lit = st.py.next ∨ ∃ z', z' ≠ x ∧ From st.py z' P) := by
      intro z P hz
      induction hz with
      | @var o h1 =>
        by_cases hzx : z = x
        · subst hzx
          rw [henvx] at h1
          cases h1
          refine ⟨?_, Or.inl rfl⟩
          have : path st'.name first st.py.next [] = [.name z] := by simp only [path, hname, if_true]
          show denotes st'.py (path st'.name first st.py.next []) = _
          rw [this]
          simp only [denotes, henvx, go]
        · rw [henv z hzx] at h1
          exact ⟨hold z o hzx (.var h1), Or.inr ⟨z, hzx, .var h1⟩⟩
      | @part o o' k _ hp ih =>
        obtain ⟨ihd, ih⟩ := ih
        rcases ih with hl | ⟨z', hz', hP⟩
        · unfold Py.part Py.item at hp
          rw [hl, hnew] at hp
          cases hget : Assoc.get t (k :: o.pos) with
          | none => rw [hget] at hp; cases hp
          | some i =>
            rw [hget] at hp
            have hmem := Assoc.mem_of_get hget
            cases i with
            | plain => cases hp
            | sub =>
              cases hp
              refine ⟨?_, Or.inl hl⟩
              obtain ⟨s, hs⟩ := items_pos hi hmem
              obtain ⟨n, rfl⟩ := hint _ _ hs k List.mem_cons_self
              have hpth : path st'.name first o.lit (.int n :: o.pos) = path st'.name first o.lit o.pos ++ [.lbr, .num n, .rbr] := by
                simp only [path, hl, hfresh, keyTok]
              show denotes st'.py (path st'.name first o.lit (.int n :: o.pos)) = _
              rw [hpth, denotes_append _ ihd]
              have hth : thing st'.py o (.int n) = some (.obj ⟨o.lit, .int n :: o.pos⟩) := by
                simp only [thing, Py.item, hl, hnew, hget]
              simp only [go, hth]
            | ref o1 =>
              cases hp
              obtain ⟨y, ks, hin, hval⟩ := items_ref hi hmem
              have hyx := href _ _ _ hin
              exact ⟨hold y o' hyx (value_from hval), Or.inr ⟨y, hyx, value_from hval⟩⟩
        · have hp' : st.py.part o k = some o' := by rwa [part_old (htab _ (w.from hP))] at hp
          exact ⟨hold z' o' hz' (.part hP hp'), Or.inr ⟨z', hz', .part hP hp'⟩⟩
    exact fun z P hz => (main z P hz).1

theorem named_step {st : St} (w : Wf st.py) (nm : Named st) (e : Ev) : Named (st.step e) := by
  intro o x ho
  cases e with
  | display y items =>
    cases hi : st.py.items items with
    | none =>
      have : st.step (.display y items) = st := by simp only [St.step, Py.step, hi]
      rw [this] at ho ⊢; exact nm o x ho
    | some t =>
      simp only [St.step, Py.step, hi] at ho ⊢
      split at ho
      · rename_i h1; subst h1; exact Nat.lt_succ_self _
      · exact Nat.lt_succ_of_lt (nm o x ho)
  | copy y z ks =>
    cases hv : st.py.value z ks with
    | none =>
      have : st.step (.copy y z ks) = st := by simp only [St.step, Py.step, hv]
      rw [this] at ho ⊢; exact nm o x ho
    | some o1 =>
      simp only [St.step, Py.step, hv] at ho ⊢
      unfold rename at ho
      cases hx : st.py.env y with
      | none => rw [hx] at ho; exact nm o x ho
      | some old =>
        rw [hx] at ho
        dsimp only at ho
        split at ho
        · dsimp only at ho
          split at ho
          · rename_i h1; subst h1; exact w.from (value_from hv)
          · exact nm o x ho
        · exact nm o x ho
  | del y => exact nm o x ho

theorem ints_run {h : List Ev} (hi : Lists h) : Ints (pyRun h) := by
  induction h with
  | nil => intro l p i hl; cases hl
  | cons e h ih =>
    intro l p i hl
    cases e with
    | display x items =>
      obtain ⟨hi1, hi2⟩ := hi
      cases ht : (pyRun h).items items with
      | none =>
        simp only [pyRun, Py.step, ht] at hl
        exact ih hi1 l p i hl
      | some t =>
        simp only [pyRun, Py.step, ht, upd] at hl
        split at hl
        · obtain ⟨s, hs⟩ := items_pos ht (Assoc.mem_of_get hl)
          exact hi2 _ _ hs
        · exact ih hi1 l p i hl
    | copy x y ks =>
      cases hv : (pyRun h).value y ks <;> simp only [pyRun, Py.step, hv] at hl <;> exact ih hi l p i hl
    | del x => exact ih hi l p i hl

theorem wf_run (h : List Ev) : Wf (pyRun h) := by
  induction h with
  | nil => exact ⟨fun _ _ h => (by cases h), fun _ _ _ h => (by cases h)⟩
  | cons e h ih => exact ih.step e

theorem named_run (h : List Ev) : Named (run h) := by
  induction h with
  | nil => intro o x ho; cases ho
  | cons e h ih => exact named_step (run_py h ▸ wf_run h) ih e

theorem right_run (first : Obj → Bool) {h : List Ev} (hg : AllGentle h) (hi : Lists h) : Right first (run h) := by
  induction h with
  | nil =>
    intro z P hz
    have : ∀ Q, From init.py z Q → False := by
      intro Q hQ
      induction hQ with
      | var h1 => cases h1
      | part _ _ ih => exact ih
    exact (this P hz).elim
  | cons e h ih =>
    obtain ⟨hg1, hg2⟩ := hg
    rw [← run_py] at hg2
    have w : Wf (run h).py := run_py h ▸ wf_run h
    cases e with
    | display x items => exact right_display w (named_run h) (ih hg1 hi.1) hg2 hi.2
    | copy x y ks => exact right_copy w (ih hg1 hi) hg2
    | del x => exact right_del w (ih hg1 hi) hg2

end Verif.Naming
