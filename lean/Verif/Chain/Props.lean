import Verif.Chain.Lemmas
import Verif.Rval.Model

/-!
# C115: parts of objects that are read are recorded as what they are
-/

namespace Verif.Chain

set_option linter.unusedSectionVars false

variable {O : Type} [DecidableEq O] {w : World O} {s : St O} {e : Exp} {n : Nat} {v : O}

/-- After an expression has been evaluated every part that was read is recorded, as the object that was read. `Fine`, `Safe`: no part is
read of `None` or the shell, indices are of supported types, and if an index is made of parts the indexed object is not. The claim is without
these conditions; see `index_confused`, `none_confused` and `slice_unloaded`. -/
theorem recorded_partial (hw : Seq w) (hsafe : Safe e) (hfine : Fine w e) (hc : Compound e) (hs : Wf s)
    (hb : ∀ o, s.made o = false → s.base o = none) (hcl : Clean s) (hv : Val w e v) :
    ∀ o k u, Reads w e o k u → Recorded w (eval w n e s).2 o k u := by
  obtain ⟨s', he, _, _, h, _⟩ := eval_fine (n := n) hw hsafe hfine hc hs hb hcl hv
  rw [he]
  exact h

/-- The part the value of an expression is, is among those the expression is said to have read. -/
theorem last_loaded_partial (hw : Seq w) (hsafe : Safe e) (hfine : Fine w e) (hc : Compound e) (hs : Wf s)
    (hb : ∀ o, s.made o = false → s.base o = none) (hcl : Clean s) (hv : Val w e v) {o : O} {k : Key} (h : Last w e o k) :
    ∃ a, Part w (eval w n e s).2 o k a ∧ (eval w n e s).2.obj a = v ∧ a ∈ (eval w n e s).2.loaded n := by
  obtain ⟨s', he, hst, _, h1, h2⟩ := eval_fine (n := n) hw hsafe hfine hc hs hb hcl hv
  rw [he]
  obtain ⟨a, ha, hl⟩ := h2 o k h
  have hr : Reads w e o k v := by
    cases h with
    | part h =>
      cases hv with
      | part h' hg => cases h.det h'; exact .part h hg
    | item h g =>
      cases hv with
      | item h' g' hg => cases h.det h'; cases g.det g'; exact .item h g hg
  obtain ⟨b, hb1, hb2⟩ := h1 o k v hr
  have : a = b := by
    have e1 := look_iff.2 ha
    have e2 := look_iff.2 hb1
    rw [e1] at e2
    exact Option.some.inj e2
  subst this
  exact ⟨a, ha, hb2, hl⟩

/-- Nothing else is said to have been read than parts that were, or the same attributes of classes, variables that occur, and
objects that have no name yet. -/
theorem loaded_only_partial (hw : Seq w) (hsafe : Safe e) (hfine : Fine w e) (hc : Compound e) (hs : Wf s)
    (hb : ∀ o, s.made o = false → s.base o = none) (hcl : Clean s) (hv : Val w e v) {m a : Nat}
    (h : a ∈ (eval w n e s).2.loaded m) : a ∈ s.loaded m ∨
      (∃ o k, Asks w e o k ∧ (Part w (eval w n e s).2 o k a ∨ OfClass (eval w n e s).2 o k a)) ∨
      (∃ x, Occurs x e ∧ (s.vars x = some a ∨ s.outer x = some a)) ∨ s.next ≤ a := by
  obtain ⟨s', he, hst, _⟩ := eval_fine (n := n) hw hsafe hfine hc hs hb hcl hv
  rw [he] at h ⊢
  exact hst.loaded m a h

/-- Reading does not change which object a symbol stands for, except that of a part that is read; it forgets nothing, and records no
other parts. -/
theorem others_kept_partial (hw : Seq w) (hsafe : Safe e) (hfine : Fine w e) (hc : Compound e) (hs : Wf s)
    (hb : ∀ o, s.made o = false → s.base o = none) (hcl : Clean s) (hv : Val w e v) :
    (∀ a, a < s.next → (∀ o k u, Reads w e o k u → ¬ Part w (eval w n e s).2 o k a) → (eval w n e s).2.obj a = s.obj a) ∧
    (∀ o k a, Part w s o k a → Part w (eval w n e s).2 o k a) ∧
    (∀ o k a, (eval w n e s).2.tab o k = some a → s.tab o k = some a ∨ ∃ u, Reads w e o k u) := by
  obtain ⟨s', he, hst, _⟩ := eval_fine (n := n) hw hsafe hfine hc hs hb hcl hv
  rw [he]
  refine ⟨?_, hst.part, hst.new⟩
  intro a ha h
  rcases hst.obj hs a ha with g | ⟨o, k, u, h1, h2, _⟩
  · exact g
  · exact absurd h2 (h _ _ _ h1)

/-- The symbols of variables still stand for the same objects. -/
theorem variables_kept_partial (hw : Seq w) (hsafe : Safe e) (hfine : Fine w e) (hc : Compound e) (hs : Wf s)
    (hb : ∀ o, s.made o = false → s.base o = none) (hcl : Clean s) (hv : Val w e v) {x : String} {a : Nat}
    (h : s.vars x = some a) : (eval w n e s).2.vars x = some a ∧ (eval w n e s).2.obj a = s.obj a := by
  obtain ⟨s', he, hst, _⟩ := eval_fine (n := n) hw hsafe hfine hc hs hb hcl hv
  rw [he]
  have h' : s'.vars x = some a := by rw [hst.vars]; exact h
  refine ⟨h', ?_⟩
  rcases hst.obj hs a (hs.vars x a h).1 with g | ⟨o, k, u, _, h2, _⟩
  · exact g
  · obtain ⟨k', ht⟩ := h2.tab
    exact absurd ht (((hst.wf hs).vars x a h').2 _ _)

/-- An expression that is evaluated to the end leaves nothing behind that concerns the next one. -/
theorem clean_after {s' : St O} (hc : Compound e) (h : eval w n e s = (some v, s')) : Clean s' := by
  unfold eval at h
  split at h
  · rename_i u s1 hr
    rw [close_compound hc] at h
    cases h
    exact finish_clean
  · cases h

/-- Evaluating has the value it has in Python. -/
theorem value {s' : St O} (h : eval w n e s = (some v, s')) : Val w e v := by
  unfold eval at h
  split at h
  · rename_i u s1 hr
    cases h
    exact run_val hr
  · cases h

/-- The target of an assignment or deletion is the part of the object that Python evaluates the target to. -/
theorem target_right_partial (hw : Seq w) (hsafe : Safe e) (hfine : Fine w e) (hs : Wf s)
    (hb : ∀ o, s.made o = false → s.base o = none) (hcl : Clean s) {o : O} {k : Key} (hv : Val w e o)
    (ho : w.skip o = false) (hk : Plain k) :
    (target w .store n e k s).stores n = some (o, k) ∧ (target w .del n e k s).dels n = some (o, k) := by
  obtain ⟨s1, hrun, m⟩ := run_fine hw (n := n) hsafe hfine hs hb hcl.saved hcl.active hv
  unfold target
  rw [hrun]
  simp only [link_eq ho, rest, save, if_pos (supported_iff.2 hk)]
  exact ⟨put_self _ _ _, put_self _ _ _⟩

/-- Nothing is kept of the target of an assignment to a slice or to an element with an index of another unsupported type. -/
theorem slice_store_lost {x : String} {o : O} {k : Key} (hv : w.val x = some o) (hk : ¬ Plain k) :
    (target w .store n (.var x) k s).stores = s.stores := by
  unfold target
  simp only [run, hv]
  cases ho : w.skip o with
  | true => rw [link_skip ho]
  | false =>
    have hns : ¬ supported k = true := fun h => hk (supported_iff.1 h)
    simp only [link_eq ho, rest, save, if_neg hns]
    rw [note_fields.2.2.2.2.2.2.2.2.2.1, recordUse_fields.2.2.2.2.2.2.2.2.2.1, mkNs_fields.2.2.2.2.2.2.2.1]
    exact settle_fields.2.2.2.2.2.2.2.2.1

/-- An index made of parts, in a part: after `x.a[y.b]` attribute `a` of `x` is recorded to be the object `y`. -/
theorem index_confused {m : Nat} {x y a b : String} {ox oy oa j : O} (hs : Wf s) (hb : ∀ o, s.made o = false → s.base o = none)
    (hcl : Clean s) (hx : w.val x = some ox) (hy : w.val y = some oy) (ha : w.get ox (.attr a) = some oa)
    (hj : w.get oy (.attr b) = some j) (hv : w.get oa (.sub (w.idx j)) = some v) (hkx : w.skip ox = false) (hky : w.skip oy = false)
    (hne : ¬ (oy = ox ∧ b = a)) (hoa : oy ≠ oa) :
    Reads w (.item (.part (.var x) (.attr a)) m (.part (.var y) (.attr b))) ox (.attr a) oa ∧
    Recorded w (eval w n (.item (.part (.var x) (.attr a)) m (.part (.var y) (.attr b))) s).2 ox (.attr a) oy ∧
    ¬ Recorded w (eval w n (.item (.part (.var x) (.attr a)) m (.part (.var y) (.attr b))) s).2 ox (.attr a) oa := by
  have key : Recorded w (eval w n (.item (.part (.var x) (.attr a)) m (.part (.var y) (.attr b))) s).2 ox (.attr a) oy := by
    obtain ⟨g1, _, g3, _, _, _⟩ := link_any (w := w) (ev := .load) (n := n) (name := some x) (k := .attr a) hs hb
      (by intro o k h; rw [hcl.saved] at h; cases h) hkx
    obtain ⟨s2, he, hst, hcl2, hr⟩ := stale (w := w) (m := m) (g1.wf hs) (g1.nobase hb) (g3 (.attr a) rfl) hy hj hky hne
    have hst12 := hst.wf (g1.wf hs)
    have hnb := hst.nobase (g1.nobase hb)
    have hev : eval w n (.item (.part (.var x) (.attr a)) m (.part (.var y) (.attr b))) s =
        (some v, finish w v (link w .load n none oa (.sub (w.idx j)) s2)) := by
      have he' : eval w m (.part (.var y) (.attr b)) (link w .load n (some x) ox (.attr a) s) = (some j, s2) := he
      simp only [eval, run, hy, nameOf, hj, close, Prod.mk.injEq, true_and] at he'
      simp only [eval, run, hx, ha, nameOf, hy, hj, close, he', hv]
    rw [hev]
    have hsv2 : ∀ o k, s2.saved = some (o, k) → Plain k := by
      intro o k h; rw [hcl2.saved] at h; cases h
    cases hka : w.skip oa with
    | true =>
      rw [link_skip hka, finish_none hcl2.saved]
      obtain ⟨c, h1, h2⟩ := hr
      exact ⟨c, h1.of_eq rfl, h2⟩
    | false =>
      obtain ⟨q1, _, q3, _, q5, q6⟩ := link_any (w := w) (ev := .load) (n := n) (name := none) (k := .sub (w.idx j)) hst12 hnb hsv2 hka
      have hr2 : Recorded w (link w .load n none oa (.sub (w.idx j)) s2) ox (.attr a) oy := by
        refine hr.keep hst12 q1 ?_
        rintro o k u ⟨h, _⟩
        rw [hcl2.saved] at h; cases h
      by_cases hp : Plain (.sub (w.idx j))
      · have hsv3 := q3 hp rfl
        obtain ⟨f1, _⟩ := finish_any (w := w) (v := v) (q1.nobase hnb)
          (by intro o k h; rw [hsv3] at h; cases h; exact hp) q5 ⟨_, q6⟩
        refine hr2.keep (q1.wf hst12) f1 ?_
        rintro o k u ⟨h, _⟩ ⟨_, h2⟩
        rw [hsv3] at h
        cases h
        cases h2
      · have hsv3 : (link w .load n none oa (.sub (w.idx j)) s2).saved = none := by
          rw [link_eq hka, settle_none hcl2.saved]
          have hns : ¬ supported (.sub (w.idx j)) = true := fun h => hp (supported_iff.1 h)
          simp only [rest, save, if_neg hns]
          rw [note_fields.2.2.2.2.2.2.2.2.1, recordUse_fields.2.2.2.2.2.2.2.2.1, mkNs_fields.2.2.2.2.2.2.1]
          exact hcl2.saved
        rw [finish_none hsv3]
        obtain ⟨c, h1, h2⟩ := hr2
        exact ⟨c, h1.of_eq rfl, h2⟩
  refine ⟨.itemObj (.part (.var hx) ha), key, ?_⟩
  rintro ⟨c, h1, h2⟩
  obtain ⟨d, h3, h4⟩ := key
  have e1 := h1.attr_here
  rw [h3.attr_here] at e1
  cases e1
  exact hoa (h4.symm.trans h2)

/-- An attribute that does not exist: if evaluating `x.a` raises an exception and then, before the end of a statement (as in
`try: x.a` / `except AttributeError: y.b`), `y.b` is evaluated, attribute `a` of `x` is recorded to be the object `y`. -/
theorem missing_recorded {m : Nat} {x y a b : String} {ox oy j : O} (hs : Wf s) (hb : ∀ o, s.made o = false → s.base o = none)
    (hcl : Clean s) (hx : w.val x = some ox) (hy : w.val y = some oy) (ha : w.get ox (.attr a) = none)
    (hj : w.get oy (.attr b) = some j) (hkx : w.skip ox = false) (hky : w.skip oy = false) :
    (eval w n (.part (.var x) (.attr a)) s).1 = none ∧
    Recorded w (eval w m (.part (.var y) (.attr b)) (eval w n (.part (.var x) (.attr a)) s).2).2 ox (.attr a) oy := by
  have e1 : eval w n (.part (.var x) (.attr a)) s = (none, link w .load n (some x) ox (.attr a) s) := by
    simp only [eval, run, hx, ha, nameOf]
  rw [e1]
  refine ⟨rfl, ?_⟩
  obtain ⟨g1, _, g3, _, _, _⟩ := link_any (w := w) (ev := .load) (n := n) (name := some x) (k := .attr a) hs hb
    (by intro o k h; rw [hcl.saved] at h; cases h) hkx
  obtain ⟨s2, he, _, _, hr⟩ := stale (w := w) (m := m) (g1.wf hs) (g1.nobase hb) (g3 (.attr a) rfl) hy hj hky
    (by rintro ⟨rfl, rfl⟩; rw [ha] at hj; cases hj)
  rw [he]
  exact hr

/-- Part `a` of `x` is `None` (or the shell): after `x.a.b` it is recorded to be what `None.b` is. -/
theorem none_confused {x : String} {ox o : O} {k k' : Key} (hs : Wf s) (hb : ∀ o, s.made o = false → s.base o = none)
    (hcl : Clean s) (hx : w.val x = some ox) (ho : w.get ox k = some o) (hv : w.get o k' = some v) (hk : Plain k)
    (hkx : w.skip ox = false) (hko : w.skip o = true) :
    Reads w (.part (.part (.var x) k) k') ox k o ∧
    Recorded w (eval w n (.part (.part (.var x) k) k') s).2 ox k v := by
  refine ⟨.partIn (.part (.var hx) ho), ?_⟩
  have hev : eval w n (.part (.part (.var x) k) k') s = (some v, finish w v (link w .load n (some x) ox k s)) := by
    simp only [eval, run, hx, ho, hv, nameOf, close, link_skip hko]
  rw [hev]
  obtain ⟨g1, _, g3, _, g5, g6⟩ := link_any (w := w) (ev := .load) (n := n) (name := some x) (k := k) hs hb
    (by intro o k h; rw [hcl.saved] at h; cases h) hkx
  obtain ⟨_, _, f3⟩ := finish_any (w := w) (v := v) (g1.nobase hb)
    (by intro o k h; rw [g3 hk rfl] at h; cases h; exact hk) g5 ⟨_, g6⟩
  obtain ⟨a, h1, h2, _⟩ := f3 _ _ (g3 hk rfl)
  exact ⟨a, h1, h2⟩

/-- Slices and other unsupported indices: nothing is said to have been read, and no use is recorded. -/
theorem slice_unloaded {x : String} {ox : O} {k : Key} (hs : Wf s) (hcl : Clean s) (hx : w.val x = some ox)
    (hv : w.get ox k = some v) (hk : ¬ Plain k) :
    (eval w n (.part (.var x) k) s).2.loaded = s.loaded ∧ (eval w n (.part (.var x) k) s).2.pend = s.pend ∧
    (eval w n (.part (.var x) k) s).2.tab = s.tab := by
  have hev : eval w n (.part (.var x) k) s = (some v, finish w v (link w .load n (some x) ox k s)) := by
    simp only [eval, run, hx, hv, nameOf, close]
  rw [hev]
  cases hko : w.skip ox with
  | true =>
    rw [link_skip hko, finish_none hcl.saved]
    exact ⟨rfl, rfl, rfl⟩
  | false =>
    have hns : ¬ supported k = true := fun h => hk (supported_iff.1 h)
    obtain ⟨m1, m2, m3, m4, m5, m6, m7, m8, m9, m10, m11, m12⟩ := mkNs_fields (w := w) (s := s) (o := ox)
    have hs' : Wf (mkNs w ox s) := (mkNs_step (T := fun _ _ _ => True) (U := fun _ _ => True) (V := fun _ => True)).wf hs
    rw [link_start hcl hko, rest_unknown (partSym_none (lookAll_odd hs' hk))]
    simp only [save, if_neg hns]
    rw [finish_none (by show (mkNs w ox s).saved = none; rw [m7]; exact hcl.saved)]
    exact ⟨m12, m10, m1⟩

/-- A method of a slice: all that is said to have been read is an object that had no symbol before, not the variable the slice
is taken of. -/
theorem slice_call_detached {x : String} {ox o f : O} {k k' : Key} (hs : Wf s) (hcl : Clean s) (hx : w.val x = some ox)
    (ho : w.get ox k = some o) (hf : w.get o k' = some f) (hv : w.ret o k' = some v) (hk : ¬ Plain k) (hk' : Plain k')
    (hkx : w.skip ox = false) (hko : w.skip o = false) :
    (eval w n (.call (.part (.var x) k) k') s).2.loaded n = s.loaded n ++ [s.next] ∧
    (eval w n (.call (.part (.var x) k) k') s).2.pend = s.pend := by
  have hev : eval w n (.call (.part (.var x) k) k') s =
      (some v, finish w v (beforeCall (link w .call n none o k' (link w .load n (some x) ox k s)))) := by
    simp only [eval, run, hx, ho, hf, hv, nameOf, close]
  rw [hev, finish_none rfl]
  have hns : ¬ supported k = true := fun h => hk (supported_iff.1 h)
  obtain ⟨m1, m2, m3, m4, m5, m6, m7, m8, m9, m10, m11, m12⟩ := mkNs_fields (w := w) (s := s) (o := ox)
  have hs' : Wf (mkNs w ox s) := (mkNs_step (T := fun _ _ _ => True) (U := fun _ _ => True) (V := fun _ => True)).wf hs
  rw [link_start hcl hkx, rest_unknown (partSym_none (lookAll_odd hs' hk))]
  simp only [save, if_neg hns]
  generalize hs1 : ({ mkNs w ox s with
      top := some ((mkNs w ox s).top.getD n)
      first := some ((mkNs w ox s).first.getD ox)
      active := some ox } : St O) = s1
  have hsv : s1.saved = none := by rw [← hs1]; exact m7.trans hcl.saved
  have hl : s1.loaded = s.loaded := by rw [← hs1]; exact m12
  have hn : s1.next = s.next := by rw [← hs1]; exact m4
  have hpd : s1.pend = s.pend := by rw [← hs1]; exact m10
  have htop : s1.top = some n := by rw [← hs1]; show some _ = _; rw [m5, hcl.top]; rfl
  rw [link_eq hko, settle_none hsv]
  obtain ⟨k1, k2, k3, k4, k5, k6, k7, k8, k9, k10, k11, k12⟩ := mkNs_fields (w := w) (s := s1) (o := o)
  have hsf : symFor w none (none, s1) = none := rfl
  simp only [rest, hsf, partSym, recordUse, note, save, if_pos (supported_iff.2 hk'), callee, calleeSym, load, reset, beforeCall]
  constructor
  · rw [k5, htop]
    simp only [Option.getD_some]
    rw [put_self, k12, k4, hl, hn]
  · rw [k10, hpd]

/-- The first time an attribute is read no use is recorded, neither of the attribute nor of the object. -/
theorem first_read_unused {x a : String} {ox : O} (hcl : Clean s) (hx : w.val x = some ox) (hv : w.get ox (.attr a) = some v)
    (hno : ∀ c, ¬ Part w s ox (.attr a) c) (hown : w.own ox a = true) :
    (eval w n (.part (.var x) (.attr a)) s).2.pend = s.pend := by
  have hev : eval w n (.part (.var x) (.attr a)) s = (some v, finish w v (link w .load n (some x) ox (.attr a) s)) := by
    simp only [eval, run, hx, hv, nameOf, close]
  rw [hev]
  have hfin : ∀ t : St O, (finish w v t).pend = t.pend := by
    intro t
    have hp : (settle w t v).2.pend = t.pend := settle_fields.2.2.2.2.2.2.1
    unfold finish
    split
    · rfl
    · simp only
      split
      · exact hp
      · exact hp
  rw [hfin]
  cases hko : w.skip ox with
  | true => rw [link_skip hko]
  | false =>
    obtain ⟨m1, m2, m3, m4, m5, m6, m7, m8, m9, m10, m11, m12⟩ := mkNs_fields (w := w) (s := s) (o := ox)
    have hl : lookAll w (mkNs w ox s) ox (.attr a) = none := by
      have h1 : look w (mkNs w ox s) ox (.attr a) = none :=
        look_none.2 fun c hc => hno c (hc.of_eq m1.symm)
      simp [lookAll, h1, classLook, hown]
    rw [link_start hcl hko, rest_unknown (partSym_none hl)]
    simp only [save, supported, if_true]
    exact m10

/-- In a function, reading an attribute of a variable of an enclosing scope is not recorded as a use either, even if the
attribute is known. -/
theorem enclosing_unused {x : String} {ox : O} {k : Key} (hcl : Clean s) (hx : w.val x = some ox) (hv : w.get ox k = some v)
    (hno : s.vars x = none) : (eval w n (.part (.var x) k) s).2.pend = s.pend := by
  have hev : eval w n (.part (.var x) k) s = (some v, finish w v (link w .load n (some x) ox k s)) := by
    simp only [eval, run, hx, hv, nameOf, close]
  rw [hev]
  have hfin : ∀ t : St O, (finish w v t).pend = t.pend := by
    intro t
    have hp : (settle w t v).2.pend = t.pend := settle_fields.2.2.2.2.2.2.1
    unfold finish
    split
    · rfl
    · simp only
      split
      · exact hp
      · exact hp
  rw [hfin]
  cases hko : w.skip ox with
  | true => rw [link_skip hko]
  | false =>
    obtain ⟨m1, m2, m3, m4, m5, m6, m7, m8, m9, m10, m11, m12⟩ := mkNs_fields (w := w) (s := s) (o := ox)
    have hps : partSym w (mkNs w ox s) (symFor w (some x) (none, s)) ox k = none := by
      rw [symFor_start hcl, hno]; rfl
    rw [link_start hcl hko, rest_unknown hps]
    simp only [save]
    split
    · exact m10
    · exact m10

/-- A known part of a variable's object is recorded as used and as read. -/
theorem known_used {x : String} {ox : O} {k : Key} {c a : Nat} (hcl : Clean s) (hx : w.val x = some ox)
    (hv : w.get ox k = some v) (hkx : w.skip ox = false) (hvar : s.vars x = some c)
    (hc : s.obj c = ox) (ha : Part w s ox k a) :
    ((eval w n (.part (.var x) k) s).2.pend a).isSome = true ∧ a ∈ (eval w n (.part (.var x) k) s).2.loaded n := by
  have hev : eval w n (.part (.var x) k) s = (some v, finish w v (link w .load n (some x) ox k s)) := by
    simp only [eval, run, hx, hv, nameOf, close]
  rw [hev]
  obtain ⟨m1, m2, m3, m4, m5, m6, m7, m8, m9, m10, m11, m12⟩ := mkNs_fields (w := w) (s := s) (o := ox)
  have hfin : ∀ t : St O, (finish w v t).pend = t.pend ∧ ∀ m b, b ∈ t.loaded m → b ∈ (finish w v t).loaded m := by
    intro t
    have hp : (settle w t v).2.pend = t.pend := settle_fields.2.2.2.2.2.2.1
    have hl : (settle w t v).2.loaded = t.loaded := settle_fields.2.2.2.2.2.2.2.1
    unfold finish
    split
    · exact ⟨rfl, fun _ _ h => h⟩
    · simp only
      split
      · rename_i d m hd hm
        refine ⟨hp, ?_⟩
        intro m' b hbm
        show b ∈ (put (settle w t v).2.loaded m ((settle w t v).2.loaded m ++ [d])) m'
        by_cases hmm : m' = m
        · subst hmm
          rw [put_self, hl]
          exact List.mem_append_left _ hbm
        · rw [put_ne hmm, hl]
          exact hbm
      · exact ⟨hp, fun m b h => by show b ∈ (settle w t v).2.loaded m; rw [hl]; exact h⟩
  have hlook : lookAll w (mkNs w ox s) ox k = some a := by
    have h1 : look w (mkNs w ox s) ox k = some a := look_iff.2 (ha.of_eq m1)
    simp [lookAll, h1]
  have hps : partSym w (mkNs w ox s) (symFor w (some x) (none, s)) ox k = some a := by
    rw [symFor_start hcl, hvar]
    unfold partSym
    simp only [m11, hc, if_true, hlook]
  have hsave : ∀ t : St O, (save .load n (some x) ox k (symFor w (some x) (none, s)) t).pend = t.pend ∧
      (save .load n (some x) ox k (symFor w (some x) (none, s)) t).loaded = t.loaded := by
    intro t
    unfold save
    split <;> exact ⟨rfl, rfl⟩
  rw [link_start hcl hkx]
  constructor
  · rw [(hfin _).1]
    show ((save .load n (some x) ox k _ _).pend a).isSome = true
    rw [(hsave _).1, hps, note_fields.2.2.2.2.2.2.2.2.2.2.2, symFor_start hcl, hvar]
    unfold recordUse
    simp only [m11, hc, if_true, usage, isLoad]
    split
    · assumption
    · rw [put_self]; rfl
  · refine (hfin _).2 _ _ ?_
    show a ∈ (save .load n (some x) ox k _ _).loaded n
    rw [(hsave _).2, hps]
    have htop : (recordUse .load (symFor w (some x) (none, s)) (some a) ox (mkNs w ox s)).top = none := by
      rw [recordUse_fields.2.2.2.2.2.2.1, m5]; exact hcl.top
    unfold note load
    simp only [htop, Option.getD_none]
    rw [put_self]
    simp

/-- After `y = x[…] + z` with a slice, `y` is recorded to depend on `z` only: `E` is what the resolution of dependencies (`Rval`) finds,
`n` is the node of `x[…]`, which has no constant index. -/
theorem slice_dependency_lost {x z : String} {ox : O} {k : Key} {m : Nat} (hs : Wf s) (hcl : Clean s) (hx : w.val x = some ox)
    (hv : w.get ox k = some v) (hk : ¬ Plain k) (hl : s.loaded n = []) {E : Rval.Env String Nat Nat}
    (hE : E.loaded = (eval w n (.part (.var x) k) s).2.loaded) (hconst : E.const n = false) {c : Nat} (hz : E.look z = some c)
    (static : List Nat) : Rval.deps E true static (.op m (.pair (.sub n (.name x) .done) (.name z))) = [c] := by
  have h0 : E.loaded n = [] := by rw [hE, (slice_unloaded hs hcl hx hv hk).1]; exact hl
  simp [Rval.deps, Rval.init, Rval.visit, Rval.add, Rval.isCall, h0, hconst, hz, Rval.quietSt]

end Verif.Chain
