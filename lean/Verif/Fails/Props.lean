import Verif.Fails.Lemmas

/-!
# C120: Only reads that would fail are left out

`live w allow e` are the symbols that count as read by a cell with the access `e`; `ready w allow ctr e` says whether this access makes the cell ready. -/

namespace Verif.Fails

open Ref (Const Index Exp Val Atom)
open Spec (way key value Before Next Known Current Kept Dropped)

/-- Variable 0 is an object with the attribute 3, a dict with the key `'4'`, a list of two numbers: `x.data['k'][1]` is `10`. -/
def num : Obj := .inst [] [] []

/-- The list. -/
def pair : Obj := .seq [num, num]

/-- The dict. -/
def table : Obj := .dict false [(.one (.str 4), pair)]

/-- The object: its class has the method 5. -/
def thing : Obj := .inst [(5, some num)] [(3, table)] []

/-- `x.data['k'][1]` -/
def access (z : Int) : Exp := .sub (.sub (.attr (.name 0) 3) (.const (.str 4))) (.const (.int z))

/-- Symbols for all of it, and for the list `x.data['k'][0]`, but not for what there is not. Variable 0 was assigned in the seventh execution. -/
def seen : World where
  sym q := if q = [.one (.str 0)] then some thing else if q = [.one (.str 0), .one (.str 3)] then some table
    else if q = [.one (.str 0), .one (.str 3), .one (.str 4)] then some pair
    else if q = [.one (.str 0), .one (.str 3), .one (.str 4), .one (.int 1)] then some num else none
  mutates _ v := decide (v = .one (.str 5))
  hot _ := false
  reactive := true
  shallow q := if q = [.one (.str 0)] then 7 else 3
  deep _ := 7

/-- When it is run. -/
def env : Spec.Env where
  var x := if x = 0 then some thing else none
  method _ := none
  index _ := none
  result _ := none

/-- Steps that succeed and may be relied on are not taken for failing ones. -/
theorem kept_step {r : Spec.Env} {p e : Exp} {o : Obj} {q : List Val} {lp : List Atom} {n : Atom} (hn : Next p e) (hw : way e = some q)
    (hp : Ref.visit none p = some lp) (he : Ref.visit none e = some (lp ++ [n])) (ho : value r p = some o) (hv : (value r e).isSome) (hk : Kept o e) :
    misses false n.value o = false := by
  obtain ⟨qp, v, lp', n', w1, hq, v1, v2, hnv, _, hlp⟩ := visit_next hn hw
  rw [hp] at v1; injection v1 with v1; subst v1
  rw [he] at v2; injection v2 with v2
  have hnn : n = n' := by simpa using v2
  subst hnn; rw [hnv]; clear he hnv v2
  rcases hn with ⟨a, rfl⟩ | ⟨i, rfl⟩
  · simp only [way, w1, Option.map_some, Option.some.injEq] at hw
    have hva : v = .one (.str a) := by rw [hq] at hw; simpa using hw.symm
    subst hva
    simp only [value, ho, Option.bind_some] at hv
    cases o with
    | seq es => rfl
    | dict b l => exact absurd rfl (hk b l)
    | inst cls attrs items =>
      simp only [Spec.attr] at hv
      simp only [misses, has, isText, Bool.not_false, Bool.true_and, Bool.not_eq_false', Bool.or_eq_true]
      cases ha : Assoc.get attrs a with
      | some _ => exact .inr rfl
      | none =>
        rw [ha] at hv
        cases hc : Assoc.get cls a with
        | some _ => exact .inl rfl
        | none => simp [hc] at hv
  · simp only [way, w1, Option.bind_some, Option.map_eq_some_iff] at hw
    obtain ⟨v', hv', hw⟩ := hw
    have hvv : v' = v := by rw [hq] at hw; simpa using hw
    subst hvv
    have hi : Spec.idx r i = some v' := by
      cases i with
      | const c => exact hv'
      | neg c => cases c <;> first | exact hv' | simp [key] at hv'
      | name x => simp [key] at hv'
      | negName x => simp [key] at hv'
      | tuple cs => exact hv'
      | other => simp [key] at hv'
    simp only [value, ho, Option.bind_some, hi] at hv
    cases o with
    | seq es =>
      cases v' with
      | tup cs => rfl
      | one c =>
        cases c with
        | int z =>
          simp only [Spec.item, Spec.element] at hv
          simp only [misses, beyond, decide_eq_false_iff_not]
          by_cases h0 : 0 ≤ z
          · rw [if_pos h0] at hv
            intro hz
            have : es[z.toNat]? = none := List.getElem?_eq_none_iff.2 (by omega)
            simp [this] at hv
          · omega
        | _ => rfl
    | dict b l =>
      simp only [Kept] at hk; subst hk
      simp only [Spec.item] at hv
      cases hg : Assoc.get l v' with
      | some _ => simp [misses, hg]
      | none => simp [hg] at hv
    | inst cls attrs items =>
      cases v' with
      | tup cs => simp [misses, isText]
      | one c =>
        rcases hk c hv' with ⟨a, rfl, h⟩ | h
        · rcases h with h | h <;> simp [misses, has, isText, Assoc.get_isSome_iff.2 h]
        · cases c with
          | str n => exact absurd rfl (h n 0).1
          | digits z => exact absurd rfl (h 0 z).2
          | int z => simp [misses, isText]
          | num q b => simp [misses, isText]

/-- An access that does not fail has every object on the way count as read, the result of the access, too, as far as there are symbols for them. What is missing: accesses in
which a key is not spelled out or with calls on the way (`matrix_lost`, `record_lost`), attributes of dicts (`method_lost`), keys that a dict makes up (`default_lost`),
text keys of other mappings (`mapping_lost`). -/
theorem kept_partial (w : World) (r : Spec.Env) (allow : Bool) (e p : Exp) (q : List Val) (hw : way e = some q) (hc : Current w r e) (hv : (value r e).isSome)
    (hk : ∀ p e', Next p e' → (e' = e ∨ Before e' e) → ∀ o, value r p = some o → Kept o e') (hp : p = e ∨ Before p e) (hn : Known w p) :
    ∃ f ∈ live w allow e, way p = some f.way := by
  have hchain : ∀ l, Ref.visit none e = some l → Ref.chain none e = l := fun l h => by simp [Ref.chain, h]
  rcases hp with rfl | hb
  · obtain ⟨l, h1, h2, h3⟩ := visit_way hw
    obtain ⟨f, f1, f2, f3, f4, f5⟩ := found_part (l := []) hw h1 hn
    refine ⟨f, ?_, by rw [f2]; exact hw⟩
    rw [List.append_nil] at f1
    refine List.mem_filter.2 ⟨by rw [hchain l h1]; exact f1, ?_⟩
    simp [fails, f4]
  · obtain ⟨e', q', lp, n, l, h1, h2, h3, h4, h5, h6⟩ := before_next hb hw
    obtain ⟨qp, hqp⟩ := before_way hb hw
    obtain ⟨f, f1, f2, f3, f4, f5⟩ := found_part (l := n :: l) hqp h4 hn
    refine ⟨f, ?_, by rw [f2]; exact hqp⟩
    refine List.mem_filter.2 ⟨by rw [hchain _ h6]; exact f1, ?_⟩
    obtain ⟨o, ho⟩ := Option.isSome_iff_exists.1 (before_value hb hv)
    have ho' : f.obj = o := hc p (.inr hb) qp f.obj o hqp f3 ho
    have hve : (value r e').isSome := by
      rcases h2 with rfl | h2
      · exact hv
      · exact before_value h2 hv
    have hm := kept_step h1 h3 h4 h5 ho hve (hk p e' h1 h2 o ho)
    have hnc : n.callpoint = false := by
      obtain ⟨l0, k1, _, k3⟩ := visit_way hw
      rw [h6] at k1; injection k1 with k1; subst k1
      exact k3 n (by simp)
    simp [fails, f4, hnc, f5, ho', hm]

theorem access_parts {z : Int} {p : Exp} (h : p = access z ∨ Before p (access z)) :
    p = access z ∨ p = .sub (.attr (.name 0) 3) (.const (.str 4)) ∨ p = .attr (.name 0) 3 ∨ p = .name 0 := by
  rcases h with h | h | h | h | h
  · exact .inl h
  · exact .inr (.inl h)
  · exact .inr (.inr (.inl h))
  · exact .inr (.inr (.inr h))
  · exact h.elim

theorem access_current (z : Int) : Current seen env (access z) := by
  intro p hp q o o' hq ho hv
  rcases access_parts hp with rfl | rfl | rfl | rfl <;> cases hq
  · have hz : ¬ Val.one (.int z) = .one (.int 1) ∨ z = 1 := by by_cases h : z = 1 <;> simp [h]
    rcases hz with hz | rfl
    · simp [seen, hz] at ho
    · cases ho; cases hv; rfl
  · cases ho; cases hv; rfl
  · cases ho; cases hv; rfl
  · cases ho; cases hv; rfl

theorem access_kept (z : Int) (p e' : Exp) (hn : Next p e') (he : e' = access z ∨ Before e' (access z)) (o : Obj) (ho : value env p = some o) : Kept o e' := by
  rcases access_parts he with rfl | rfl | rfl | rfl <;> rcases hn with ⟨a, h⟩ | ⟨i, h⟩ <;> cases h <;> cases ho
  · trivial
  · rfl
  · intro b l h; cases h

/-- All four objects on the way to `x.data['k'][1]` count as read. -/
example : ∃ f ∈ live seen false (access 1), way (.attr (.name 0) 3) = some f.way :=
  kept_partial seen env false (access 1) (.attr (.name 0) 3) _ rfl (access_current 1) rfl (access_kept 1) (.inr (.inr (.inl rfl)))
    (by intro p hp q hq; rcases hp with rfl | rfl | hp <;> first | (cases hq; rfl) | exact hp.elim)

example : (live seen false (access 1)).map (·.way.length) = [1, 2, 3, 4] := by decide

/-- If an access fails at a step that is looked at, the object that does not have what is asked for does not count as read. What is missing: negative indices (`negative_kept`),
attributes of lists, tuples and dicts, keys of other objects, properties that raise. -/
theorem dropped_partial (w : World) (r : Spec.Env) (e p e' : Exp) (q : List Val) (o : Obj) (hw : way e = some q) (hc : Current w r e) (hb : Before p e)
    (hn : Next p e') (he : e' = e ∨ Before e' e) (ho : value r p = some o) (hv : value r e' = none) (hd : Dropped o e') :
    ∀ f ∈ live w false e, way p ≠ some f.way := by
  intro f hf hpf
  obtain ⟨hf1, hf2⟩ := List.mem_filter.1 hf
  obtain ⟨q', hq'⟩ : ∃ q', way e' = some q' := by
    rcases he with rfl | he
    · exact ⟨_, hw⟩
    · exact before_way he hw
  obtain ⟨qp, v, lp, n, w1, hq, v1, v2, hnv, hnc, hlp⟩ := visit_next hn hq'
  obtain ⟨l, hl⟩ : ∃ l, Ref.visit none e = some (lp ++ n :: l) := by
    rcases he with rfl | he
    · exact ⟨[], v2⟩
    · obtain ⟨_, _, lp2, n2, l2, _, _, _, k4, _, k6⟩ := before_next he hw
      rw [v2] at k4; injection k4 with k4; subst k4
      exact ⟨n2 :: l2, by simpa using k6⟩
  rw [show Ref.chain none e = lp ++ n :: l by simp [Ref.chain, hl]] at hf1
  obtain ⟨l1, l2, g1, g2, g3, g4⟩ := found_inv hf1
  rw [w1] at hpf; injection hpf with hpf
  have hlen : lp.length = (l1 ++ [f.atom]).length := by
    have := congrArg List.length (hlp.trans (hpf.trans (by rw [g2]; rfl) : qp = (l1 ++ [f.atom]).map (·.value)))
    simpa using this
  have hsplit : lp ++ n :: l = (l1 ++ [f.atom]) ++ l2 := by rw [g1]; simp
  obtain ⟨g5, g6⟩ := List.append_inj hsplit hlen
  have hnext : f.next = some n := by rw [g4, ← g6]; rfl
  have hobj : f.obj = o := hc p (.inr hb) qp f.obj o w1 (by rw [hpf]; exact g3) ho
  have hfc : f.atom.callpoint = false := by
    obtain ⟨l0, k1, _, k3⟩ := visit_way hw
    rw [hl] at k1; injection k1 with k1; subst k1
    exact k3 f.atom (by rw [hsplit]; simp)
  have hm : misses false v o = true := by
    rcases hn with ⟨a, rfl⟩ | ⟨i, rfl⟩
    · simp only [way, w1, Option.map_some, Option.some.injEq] at hq'
      have hva : v = .one (.str a) := by rw [hq] at hq'; simpa using hq'.symm
      subst hva
      simp only [value, ho, Option.bind_some] at hv
      cases o with
      | seq es => exact hd.elim
      | dict b l => exact hd.elim
      | inst cls attrs items =>
        simp only [Spec.attr] at hv
        simp only [Dropped] at hd
        simp only [misses, has, isText, Bool.not_false, Bool.true_and, Bool.not_eq_true', Bool.or_eq_false_iff, Option.isSome_eq_false_iff, Option.isNone_iff_eq_none]
        cases ha : Assoc.get attrs a with
        | some _ => simp [ha] at hv
        | none =>
          rw [ha] at hv
          refine ⟨?_, rfl⟩
          cases hcl : Assoc.get cls a with
          | none => rfl
          | some x =>
            cases x with
            | none => exact absurd hcl hd
            | some y => simp [hcl] at hv
    · simp only [way, w1, Option.bind_some, Option.map_eq_some_iff] at hq'
      obtain ⟨v', hv', hq'⟩ := hq'
      have hvv : v' = v := by rw [hq] at hq'; simpa using hq'
      subst hvv
      have hi : Spec.idx r i = some v' := by
        cases i with
        | const c => exact hv'
        | neg c => cases c <;> first | exact hv' | simp [key] at hv'
        | name x => simp [key] at hv'
        | negName x => simp [key] at hv'
        | tuple cs => exact hv'
        | other => simp [key] at hv'
      simp only [value, ho, Option.bind_some, hi] at hv
      cases o with
      | seq es =>
        obtain ⟨z, hz⟩ := hd
        rw [hv'] at hz; injection hz with hz; subst hz
        simp only [Spec.item, Spec.element, Int.natCast_nonneg, if_true] at hv
        have := List.getElem?_eq_none_iff.1 hv
        simp only [misses, beyond, decide_eq_true_eq]
        omega
      | dict b l =>
        simp only [Spec.item] at hv
        cases hg : Assoc.get l v' with
        | some _ => simp [hg] at hv
        | none => simp [misses, hg]
      | inst cls attrs items => exact hd.elim
  simp [fails, hnext, hnc, hfc, hnv, hobj, hm] at hf2

/-- `x.data['k'][2]`: the list has no such element, so that it does not count as read. -/
example : ∀ f ∈ live seen false (access 2), way (.sub (.attr (.name 0) 3) (.const (.str 4))) ≠ some f.way :=
  dropped_partial seen env (access 2) _ (access 2) _ pair rfl (access_current 2) (.inl rfl) (.inr ⟨_, rfl⟩) (.inl rfl) rfl rfl ⟨2, rfl⟩

example : (live seen false (access 2)).map (·.way.length) = [1, 2] := by decide

/-- If an access does not fail and the variable that it starts with has been assigned anew, the cell is ready. What is missing: as for `kept_partial`. -/
theorem ready_partial (w : World) (r : Spec.Env) (allow : Bool) (ctr : Int) (e : Exp) (x : Nat) (q : List Val) (hw : way e = some q) (hc : Current w r e)
    (hv : (value r e).isSome) (hk : ∀ p e', Next p e' → (e' = e ∨ Before e' e) → ∀ o, value r p = some o → Kept o e')
    (hx : Exp.name x = e ∨ Before (.name x) e) (hs : (w.sym [.one (.str x)]).isSome) (hd : ∀ s, w.shallow s ≤ w.deep s) (hnew : w.shallow [.one (.str x)] > ctr) :
    ready w allow ctr e = true := by
  obtain ⟨f, f1, f2⟩ := kept_partial w r allow e (.name x) q hw hc hv hk hx (by
    intro p hp q' hq'
    rcases hp with rfl | hp
    · simp only [way, Option.some.injEq] at hq'; subst hq'; exact hs
    · exact hp.elim)
  simp only [way, Option.some.injEq] at f2
  refine List.any_eq_true.2 ⟨f, f1, decide_eq_true ?_⟩
  unfold stamp
  have := hd f.way
  rw [← f2] at *
  split <;> omega

example : ready seen false 5 (access 1) = true :=
  ready_partial seen env false 5 (access 1) 0 _ rfl (access_current 1) rfl (access_kept 1) (.inr (.inr (.inr (.inl rfl)))) rfl
    (by intro s; show (if s = _ then (7 : Int) else 3) ≤ 7; split <;> omega) (by decide)

/-- With in-order semantics, what fails counts as read, too, in cells that have been run and that are at or above the current cell, or such that they and all that they depend
on are below it. -/
theorem span (w : World) (cell current : Int) (parents : List Int) (e : Exp) (h : cell ≤ current ∨ ∀ p ∈ cell :: parents, current < p) :
    live w (allowed true true cell current parents) e = live w true e := by
  have : allowed true true cell current parents = true := by
    simp only [allowed, Bool.true_and, Bool.or_eq_true, decide_eq_true_eq]
    rcases h with h | h
    · exact .inl h
    · refine .inr ?_
      have key : ∀ (l : List Int) (a : Int), current < a → (∀ p ∈ l, current < p) → current < l.foldl min a := by
        intro l
        induction l with
        | nil => intro a ha _; exact ha
        | cons b l ih => intro a ha hl; exact ih _ (by have := hl b (by simp); omega) (fun p hp => hl p (by simp [hp]))
      exact key parents cell (h cell (by simp)) (fun p hp => h p (by simp [hp]))
  rw [this]

/-- The cell at position 5 depends on cells at positions 4 and 3; cell 2 has just been run. -/
example : live seen (allowed true true 5 2 [4, 3]) (access 2) = live seen true (access 2) := span _ _ _ _ _ (.inr (by decide))

example : (live seen true (access 2)).map (·.way.length) = [1, 2, 3] := by decide

/-- Otherwise, what fails does not count. -/
theorem span_only (w : World) (known inOrder : Bool) (cell current : Int) (parents : List Int) (e : Exp)
    (h : known = false ∨ inOrder = false ∨ current < cell ∧ ∃ p ∈ parents, p ≤ current) :
    live w (allowed known inOrder cell current parents) e = live w false e := by
  have : allowed known inOrder cell current parents = false := by
    rcases h with rfl | rfl | ⟨h1, p, hp, h2⟩
    · simp [allowed]
    · simp [allowed]
    · simp only [allowed, Bool.and_eq_false_imp, Bool.or_eq_false_iff, decide_eq_false_iff_not]
      intro _
      refine ⟨by omega, ?_⟩
      have key : ∀ (l : List Int) (a : Int), (a ≤ current ∨ p ∈ l) → l.foldl min a ≤ current := by
        intro l
        induction l with
        | nil => intro a ha; rcases ha with ha | ha <;> simp_all
        | cons b l ih =>
          intro a ha
          refine ih _ ?_
          rcases ha with ha | ha
          · left; omega
          · rcases List.mem_cons.1 ha with rfl | ha
            · left; omega
            · exact .inr ha
      have := key parents cell (.inr hp)
      omega
  rw [this]

/-- It depends on a cell at position 1, too. -/
example : live seen (allowed true true 5 2 [4, 1, 3]) (access 2) = live seen false (access 2) := span_only _ _ _ _ _ _ _ (.inr (.inr ⟨by decide, 1, by decide, by decide⟩))

/-- A method call counts as a read of the object, unless the method is known to change the object and cells are run again by themselves, or the read is marked. -/
theorem method_iff (w : World) (e : Exp) (m : Nat) (q : List Val) (o : Obj) (hw : way e = some q) (hn : Known w e) (ho : w.sym q = some o) :
    (∃ f ∈ live w false (.call (.attr e m)), f.way = q) ↔ ¬ (w.mutates o (.one (.str m)) = true ∧ (w.hot q = true ∨ w.reactive = true)) := by
  obtain ⟨lp, h1, h2, h3⟩ := visit_way hw
  have hl : Ref.chain none (.call (.attr e m)) = lp ++ [{ value := .one (.str m), callpoint := true }] := by
    simp [Ref.chain, Ref.visit, h1]
  constructor
  · rintro ⟨f, hf, hq⟩ ⟨ha, hb⟩
    obtain ⟨hf1, hf2⟩ := List.mem_filter.1 hf
    rw [hl] at hf1
    obtain ⟨l1, l2, g1, g2, g3, g4⟩ := found_inv hf1
    have hlen : lp.length = (l1 ++ [f.atom]).length := by
      have := congrArg List.length (h2.trans (hq.symm.trans g2))
      simpa using this
    have hsplit : lp ++ [{ value := .one (.str m), callpoint := true }] = (l1 ++ [f.atom]) ++ l2 := by rw [g1]; simp
    obtain ⟨g5, g6⟩ := List.append_inj hsplit hlen
    have hobj : f.obj = o := by rw [hq, ho] at g3; injection g3 with g3; exact g3.symm
    rw [← g6] at g4
    simp only [fails, mutating, g4, List.head?_cons, Bool.true_and, if_true, hobj, ha, hq, Bool.false_or] at hf2
    rcases hb with hb | hb <;> simp [hb] at hf2
  · intro hnot
    obtain ⟨f, f1, f2, f3, f4, f5⟩ := found_part (l := [{ value := .one (.str m), callpoint := true }]) hw h1 hn
    refine ⟨f, List.mem_filter.2 ⟨by rw [hl]; exact f1, ?_⟩, f2⟩
    have hobj : f.obj = o := by rw [ho] at f3; injection f3 with f3; exact f3.symm
    simp only [fails, mutating, f4, List.head?_cons, Bool.true_and, if_true, hobj, f2, Bool.false_or, Bool.not_eq_true']
    cases hm : w.mutates o (.one (.str m)) with
    | false => rfl
    | true =>
      have : ¬ (w.hot q = true ∨ w.reactive = true) := fun h => hnot ⟨hm, h⟩
      rw [not_or] at this
      simp [this.1, this.2]

/-- `x.data.m(..)` counts as a read of `x.data`, unless `m` changes it. -/
example (m : Nat) : (∃ f ∈ live seen false (.call (.attr (.attr (.name 0) 3) m)), f.way = [.one (.str 0), .one (.str 3)]) ↔ m ≠ 5 :=
  (method_iff seen _ m _ table rfl (by intro p hp q hq; rcases hp with rfl | rfl | hp <;> first | (cases hq; rfl) | exact hp.elim) rfl).trans
    (by simp [seen])

end Verif.Fails
