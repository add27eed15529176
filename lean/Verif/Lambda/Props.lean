import Verif.Lambda.Spec

/-!
# C124: A lambda that is given to a library computes what it computes elsewhere -/

namespace Verif.Lambda

open Spec

theorem Spec.More.refl (w : World) : More w w := ⟨rfl, rfl, [], by simp⟩

theorem Spec.More.trans {a b c : World} (h : More a b) (h' : More b c) : More a c := by
  obtain ⟨h1, h2, l, h3⟩ := h
  obtain ⟨h4, h5, l', h6⟩ := h'
  exact ⟨h4.trans h1, h5.trans h2, l ++ l', by rw [h6, h3, List.append_assoc]⟩

theorem Spec.More.get {w w' : World} (h : More w w') {i : Nat} {f : Fn} (hf : w.heap[i]? = some f) : w'.heap[i]? = some f := by
  obtain ⟨_, _, l, h⟩ := h
  rw [h, List.getElem?_append_left]
  · exact hf
  · exact (List.getElem?_eq_some_iff.1 hf).1

theorem Spec.More.globalsOf {w w' : World} (h : More w w') (f : Fn) : globalsOf w' f = globalsOf w f := by
  simp only [Lambda.globalsOf, h.1]

theorem Spec.More.slotVal {w w' : World} (h : More w w') (s : Slot) : slotVal w' s = slotVal w s := by
  cases s <;> simp only [Lambda.slotVal, h.2.1]

/-- A relation for results that may be missing. -/
inductive ORel (R : Val → Val → Prop) : Option Val → Option Val → Prop
  | none : ORel R none none
  | some {a b} : R a b → ORel R (some a) (some b)

theorem orel_mono {R S : Val → Val → Prop} (h : ∀ a b, R a b → S a b) {a b : Option Val} (hr : ORel R a b) : ORel S a b := by
  cases hr with
  | none => exact .none
  | some r => exact .some (h _ _ r)

/-- What a variable that is not the parameter is. -/
def outer (w : World) (f : Fn) (x : Nat) : Option Val := match Assoc.get f.frees x with
  | some s => slotVal w s
  | none => Assoc.get (globalsOf w f) x

/-- The second value is the first one, or a copy of the function that is the first one. -/
inductive Rel (w : World) : Val → Val → Prop
  | refl (v : Val) : Rel w v v
  | copy {i j : Nat} {f f' : Fn} : w.heap[i]? = some f → w.heap[j]? = some f' → f'.param = f.param → f'.body = f.body →
      (f.dflt.map (·.2) = none ↔ f'.dflt.map (·.2) = none) → (∀ a b, f.dflt.map (·.2) = some a → f'.dflt.map (·.2) = some b → Rel w a b) →
      (∀ x, outer w f x = none ↔ outer w f' x = none) → (∀ x a b, outer w f x = some a → outer w f' x = some b → Rel w a b) → Rel w (.fn i) (.fn j)

theorem outer_more {w w' : World} (h : More w w') (f : Fn) (x : Nat) : outer w' f x = outer w f x := by
  simp only [outer, h.globalsOf, h.slotVal]

theorem Rel.more {w w' : World} (h : More w w') {a b : Val} (hr : Rel w a b) : Rel w' a b := by
  induction hr with
  | refl v => exact .refl v
  | @copy i j f f' h1 h2 h3 h4 h5 h6 h7 h8 i6 i8 =>
    refine .copy (h.get h1) (h.get h2) h3 h4 h5 i6 ?_ ?_
    · intro x
      rw [outer_more h, outer_more h]
      exact h7 x
    · intro x
      rw [outer_more h, outer_more h]
      exact i8 x

theorem orel_of {R : Val → Val → Prop} {a b : Option Val} (h : (a = none ∧ b = none) ∨ ∃ x y, a = some x ∧ b = some y ∧ R x y) : ORel R a b := by
  rcases h with ⟨rfl, rfl⟩ | ⟨x, y, rfl, rfl, h⟩
  · exact .none
  · exact .some h

theorem orel_to {R : Val → Val → Prop} {a b : Option Val} (h : ORel R a b) : (a = none ∧ b = none) ∨ ∃ x y, a = some x ∧ b = some y ∧ R x y := by
  cases h with
  | none => exact .inl ⟨rfl, rfl⟩
  | some h => exact .inr ⟨_, _, rfl, rfl, h⟩

theorem orel_iff {R : Val → Val → Prop} {a b : Option Val} (h : a = none ↔ b = none) (h' : ∀ x y, a = some x → b = some y → R x y) : ORel R a b := by
  cases a with
  | none => rw [h.1 rfl]; exact .none
  | some x =>
    cases b with
    | none => exact absurd (h.2 rfl) (by simp)
    | some y => exact .some (h' x y rfl rfl)

/-- A copy, from related parts. -/
theorem Rel.copy' {w : World} {i j : Nat} {f f' : Fn} (h1 : w.heap[i]? = some f) (h2 : w.heap[j]? = some f') (h3 : f'.param = f.param) (h4 : f'.body = f.body)
    (h5 : (f.dflt.map (·.2) = none ∧ f'.dflt.map (·.2) = none) ∨ ∃ a b, f.dflt.map (·.2) = some a ∧ f'.dflt.map (·.2) = some b ∧ Rel w a b)
    (h6 : ∀ x, (outer w f x = none ∧ outer w f' x = none) ∨ ∃ a b, outer w f x = some a ∧ outer w f' x = some b ∧ Rel w a b) : Rel w (.fn i) (.fn j) := by
  refine .copy h1 h2 h3 h4 ?_ ?_ ?_ ?_
  · rcases h5 with ⟨ha, hb⟩ | ⟨a, b, ha, hb, _⟩ <;> simp [ha, hb]
  · intro a b ha hb
    rcases h5 with ⟨ha', _⟩ | ⟨a', b', ha', hb', hr⟩
    · rw [ha'] at ha; cases ha
    · rw [ha', Option.some.injEq] at ha
      rw [hb', Option.some.injEq] at hb
      rw [← ha, ← hb]; exact hr
  · intro x
    rcases h6 x with ⟨ha, hb⟩ | ⟨a, b, ha, hb, _⟩ <;> simp [ha, hb]
  · intro x a b ha hb
    rcases h6 x with ⟨ha', _⟩ | ⟨a', b', ha', hb', hr⟩
    · rw [ha'] at ha; cases ha
    · rw [ha', Option.some.injEq] at ha
      rw [hb', Option.some.injEq] at hb
      rw [← ha, ← hb]; exact hr

theorem orel_refl (w : World) (a : Option Val) : ORel (Rel w) a a := by
  cases a
  · exact .none
  · exact .some (.refl _)

/-- Evaluation with related calls and variables. -/
theorem eval_rel {w : World} {call : Nat → Option Val → Option Val} {l l' : Nat → Option Val}
    (hc : ∀ i j a b, Rel w (.fn i) (.fn j) → ORel (Rel w) a b → ORel (Rel w) (call i a) (call j b)) (hl : ∀ x, ORel (Rel w) (l x) (l' x)) :
    ∀ e, ORel (Rel w) (eval call l e) (eval call l' e)
  | .num z => .some (.refl _)
  | .var x => hl x
  | .add a b => by
    have ha := eval_rel hc hl a
    have hb := eval_rel hc hl b
    simp only [eval]
    revert ha hb
    generalize eval call l a = u, eval call l' a = u', eval call l b = v, eval call l' b = v'
    intro ha hb
    cases ha with
    | none => exact .none
    | @some p q ha =>
      cases p with
      | fn i => cases q <;> first | exact .none | cases ha
      | num z =>
        cases ha
        cases hb with
        | none => exact .none
        | @some p q hb =>
          cases p with
          | fn i => cases q <;> first | exact .none | cases hb
          | num y => cases hb; exact .some (.refl _)
  | .call f a => by
    have hf := eval_rel hc hl f
    have ha := eval_rel hc hl a
    simp only [eval]
    revert hf ha
    generalize eval call l f = u, eval call l' f = u', eval call l a = v, eval call l' a = v'
    intro hf ha
    cases hf with
    | none => exact .none
    | @some p q hf =>
      cases ha with
      | none => cases p <;> cases q <;> exact .none
      | some ha =>
        cases p with
        | num z => cases hf; exact .none
        | fn i =>
          cases q with
          | num z => cases hf
          | fn j => exact hc i j _ _ hf (.some ha)
  | .call0 f => by
    have hf := eval_rel hc hl f
    simp only [eval]
    revert hf
    generalize eval call l f = u, eval call l' f = u'
    intro hf
    cases hf with
    | none => exact .none
    | @some p q hf =>
      cases p with
      | num z => cases hf; exact .none
      | fn i =>
        cases q with
        | num z => cases hf
        | fn j => exact hc i j _ _ hf .none

theorem look_eq (w : World) (f : Fn) (a : Val) (x : Nat) : look w f a x = if x = f.param then some a else outer w f x := rfl

/-- A function and its copy, called with the same or related arguments. -/
theorem apply_rel (w : World) : ∀ n i j a b, Rel w (.fn i) (.fn j) → ORel (Rel w) a b → ORel (Rel w) (apply n w i a) (apply n w j b)
  | 0, _, _, _, _, _, _ => .none
  | n + 1, i, j, a, b, h, hab => by
    have key : ∀ (f f' : Fn), f'.param = f.param → f'.body = f.body → ORel (Rel w) (f.dflt.map (·.2)) (f'.dflt.map (·.2)) → (∀ x, ORel (Rel w) (outer w f x) (outer w f' x)) →
        ORel (Rel w) (match a <|> f.dflt.map (·.2) with | none => none | some a => eval (apply n w) (look w f a) f.body)
          (match b <|> f'.dflt.map (·.2) with | none => none | some a => eval (apply n w) (look w f' a) f'.body) := by
      intro f f' hp hb hd ho
      have harg : ORel (Rel w) (a <|> f.dflt.map (·.2)) (b <|> f'.dflt.map (·.2)) := by
        cases hab with
        | none => simpa using hd
        | some h => exact .some h
      revert harg
      generalize (a <|> f.dflt.map (·.2)) = u, (b <|> f'.dflt.map (·.2)) = u'
      intro harg
      cases harg with
      | none => exact .none
      | some harg =>
        simp only [hb]
        refine eval_rel (fun i j a b => apply_rel w n i j a b) (fun x => ?_) f.body
        rw [look_eq, look_eq, hp]
        split
        · exact .some harg
        · exact ho x
    simp only [apply]
    cases h with
    | refl =>
      cases hi : w.heap[i]? with
      | none => exact .none
      | some f => exact key f f rfl rfl (orel_refl w _) (fun x => orel_refl w _)
    | copy h1 h2 h3 h4 h5 h6 h7 h8 =>
      simp only [h1, h2]
      exact key _ _ h3 h4 (orel_iff h5 h6) (fun x => orel_iff (h7 x) (h8 x))

/-! ## `uninstrument` makes copies -/

theorem freeze_get {w : World} : ∀ {l l' : List (Nat × Slot)}, freeze w l = some l' → ∀ x, (Assoc.get l' x = none ↔ Assoc.get l x = none) ∧
    ∀ s, Assoc.get l x = some s → ∃ v, slotVal w s = some v ∧ Assoc.get l' x = some (.fixed v)
  | [], l', h, x => by
    simp only [freeze, Option.some.injEq] at h
    subst h
    simp [Assoc.get]
  | (y, s) :: l, l', h, x => by
    simp only [freeze] at h
    split at h
    · rename_i v l'' hv hl
      simp only [Option.some.injEq] at h
      subst h
      have ih := freeze_get hl x
      simp only [Assoc.get]
      by_cases hyx : y = x
      · simp only [hyx, if_true, reduceCtorEq, Option.some.injEq, true_and]
        rintro _ rfl
        exact ⟨v, hv, rfl⟩
      · simp only [hyx, if_false]
        exact ih
    · cases h

/-- Which names are overridden, and by what. -/
theorem get_update (g o : List (Nat × Val)) (x : Nat) : Assoc.get (update g o) x = Assoc.get g x ∨ ∃ v, (x, v) ∈ o ∧ Assoc.get (update g o) x = some v := by
  induction o generalizing g with
  | nil => exact .inl rfl
  | cons p o ih =>
    simp only [update, List.foldl_cons]
    rcases ih (Assoc.set g p.1 p.2) with h | ⟨v, hv, h⟩
    · by_cases hx : x = p.1
      · refine .inr ⟨p.2, by simp [hx], ?_⟩
        have := h
        simp only [update] at this
        rw [this, hx, Assoc.get_set_self]
      · refine .inl ?_
        have := h
        simp only [update] at this
        rw [this, Assoc.get_set_ne _ _ hx]
    · exact .inr ⟨v, by simp [hv], h⟩

/-- What `uninstrument` does to the state and what it returns. -/
structure Good (w : World) (i : Nat) (r : World × List Nat × Option Nat) : Prop where
  more : More w r.1
  fresh : ∀ k f, w.heap.length ≤ k → r.1.heap[k]? = some f → f.traced = false
  rel : Settled w → ∀ j, r.2.2 = some j → Rel r.1 (.fn i) (.fn j)
  new : ∀ j, r.2.2 = some j → w.heap.length ≤ j

theorem Spec.Settled.more {w w' : World} (h : Settled w) (hm : More w w') (hf : ∀ k f, w.heap.length ≤ k → w'.heap[k]? = some f → f.traced = false) : Settled w' := by
  intro i f d v hi ht hd
  by_cases hl : w.heap.length ≤ i
  · rw [hf i f hl hi] at ht; cases ht
  · have hi' : w.heap[i]? = some f := by
      obtain ⟨_, _, l, hl'⟩ := hm
      rw [hl', List.getElem?_append_left (by omega)] at hi
      exact hi
    have := h i f d v hi' ht hd
    cases d with
    | num z => exact this
    | var x =>
      simp only [Now] at this ⊢
      rw [hm.1, hm.2.1]
      exact this

theorem overrides_good {un : World → List Nat → Nat → World × List Nat × Option Nat} (hu : ∀ w seen i, Good w i (un w seen i)) (f : Fn) :
    ∀ (xs : List Nat) (w : World) (seen : List Nat), More w (overrides un f xs w seen).1 ∧
      (∀ k g, w.heap.length ≤ k → (overrides un f xs w seen).1.heap[k]? = some g → g.traced = false) ∧
      (Settled w → ∀ p ∈ (overrides un f xs w seen).2.2, ∃ v, Assoc.get (globalsOf w f) p.1 = some v ∧ Rel (overrides un f xs w seen).1 v p.2)
  | [], w, seen => ⟨More.refl w, fun k g hk hg => absurd hg (by simp [overrides, List.getElem?_eq_none hk]), fun _ p hp => by simp [overrides] at hp⟩
  | x :: xs, w, seen => by
    simp only [overrides]
    split
    · rename_i j hj
      have g1 := hu w seen j
      generalize un w seen j = r at g1 ⊢
      obtain ⟨m2, f2, o2⟩ := overrides_good hu f xs r.1 r.2.1
      refine ⟨g1.more.trans m2, ?_, ?_⟩
      · intro k g hk hg
        by_cases hl : r.1.heap.length ≤ k
        · exact f2 k g hl hg
        · have : r.1.heap[k]? = some g := by
            obtain ⟨_, _, l, hl'⟩ := m2
            rw [hl', List.getElem?_append_left (by omega)] at hg
            exact hg
          exact g1.fresh k g hk this
      · intro hs p hp
        have hs' : Settled r.1 := Settled.more hs g1.more g1.fresh
        have old : ∀ p ∈ (overrides un f xs r.1 r.2.1).2.2, ∃ v, Assoc.get (globalsOf w f) p.1 = some v ∧ Rel (overrides un f xs r.1 r.2.1).1 v p.2 := by
          intro p hp
          obtain ⟨v, hv, hr⟩ := o2 hs' p hp
          rw [g1.more.globalsOf] at hv
          exact ⟨v, hv, hr⟩
        cases hr : r.2.2 with
        | none => rw [hr] at hp; exact old p hp
        | some j' =>
          rw [hr] at hp
          rcases List.mem_cons.1 hp with rfl | hp
          · exact ⟨.fn j, hj, (g1.rel hs j' hr).more m2⟩
          · exact old p hp
    · exact overrides_good hu f xs w seen

theorem Good.nothing {w : World} {i : Nat} {seen : List Nat} : Good w i (w, seen, none) :=
  ⟨More.refl w, fun k f hk hf => absurd hf (by simp [List.getElem?_eq_none hk]), fun _ j hj => by simp at hj, fun j hj => by simp at hj⟩

theorem uninst_good : ∀ (n : Nat) (w : World) (seen : List Nat) (i : Nat), Good w i (uninst n w seen i)
  | 0, w, seen, i => Good.nothing
  | n + 1, w, seen, i => by
    simp only [uninst]
    split
    · exact Good.nothing
    split
    · exact Good.nothing
    rename_i f hf
    split
    · exact Good.nothing
    rename_i ht
    split
    · exact Good.nothing
    rename_i frees hfr
    obtain ⟨m, fr, ov⟩ := overrides_good (uninst_good n) f (names f) w (i :: seen)
    generalize overrides (uninst n) f (names f) w (i :: seen) = r at m fr ov
    split
    · exact ⟨m, fr, fun _ j hj => by simp at hj, fun j hj => by simp at hj⟩
    · rename_i f' hf'
      have m' : More r.1 { r.1 with heap := r.1.heap ++ [f'] } := ⟨rfl, rfl, [f'], rfl⟩
      have hlen : w.heap.length ≤ r.1.heap.length := by
        obtain ⟨_, _, l, hl⟩ := m
        rw [hl, List.length_append]
        omega
      -- the new function
      have hnew : f'.param = f.param ∧ f'.body = f.body ∧ f'.traced = false ∧ f'.frees = frees ∧
          f'.env = (if r.2.2.isEmpty then f.env else some (update (globalsOf r.1 f) r.2.2)) ∧
          ((f.dflt = none ∧ f'.dflt = none) ∨ ∃ d v v', f.dflt = some (d, v) ∧ f'.dflt = some (d, v') ∧ dfltVal r.1 f' d = some v') := by
        simp only [remake] at hf'
        cases hd : f.dflt with
        | none =>
          rw [hd] at hf'
          simp only [Option.some.injEq] at hf'
          subst hf'
          exact ⟨rfl, rfl, rfl, rfl, rfl, .inl ⟨rfl, rfl⟩⟩
        | some p =>
          obtain ⟨d, v⟩ := p
          rw [hd] at hf'
          simp only [Option.map_eq_some_iff] at hf'
          obtain ⟨v', hv', rfl⟩ := hf'
          refine ⟨rfl, rfl, rfl, rfl, rfl, .inr ⟨d, v, v', rfl, rfl, ?_⟩⟩
          cases d <;> exact hv'
      obtain ⟨hp, hb, htr, hfs, henv, hdf⟩ := hnew
      refine ⟨m.trans m', ?_, ?_, ?_⟩
      · intro k g hk hg
        simp only at hg
        rw [List.getElem?_append] at hg
        split at hg
        · exact fr k g hk hg
        · rw [List.getElem?_singleton] at hg
          split at hg
          · simp only [Option.some.injEq] at hg; subst hg; exact htr
          · cases hg
      · intro hs j hj
        simp only [Option.some.injEq] at hj
        subst hj
        -- variables of the copy
        have houter : ∀ x, (outer w f x = none ∧ outer r.1 f' x = none) ∨ ∃ a b, outer w f x = some a ∧ outer r.1 f' x = some b ∧ Rel r.1 a b := by
          intro x
          have hg := freeze_get hfr x
          simp only [outer, hfs]
          cases hx : Assoc.get f.frees x with
          | some s =>
            obtain ⟨v, hv, hv'⟩ := hg.2 s hx
            rw [hv']
            exact .inr ⟨v, v, hv, rfl, .refl v⟩
          | none =>
            rw [hg.1.2 hx]
            simp only
            have hsame : ORel (Rel r.1) (Assoc.get (globalsOf w f) x) (Assoc.get (globalsOf r.1 f') x) := by
              cases ho : r.2.2.isEmpty with
              | true =>
                have : globalsOf r.1 f' = globalsOf w f := by
                  rw [← m.globalsOf f]
                  simp only [globalsOf, henv, ho, if_true]
                rw [this]
                exact orel_refl _ _
              | false =>
                have : globalsOf r.1 f' = update (globalsOf w f) r.2.2 := by
                  rw [← m.globalsOf f]
                  simp [globalsOf, henv, ho]
                rw [this]
                rcases get_update (globalsOf w f) r.2.2 x with h | ⟨v, hv, h⟩
                · rw [h]; exact orel_refl _ _
                · obtain ⟨v0, hv0, hr⟩ := ov hs (x, v) hv
                  rw [h, hv0]
                  exact .some hr
            exact orel_to hsame
        refine Rel.copy' (f := f) (f' := f') ((m.trans m').get hf) ?_ hp hb ?_ ?_
        · simp
        · rcases hdf with ⟨h1, h2⟩ | ⟨d, v, v', h1, h2, h3⟩
          · exact .inl ⟨by rw [h1]; rfl, by rw [h2]; rfl⟩
          · refine .inr ⟨v, v', by rw [h1]; rfl, by rw [h2]; rfl, ?_⟩
            have hn := hs i f d v hf (by simpa using ht) h1
            cases d with
            | num z =>
              simp only [Now] at hn
              simp only [dfltVal, Option.some.injEq] at h3
              rw [hn, ← h3]
              exact .refl _
            | var x =>
              have hov : outer w f x = some v := by
                simp only [Now] at hn
                simp only [outer]
                rcases hn with ⟨c, hc, hv⟩ | hc | ⟨hc, hv⟩
                · rw [hc]; exact hv
                · rw [hc]; rfl
                · rw [hc]; exact hv
              have hov' : outer r.1 f' x = some v' := h3
              rcases houter x with h | ⟨a, b, ha, hb', hab⟩
              · rw [hov] at h; cases h.1
              · rw [hov, Option.some.injEq] at ha
                rw [hov', Option.some.injEq] at hb'
                rw [ha, hb']
                exact hab.more m'
        · intro x
          rw [outer_more (m.trans m') f x, outer_more m' f' x]
          rcases houter x with h | ⟨a, b, ha, hb', hab⟩
          · exact .inl h
          · exact .inr ⟨a, b, ha, hb', hab.more m'⟩
      · intro j hj
        simp only [Option.some.injEq] at hj
        omega

/-- As long as no variable changes, the number that a lambda computes is the same whether it was given to a library or not, if nothing that defaults were computed from has changed. What is
missing: variables that change after that (`stale_global`, `stale_cell`), and defaults (`default_changed`). -/
theorem quiet_partial (fuel : Nat) (lib : Bool) (w : World) (i : Nat) (hs : Settled w) (n : Nat) (arg : Option Val) :
    SameNumber (apply n (pass fuel lib w i).1 i arg) (apply n (pass fuel lib w i).1 (pass fuel lib w i).2 arg) := by
  have hrel : Rel (pass fuel lib w i).1 (.fn i) (.fn (pass fuel lib w i).2) := by
    unfold pass
    split
    · have g := uninst_good fuel w [] i
      dsimp only
      cases hr : (uninst fuel w [] i).2.2 with
      | none => exact .refl _
      | some j => exact g.rel hs j hr
    · exact .refl _
  have h := apply_rel _ n _ _ arg arg hrel (orel_refl _ _)
  intro z
  revert h
  generalize apply n (pass fuel lib w i).1 i arg = a, apply n (pass fuel lib w i).1 (pass fuel lib w i).2 arg = b
  intro h
  cases h with
  | none => simp
  | some h =>
    cases h with
    | refl => rfl
    | copy => simp

/-- A call of `lambda n: f(n) + x` with `def f(n, k=x): return n + k`; `f`, `x` are the names 0, 1. -/
def sample : World where
  globals := [(0, .fn 0), (1, .num 5)]
  heap := [{ param := 7, dflt := some (.var 1, .num 5), body := .add (.var 7) (.num 1) },
    { param := 7, body := .add (.call (.var 0) (.var 7)) (.var 1), isLambda := true }]

example : Settled sample := by
  intro i f d v hi _ hd
  match i, hi with
  | 0, hi =>
    simp only [sample, List.getElem?_cons_zero, Option.some.injEq] at hi
    subst hi
    simp only [Option.some.injEq, Prod.mk.injEq] at hd
    obtain ⟨rfl, rfl⟩ := hd
    exact .inr (.inr ⟨rfl, rfl⟩)
  | 1, hi =>
    simp only [sample, List.getElem?_cons_succ, List.getElem?_cons_zero, Option.some.injEq] at hi
    subst hi
    cases hd
  | n + 2, hi => simp [sample] at hi

example : (pass 9 true sample 1).2 = 3 ∧ apply 9 (pass 9 true sample 1).1 3 (some (.num 2)) = some (.num 8) ∧ apply 9 sample 1 (some (.num 2)) = some (.num 8) := by decide

/-- Other state, later: the function objects are still there. -/
def Later (w w' : World) : Prop := ∃ l, w'.heap = w.heap ++ l

theorem plain_overrides (n : Nat) (f : Fn) (w : World) (hp : ∀ x ∈ names f, ∀ j, Assoc.get (globalsOf w f) x = some (.fn j) → ∀ g, w.heap[j]? = some g → g.traced = false) :
    ∀ xs seen, (∀ x ∈ xs, x ∈ names f) → (overrides (uninst n) f xs w seen).1 = w ∧ (overrides (uninst n) f xs w seen).2.2 = []
  | [], seen, _ => ⟨rfl, rfl⟩
  | x :: xs, seen, h => by
    simp only [overrides]
    split
    · rename_i j hj
      have hu : ∀ s, (uninst n w s j).1 = w ∧ (uninst n w s j).2.2 = none := by
        intro s
        cases n with
        | zero => exact ⟨rfl, rfl⟩
        | succ n =>
          simp only [uninst]
          split
          · exact ⟨rfl, rfl⟩
          split
          · exact ⟨rfl, rfl⟩
          · rename_i g hg
            rw [if_pos (hp x (h x (by simp)) j hj g hg)]
            exact ⟨rfl, rfl⟩
      obtain ⟨h1, h2⟩ := hu seen
      rw [h1, h2]
      exact plain_overrides n f w hp xs _ (fun y hy => h y (by simp [hy]))
    · exact plain_overrides n f w hp xs seen (fun y hy => h y (by simp [hy]))

theorem mem_vars (x : Nat) : ∀ e, x ∈ vars e → Mentions x e
  | .num _, h => by simp [vars] at h
  | .var y, h => by simp only [vars, List.mem_singleton] at h; exact h.symm
  | .add a b, h => by
    rcases List.mem_append.1 h with h | h
    · exact .inl (mem_vars x a h)
    · exact .inr (mem_vars x b h)
  | .call a b, h => by
    rcases List.mem_append.1 h with h | h
    · exact .inl (mem_vars x a h)
    · exact .inr (mem_vars x b h)
  | .call0 a, h => mem_vars x a h

theorem plain_names {w : World} {f : Fn} (hp : Plain w f) : ∀ x ∈ names f, ∀ j, Assoc.get (globalsOf w f) x = some (.fn j) → ∀ g, w.heap[j]? = some g → g.traced = false := by
  intro x hx j hj g hg
  simp only [names, List.mem_filter, decide_eq_true_eq] at hx
  exact hp x (mem_vars x _ hx.1) hx.2.1 (Option.isNone_iff_eq_none.1 hx.2.2) j hj g hg

/-- A lambda that refers to no function of the notebook, was made outside of functions, and has no default or a number for one, computes the same as the one the library has, whatever
becomes of variables later. What is missing: all other lambdas (`stale_global`, `stale_cell`). -/
theorem live_partial (fuel : Nat) (lib : Bool) (w : World) (i : Nat) (f : Fn) (hf : w.heap[i]? = some f) (hfr : f.frees = []) (hp : Plain w f)
    (hd : f.dflt = none ∨ ∃ z, f.dflt = some (.num z, .num z)) (w' : World) (hl : Later (pass fuel lib w i).1 w') (n : Nat) (arg : Option Val) :
    apply n w' (pass fuel lib w i).2 arg = apply n w' i arg := by
  unfold pass at hl ⊢
  split at hl
  · rename_i hc
    rw [if_pos hc]
    cases fuel with
    | zero => rfl
    | succ m =>
      simp only [uninst, List.not_mem_nil, if_false, hf] at hl ⊢
      by_cases ht : f.traced = false
      · rw [if_pos ht]; rfl
      · rw [if_neg ht] at hl ⊢
        simp only [hfr, freeze] at hl ⊢
        obtain ⟨h1, h2⟩ := plain_overrides m f w (plain_names hp) (names f) [i] (fun x hx => hx)
        rw [h1, h2] at hl ⊢
        have hrm : remake w f [] [] = some { f with frees := [], traced := false } := by
          rcases hd with hd | ⟨z, hd⟩ <;> simp [remake, hd, dfltVal]
        rw [hrm] at hl ⊢
        simp only [Option.getD_some]
        obtain ⟨l, hl⟩ := hl
        simp only at hl
        have hi : w'.heap[i]? = some f := by
          rw [hl, List.append_assoc, List.getElem?_append_left (List.getElem?_eq_some_iff.1 hf).1]
          exact hf
        have hj : w'.heap[w.heap.length]? = some { f with frees := [], traced := false } := by
          rw [hl]; simp
        cases n with
        | zero => rfl
        | succ n =>
          simp only [apply, hi, hj]
          have : ∀ a, look w' { f with frees := [], traced := false } a = look w' f a := by
            intro a; funext x; simp [look, hfr, globalsOf]
          simp only [this]
  · rename_i hc
    rw [if_neg hc]

/-- `lambda n: n + x`: `x` may change later. -/
example : (pass 9 true { globals := [(1, .num 5)], heap := [{ param := 7, body := .add (.var 7) (.var 1), isLambda := true }] } 0).2 = 1 ∧
    apply 9 { globals := [(1, .num 6)], heap := (pass 9 true { globals := [(1, .num 5)], heap := [{ param := 7, body := .add (.var 7) (.var 1), isLambda := true }] } 0).1.heap } 1 (some (.num 2)) =
      some (.num 8) := by decide

/-- If a lambda is replaced, then by a new object: it is not the lambda itself and not what the library got for it, or for anything else, before. -/
theorem new_object (fuel : Nat) (lib : Bool) (w : World) (i : Nat) (h : (pass fuel lib w i).2 ≠ i) : w.heap.length ≤ (pass fuel lib w i).2 := by
  unfold pass at h ⊢
  split at h
  · rename_i hc
    rw [if_pos hc]
    have g := uninst_good fuel w [] i
    dsimp only at h ⊢
    cases hr : (uninst fuel w [] i).2.2 with
    | none => rw [hr] at h; exact absurd rfl h
    | some j => exact g.new j hr
  · exact absurd rfl h

/-- Functions that are not lambdas and lambdas that are given to functions of the notebook are left alone. -/
theorem left_alone (fuel : Nat) (lib : Bool) (w : World) (i : Nat) (f : Fn) (hf : w.heap[i]? = some f) (h : lib = false ∨ f.isLambda = false) : pass fuel lib w i = (w, i) := by
  unfold pass
  rw [if_neg]
  rw [hf]
  rcases h with h | h <;> simp [h]

example : pass 9 true sample 0 = (sample, 0) := left_alone 9 true sample 0 _ rfl (.inr rfl)

/-- What replaces a lambda is not traced, nor is any other function that is made for it. -/
theorem untraced (fuel : Nat) (lib : Bool) (w : World) (i k : Nat) (f : Fn) (hk : w.heap.length ≤ k) (hf : (pass fuel lib w i).1.heap[k]? = some f) : f.traced = false := by
  unfold pass at hf
  split at hf
  · exact (uninst_good fuel w [] i).fresh k f hk hf
  · rw [List.getElem?_eq_none hk] at hf; cases hf

example : ((pass 9 true sample 1).1.heap.drop 2).map (·.traced) = [false, false] := by decide

/-- A lambda made outside of functions and without a default is always replaced: giving it to the library again gives the library another function. -/
theorem not_recognised (fuel : Nat) (w w' : World) (i : Nat) (f : Fn) (hf : w.heap[i]? = some f) (hi : f.isLambda = true) (ht : f.traced = true) (hfr : f.frees = []) (hd : f.dflt = none)
    (hl : Later (pass (fuel + 1) true w i).1 w') : (pass (fuel + 1) true w' i).2 ≠ (pass (fuel + 1) true w i).2 := by
  have key : ∀ v : World, v.heap[i]? = some f → (pass (fuel + 1) true v i).2 ≠ i ∧ (pass (fuel + 1) true v i).2 < (pass (fuel + 1) true v i).1.heap.length := by
    intro v hv
    have hlt : i < v.heap.length := (List.getElem?_eq_some_iff.1 hv).1
    have hm := (overrides_good (uninst_good fuel) f (names f) v [i]).1
    simp only [pass, hv, hi, Option.map_some, Option.getD_some, Bool.and_self, if_true, uninst, List.not_mem_nil, if_false, ht, hfr, freeze, remake, hd, Bool.true_eq_false]
    obtain ⟨_, _, l, hl⟩ := hm
    have : v.heap.length ≤ (overrides (uninst fuel) f (names f) v [i]).1.heap.length := by rw [hl]; simp
    refine ⟨by omega, by simp⟩
  obtain ⟨l, hl⟩ := hl
  obtain ⟨k1, k2⟩ := key w hf
  have hm : More w (pass (fuel + 1) true w i).1 := by
    unfold pass
    split
    · exact (uninst_good _ _ _ _).more
    · exact More.refl w
  have hv : w'.heap[i]? = some f := by
    rw [hl, List.getElem?_append_left]
    · exact hm.get hf
    · exact (List.getElem?_eq_some_iff.1 (hm.get hf)).1
  have := new_object (fuel + 1) true w' i (key w' hv).1
  have hlen : (pass (fuel + 1) true w i).1.heap.length ≤ w'.heap.length := by rw [hl]; simp
  omega

/-- `button.on_click(f)` and `button.on_click(f, remove=True)`. -/
example : (pass 9 true (pass 9 true sample 1).1 1).2 ≠ (pass 9 true sample 1).2 :=
  not_recognised 8 sample _ 1 _ rfl rfl rfl rfl rfl ⟨[], by simp⟩

end Verif.Lambda
