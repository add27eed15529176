import Verif.Chain.Spec

/-!
# Lemmas for C115
-/

namespace Verif.Chain

set_option linter.unusedSectionVars false

variable {O : Type} [DecidableEq O] {w : World O} {s s' s'' : St O}

theorem put_self {A B : Type} [DecidableEq A] (f : A → B) (a : A) (b : B) : put f a b a = b := by simp [put]

theorem put_ne {A B : Type} [DecidableEq A] {f : A → B} {a x : A} {b : B} (h : x ≠ a) : put f a b x = f x := by simp [put, h]

theorem supported_iff {k : Key} : supported k = true ↔ Plain k := by
  constructor
  · intro h
    match k with
    | .attr a => exact .attr a
    | .sub (.int i) => exact .int i
    | .sub (.str i) => exact .str i
    | .sub (.other n true) => exact .other n
    | .sub (.other n false) => cases h
  · intro h
    cases h <;> rfl

/-- The lookup finds the recorded symbol. -/
theorem look_iff {o : O} {k : Key} {a : Nat} : look w s o k = some a ↔ Part w s o k a := by
  constructor
  · intro h
    unfold look at h
    split at h
    · rename_i b hb
      cases h
      exact .here hb
    · rename_i hn
      cases ho : other w o k with
      | none => rw [ho] at h; cases h
      | some k' =>
        rw [ho] at h
        unfold other at ho
        split at ho
        · rename_i i
          split at ho
          · rename_i hi
            cases hl : w.len o with
            | none => rw [hl] at ho; cases ho
            | some n =>
              rw [hl] at ho
              cases ho
              exact .fromEnd hi hl hn h
          · cases ho
        · cases ho
  · intro h
    cases h with
    | here h => simp [look, h]
    | fromEnd hi hl hn h => simp [look, hn, other, hi, hl, h]

theorem look_none {o : O} {k : Key} : look w s o k = none ↔ ∀ a, ¬ Part w s o k a := by
  constructor
  · intro h a hp
    rw [look_iff.2 hp] at h
    cases h
  · intro h
    cases e : look w s o k with
    | none => rfl
    | some a => exact absurd (look_iff.1 e) (h a)

/-- The entry a recorded symbol is found in. -/
theorem Part.entry {o : O} {k : Key} {a : Nat} {u : O} (hw : Seq w) (h : Part w s o k a) (hg : w.get o k = some u) :
    ∃ k', s.tab o k' = some a ∧ w.get o k' = some u := by
  cases h with
  | here h => exact ⟨_, h, hg⟩
  | fromEnd hi hl _ h => exact ⟨_, h, hw _ _ _ _ hl hi hg⟩

theorem Part.same {o o' : O} {k k' : Key} {a : Nat} {u u' : O} (hw : Seq w) (hs : Wf s) (h : Part w s o k a)
    (h' : Part w s o' k' a) (hg : w.get o k = some u) (hg' : w.get o' k' = some u') : u = u' := by
  obtain ⟨k1, h1, g1⟩ := h.entry hw hg
  obtain ⟨k2, h2, g2⟩ := h'.entry hw hg'
  obtain ⟨rfl, rfl⟩ := hs.one _ _ _ _ _ h1 h2
  rw [g1] at g2
  exact Option.some.inj g2

theorem Part.tab {o : O} {k : Key} {a : Nat} (h : Part w s o k a) : ∃ k', s.tab o k' = some a := by
  cases h with
  | here h => exact ⟨_, h⟩
  | fromEnd _ _ _ h => exact ⟨_, h⟩

/-- What may happen to the state. `T`: the parts that are entered; `U`: those that may count as loaded; `V`: further symbols that may
count as loaded. -/
structure Step (w : World O) (T : O → Key → O → Prop) (U : O → Key → Prop) (V : Nat → Prop) (s s' : St O) : Prop where
  wf : Wf s → Wf s'
  next : s.next ≤ s'.next
  tab : ∀ o k a, s.tab o k = some a → s'.tab o k = some a
  part : ∀ o k a, Part w s o k a → Part w s' o k a
  new : ∀ o k a, s'.tab o k = some a → s.tab o k = some a ∨ ∃ v, T o k v
  vars : s'.vars = s.vars
  outer : s'.outer = s.outer
  made : ∀ o, s.made o = true → s'.made o = true ∧ s'.base o = s.base o
  nobase : (∀ o, s.made o = false → s.base o = none) → ∀ o, s'.made o = false → s'.base o = none
  obj : Wf s → ∀ a, a < s.next → s'.obj a = s.obj a ∨ ∃ o k v, T o k v ∧ Part w s' o k a ∧ s'.obj a = v
  loaded : ∀ m a, a ∈ s'.loaded m → a ∈ s.loaded m ∨ (∃ o k, U o k ∧ (Part w s' o k a ∨ OfClass s' o k a)) ∨ V a

theorem Step.refl (w : World O) (T U V) (s : St O) : Step w T U V s s where
  wf h := h
  next := Nat.le_refl _
  tab _ _ _ h := h
  part _ _ _ h := h
  new _ _ _ h := .inl h
  vars := rfl
  outer := rfl
  made _ h := ⟨h, rfl⟩
  nobase h := h
  obj _ _ _ := .inl rfl
  loaded _ _ h := .inl h

theorem Step.mono {T T' : O → Key → O → Prop} {U U' : O → Key → Prop} {V V' : Nat → Prop} (h : Step w T U V s s')
    (hT : ∀ o k v, T o k v → T' o k v) (hU : ∀ o k, U o k → U' o k) (hV : ∀ a, V a → V' a) : Step w T' U' V' s s' where
  wf := h.wf
  next := h.next
  tab := h.tab
  part := h.part
  new o k a g := (h.new o k a g).imp id fun ⟨v, hv⟩ => ⟨v, hT _ _ _ hv⟩
  vars := h.vars
  outer := h.outer
  made := h.made
  nobase := h.nobase
  obj hw a ha := (h.obj hw a ha).imp id fun ⟨o, k, v, h1, h2⟩ => ⟨o, k, v, hT _ _ _ h1, h2⟩
  loaded m a g := (h.loaded m a g).imp id fun g => g.imp (fun ⟨o, k, h1, h2⟩ => ⟨o, k, hU _ _ h1, h2⟩) (hV a)

theorem OfClass.step {T U V} (h : Step w T U V s s') (hb : ∀ o, s.made o = false → s.base o = none) {o : O} {k : Key}
    {a : Nat} (hc : OfClass s o k a) : OfClass s' o k a := by
  obtain ⟨c, x, h1, h2, h3⟩ := hc
  refine ⟨c, x, ?_, h2, h.tab _ _ _ h3⟩
  cases hm : s.made o with
  | false => rw [hb o hm] at h1; cases h1
  | true => rw [(h.made o hm).2]; exact h1

theorem Step.trans {T U V} (h : Step w T U V s s') (hb : ∀ o, s.made o = false → s.base o = none)
    (h' : Step w T U V s' s'') : Step w T U V s s'' where
  wf g := h'.wf (h.wf g)
  next := Nat.le_trans h.next h'.next
  tab o k a g := h'.tab o k a (h.tab o k a g)
  part o k a g := h'.part o k a (h.part o k a g)
  new o k a g := by
    rcases h'.new o k a g with g | g
    · exact h.new o k a g
    · exact .inr g
  vars := h'.vars.trans h.vars
  outer := h'.outer.trans h.outer
  made o g := ⟨(h'.made o (h.made o g).1).1, (h'.made o (h.made o g).1).2.trans (h.made o g).2⟩
  nobase g := h'.nobase (h.nobase g)
  obj g a ha := by
    rcases h'.obj (h.wf g) a (Nat.lt_of_lt_of_le ha h.next) with e | e
    · rcases h.obj g a ha with e' | ⟨o, k, v, h1, h2, h3⟩
      · exact .inl (e.trans e')
      · exact .inr ⟨o, k, v, h1, h'.part _ _ _ h2, e.trans h3⟩
    · exact .inr e
  loaded m a g := by
    rcases h'.loaded m a g with g | g
    · rcases h.loaded m a g with g | ⟨o, k, h1, h2⟩ | g
      · exact .inl g
      · refine .inr (.inl ⟨o, k, h1, ?_⟩)
        exact h2.imp (h'.part _ _ _) (fun g => g.step h' (h.nobase hb))
      · exact .inr (.inr g)
    · exact .inr g

/-- Changes of the other fields do not matter. -/
theorem Step.of_eq {T U V} (h1 : s'.tab = s.tab) (h2 : s'.obj = s.obj) (h3 : s'.next = s.next) (h4 : s'.vars = s.vars)
    (h5 : s'.outer = s.outer) (h6 : s'.made = s.made) (h7 : s'.base = s.base) (h8 : s'.loaded = s.loaded) :
    Step w T U V s s' := by
  obtain ⟨t, ob, nx, va, ou, ma, ba, ac, sa, fi, tp, lo, pe, sto, de⟩ := s
  obtain ⟨t', ob', nx', va', ou', ma', ba', ac', sa', fi', tp', lo', pe', sto', de'⟩ := s'
  simp only at h1 h2 h3 h4 h5 h6 h7 h8
  subst h1 h2 h3 h4 h5 h6 h7 h8
  have hp : ∀ o k a, Part w ⟨t', ob', nx', va', ou', ma', ba', ac, sa, fi, tp, lo', pe, sto, de⟩ o k a →
      Part w ⟨t', ob', nx', va', ou', ma', ba', ac', sa', fi', tp', lo', pe', sto', de'⟩ o k a := by
    intro o k a h
    cases h with
    | here h => exact .here h
    | fromEnd h1 h2 h3 h4 => exact .fromEnd h1 h2 h3 h4
  exact
    { wf := fun h => ⟨h.old, h.one, h.plain, h.vars⟩
      next := Nat.le_refl _
      tab := fun _ _ _ h => h
      part := hp
      new := fun _ _ _ h => .inl h
      vars := rfl
      outer := rfl
      made := fun _ h => ⟨h, rfl⟩
      nobase := fun h => h
      obj := fun _ _ _ => .inl rfl
      loaded := fun _ _ h => .inl h }

/-- Only the table, objects, the counter and the loaded symbols matter for a recorded part. -/
theorem Part.of_eq {o : O} {k : Key} {a : Nat} (h : Part w s o k a) (h1 : s'.tab = s.tab) : Part w s' o k a := by
  cases h with
  | here h => exact .here (by rw [h1]; exact h)
  | fromEnd g1 g2 g3 g4 => exact .fromEnd g1 g2 (by rw [h1]; exact g3) (by rw [h1]; exact g4)

/-! ### Entering a part -/

theorem enter_part {o : O} {k : Key} {v : O} :
    Part w (enter w s o k v).2 o k (enter w s o k v).1 ∧ (enter w s o k v).2.obj (enter w s o k v).1 = v := by
  unfold enter
  cases h : look w s o k with
  | some a => exact ⟨(look_iff.1 h).of_eq rfl, put_self _ _ _⟩
  | none => exact ⟨.here (by simp), put_self _ _ _⟩

theorem enter_step {o : O} {k : Key} {v : O} {U V} (hk : Plain k) :
    Step w (fun o' k' v' => o' = o ∧ k' = k ∧ v' = v) U V s (enter w s o k v).2 := by
  cases h : look w s o k with
  | some a =>
    have e : enter w s o k v = (a, { s with obj := put s.obj a v }) := by simp [enter, h]
    rw [e]
    have hp := look_iff.1 h
    have hq : ∀ o' k' b, Part w s o' k' b → Part w { s with obj := put s.obj a v } o' k' b := fun _ _ _ h => h.of_eq rfl
    exact
      { wf := fun h => ⟨h.old, h.one, h.plain, h.vars⟩
        next := Nat.le_refl _
        tab := fun _ _ _ h => h
        part := hq
        new := fun _ _ _ h => .inl h
        vars := rfl
        outer := rfl
        made := fun _ h => ⟨h, rfl⟩
        nobase := fun h => h
        obj := by
          intro _ b _
          by_cases hb : b = a
          · subst hb
            exact .inr ⟨o, k, v, ⟨rfl, rfl, rfl⟩, hq _ _ _ hp, put_self _ _ _⟩
          · exact .inl (put_ne hb)
        loaded := fun _ _ h => .inl h }
  | none =>
    have hn := look_none.1 h
    have htab : s.tab o k = none := by
      cases e : s.tab o k with
      | none => rfl
      | some a => exact absurd (.here e) (hn a)
    have e : enter w s o k v = (s.next, { s with
      tab := fun o' k' => if o' = o ∧ k' = k then some s.next else s.tab o' k'
      obj := put s.obj s.next v
      next := s.next + 1 }) := by simp [enter, h]
    rw [e]
    have keep : ∀ o' k' b, s.tab o' k' = some b → (if o' = o ∧ k' = k then some s.next else s.tab o' k') = some b := by
      intro o' k' b hb
      rw [if_neg]
      · exact hb
      · rintro ⟨rfl, rfl⟩
        rw [htab] at hb
        cases hb
    exact
      { wf := by
          intro hs
          have key : ∀ o' k' b, (if o' = o ∧ k' = k then some s.next else s.tab o' k') = some b →
              (o' = o ∧ k' = k ∧ b = s.next) ∨ (s.tab o' k' = some b ∧ b < s.next) := by
            intro o' k' b hb
            split at hb
            · rename_i hc
              exact .inl ⟨hc.1, hc.2, (Option.some.inj hb).symm⟩
            · exact .inr ⟨hb, hs.old _ _ _ hb⟩
          constructor
          · intro o' k' b hb
            rcases key _ _ _ hb with ⟨_, _, rfl⟩ | ⟨_, hlt⟩
            · exact Nat.lt_succ_self _
            · exact Nat.lt_succ_of_lt hlt
          · intro o1 k1 o2 k2 b h1 h2
            rcases key _ _ _ h1 with ⟨r1, r2, r3⟩ | ⟨g1, l1⟩ <;> rcases key _ _ _ h2 with ⟨q1, q2, q3⟩ | ⟨g2, l2⟩
            · exact ⟨r1.trans q1.symm, r2.trans q2.symm⟩
            · omega
            · omega
            · exact hs.one _ _ _ _ _ g1 g2
          · intro o' k' b hb
            rcases key _ _ _ hb with ⟨_, rfl, _⟩ | ⟨g, _⟩
            · exact hk
            · exact hs.plain _ _ _ g
          · intro x b hb
            obtain ⟨l, g⟩ := hs.vars x b hb
            refine ⟨Nat.lt_succ_of_lt l, ?_⟩
            intro o' k' hc
            rcases key _ _ _ hc with ⟨_, _, e⟩ | ⟨g', _⟩
            · omega
            · exact g _ _ g'
        next := Nat.le_succ _
        tab := keep
        part := by
          intro o' k' b hb
          cases hb with
          | here hb => exact .here (keep _ _ _ hb)
          | @fromEnd i n _ h1 h2 h3 h4 =>
            refine .fromEnd h1 h2 ?_ (keep _ _ _ h4)
            show (if _ then _ else _) = none
            rw [if_neg]
            · exact h3
            · rintro ⟨rfl, rfl⟩
              exact hn b (.fromEnd h1 h2 h3 h4)
        new := by
          intro o' k' b hb
          by_cases hc : o' = o ∧ k' = k
          · exact .inr ⟨v, hc.1, hc.2, rfl⟩
          · simp only [if_neg hc] at hb
            exact .inl hb
        vars := rfl
        outer := rfl
        made := fun _ h => ⟨h, rfl⟩
        nobase := fun h => h
        obj := fun _ b hb => .inl (put_ne (by omega))
        loaded := fun _ _ h => .inl h }

/-- The parts entered when the state is settled. -/
def Due (s : St O) (v : O) (o : O) (k : Key) (v' : O) : Prop := s.saved = some (o, k) ∧ v' = v

theorem settle_none {v : O} (h : s.saved = none) : settle w s v = (none, s) := by simp [settle, h]

theorem settle_some {v o : O} {k : Key} (h : s.saved = some (o, k)) :
    settle w s v = (some (enter w { s with saved := none } o k v).1, (enter w { s with saved := none } o k v).2) := by
  simp [settle, h]

theorem settle_step {v : O} {U V} (hp : ∀ o k, s.saved = some (o, k) → Plain k)
    (hb : ∀ o, s.made o = false → s.base o = none) : Step w (Due s v) U V s (settle w s v).2 := by
  cases h : s.saved with
  | none => rw [settle_none h]; exact .refl _ _ _ _ _
  | some p =>
    obtain ⟨o, k⟩ := p
    rw [settle_some h]
    have h1 : Step w (Due s v) U V s { s with saved := none } := Step.of_eq rfl rfl rfl rfl rfl rfl rfl rfl
    refine h1.trans hb ?_
    refine (enter_step (hp o k h)).mono ?_ (fun _ _ h => h) (fun _ h => h)
    rintro o' k' v' ⟨rfl, rfl, rfl⟩
    exact ⟨h, rfl⟩

theorem settle_recorded {v o : O} {k : Key} (h : s.saved = some (o, k)) :
    ∃ a, (settle w s v).1 = some a ∧ Part w (settle w s v).2 o k a ∧ (settle w s v).2.obj a = v := by
  rw [settle_some h]
  exact ⟨_, rfl, enter_part⟩

theorem settle_fields {v : O} : (settle w s v).2.active = s.active ∧ (settle w s v).2.vars = s.vars ∧
    (settle w s v).2.outer = s.outer ∧ (settle w s v).2.top = s.top ∧ (settle w s v).2.first = s.first ∧
    (settle w s v).2.saved = none ∧ (settle w s v).2.pend = s.pend ∧ (settle w s v).2.loaded = s.loaded ∧
    (settle w s v).2.stores = s.stores ∧ (settle w s v).2.dels = s.dels := by
  cases h : s.saved with
  | none => rw [settle_none h]; exact ⟨rfl, rfl, rfl, rfl, rfl, h, rfl, rfl, rfl, rfl⟩
  | some p =>
    obtain ⟨o, k⟩ := p
    rw [settle_some h]
    unfold enter
    cases look w { s with saved := none } o k <;> exact ⟨rfl, rfl, rfl, rfl, rfl, rfl, rfl, rfl, rfl, rfl⟩

/-! ### One event -/

theorem mkNs_step {o : O} {T U V} : Step w T U V s (mkNs w o s) := by
  unfold mkNs
  split
  · exact .refl _ _ _ _ _
  · rename_i hm
    exact
      { wf := fun h => ⟨h.old, h.one, h.plain, h.vars⟩
        next := Nat.le_refl _
        tab := fun _ _ _ h => h
        part := fun _ _ _ h => h.of_eq rfl
        new := fun _ _ _ h => .inl h
        vars := rfl
        outer := rfl
        made := by
          intro o' h
          have hne : o' ≠ o := by rintro rfl; exact hm h
          exact ⟨(put_ne hne).trans h, put_ne hne⟩
        nobase := by
          intro hb o' h
          have hne : o' ≠ o := by
            rintro rfl
            have e := (put_self s.made o' true).symm.trans h
            cases e
          exact (put_ne hne).trans (hb _ ((put_ne hne).symm.trans h))
        obj := fun _ _ _ => .inl rfl
        loaded := fun _ _ h => .inl h }

theorem load_step {T U V} {n a : Nat} (h : (∃ o k, U o k ∧ (Part w s o k a ∨ OfClass s o k a)) ∨ V a) :
    Step w T U V s (load s n a) :=
  { wf := fun h => ⟨h.old, h.one, h.plain, h.vars⟩
    next := Nat.le_refl _
    tab := fun _ _ _ h => h
    part := fun _ _ _ h => h.of_eq rfl
    new := fun _ _ _ h => .inl h
    vars := rfl
    outer := rfl
    made := fun _ h => ⟨h, rfl⟩
    nobase := fun h => h
    obj := fun _ _ _ => .inl rfl
    loaded := by
      intro m b hb
      by_cases hm : m = n
      · subst hm
        have hb' : b ∈ s.loaded m ++ [a] := by
          have e : (load s m a).loaded m = s.loaded m ++ [a] := put_self _ _ _
          rw [← e]; exact hb
        rw [List.mem_append, List.mem_singleton] at hb'
        rcases hb' with g | rfl
        · exact .inl g
        · refine .inr (h.imp ?_ id)
          rintro ⟨o, k, h1, h2⟩
          exact ⟨o, k, h1, h2.imp (fun g => g.of_eq rfl) id⟩
      · have e : (load s n a).loaded m = s.loaded m := put_ne hm
        rw [e] at hb
        exact .inl hb }

theorem fresh_step {T U V} {o : O} : Step w T U V s { s with
    obj := put s.obj s.next o
    next := s.next + 1 } :=
  { wf := fun h => ⟨fun o k a g => Nat.lt_succ_of_lt (h.old o k a g), h.one, h.plain,
      fun x a g => ⟨Nat.lt_succ_of_lt (h.vars x a g).1, (h.vars x a g).2⟩⟩
    next := Nat.le_succ _
    tab := fun _ _ _ h => h
    part := fun _ _ _ h => h.of_eq rfl
    new := fun _ _ _ h => .inl h
    vars := rfl
    outer := rfl
    made := fun _ h => ⟨h, rfl⟩
    nobase := fun h => h
    obj := fun _ _ h => .inl (put_ne (Nat.ne_of_lt h))
    loaded := fun _ _ h => .inl h }

theorem recordUse_eq {ev : Ev} {so sym : Option Nat} {o : O} :
    recordUse ev so sym o s = { s with pend := (recordUse ev so sym o s).pend } := by
  unfold recordUse
  split
  · split <;> rfl
  · rfl

/-- What follows when the previous part has been entered. -/
def rest (w : World O) (ev : Ev) (n : Nat) (name : Option String) (o : O) (k : Key) (p : Option Nat × St O) : St O :=
  { save ev n name o k (symFor w name p) (note n o (partSym w (mkNs w o p.2) (symFor w name p) o k)
      (recordUse ev (symFor w name p) (partSym w (mkNs w o p.2) (symFor w name p) o k) o (mkNs w o p.2))) with active := some o }

theorem link_skip {ev : Ev} {n : Nat} {name : Option String} {o : O} {k : Key} (h : w.skip o = true) :
    link w ev n name o k s = s := by
  unfold link
  rw [if_pos h]

theorem link_eq {ev : Ev} {n : Nat} {name : Option String} {o : O} {k : Key} (h : w.skip o = false) :
    link w ev n name o k s = rest w ev n name o k (settle w s o) := by
  unfold link
  rw [if_neg (by rw [h]; exact Bool.false_ne_true)]
  rfl

theorem partSym_from {so : Option Nat} {o : O} {k : Key} {a : Nat} (h : partSym w s so o k = some a) :
    Part w s o k a ∨ OfClass s o k a := by
  unfold partSym at h
  split at h
  · split at h
    · unfold lookAll at h
      split at h
      · rename_i b hb
        cases h
        exact .inl (look_iff.1 hb)
      · unfold classLook at h
        split at h
        · split at h
          · cases h
          · cases hb : s.base o with
            | none => rw [hb] at h; cases h
            | some c =>
              rw [hb] at h
              exact .inr ⟨c, _, hb, rfl, h⟩
        · cases h
    · cases h
  · cases h

theorem note_step {T U V} {n : Nat} {o : O} {k : Key} {sym : Option Nat} (hb : ∀ o, s.made o = false → s.base o = none)
    (hU : U o k) (h : ∀ a, sym = some a → Part w s o k a ∨ OfClass s o k a) : Step w T U V s (note n o sym s) := by
  have h1 : Step w T U V s { s with
    top := some (s.top.getD n)
    first := some (s.first.getD o) } := Step.of_eq rfl rfl rfl rfl rfl rfl rfl rfl
  cases sym with
  | none => exact h1
  | some a => exact h1.trans hb (load_step (.inl ⟨o, k, hU, (h a rfl).imp (fun g => g.of_eq rfl) id⟩))

/-- The symbols an object of a method call may be found under. -/
def Calls (s : St O) (name : Option String) (so : Option Nat) (a : Nat) : Prop :=
  so = some a ∨ ∃ x, name = some x ∧ (s.vars x = some a ∨ s.outer x = some a)

theorem callee_step {T U V} {n : Nat} {name : Option String} {o : O} {so : Option Nat}
    (hb : ∀ o, s.made o = false → s.base o = none)
    (h : ∀ a, Calls s name so a → (∃ o k, U o k ∧ (Part w s o k a ∨ OfClass s o k a)) ∨ V a)
    (hf : ∀ a, s.next ≤ a → V a) : Step w T U V s (callee n name o so s) := by
  have key : ∀ a, calleeSym name so s = some a → Calls s name so a := by
    intro a ha
    unfold calleeSym at ha
    split at ha
    · exact .inl ha
    · rename_i x _
      refine .inr ⟨x, rfl, ?_⟩
      split at ha
      · rename_i b hb
        cases ha
        exact .inl hb
      · exact .inr ha
    · cases ha
  unfold callee
  cases hc : calleeSym name so s with
  | some a => exact load_step (h a (key a hc))
  | none => exact fresh_step.trans hb (load_step (.inr (hf _ (Nat.le_refl _))))

theorem save_step {T U V} {ev : Ev} {n : Nat} {name : Option String} {o : O} {k : Key} {so : Option Nat}
    (hb : ∀ o, s.made o = false → s.base o = none)
    (h : ∀ a, Calls s name so a → (∃ o k, U o k ∧ (Part w s o k a ∨ OfClass s o k a)) ∨ V a)
    (hf : ∀ a, s.next ≤ a → V a) : Step w T U V s (save ev n name o k so s) := by
  unfold save
  split
  · cases ev with
    | store => exact Step.of_eq rfl rfl rfl rfl rfl rfl rfl rfl
    | del => exact Step.of_eq rfl rfl rfl rfl rfl rfl rfl rfl
    | load => exact Step.of_eq rfl rfl rfl rfl rfl rfl rfl rfl
    | call =>
      have h1 : Step w T U V s { s with saved := some (o, k) } := Step.of_eq rfl rfl rfl rfl rfl rfl rfl rfl
      refine h1.trans hb (callee_step (s := { s with saved := some (o, k) }) hb ?_ hf)
      intro a ha
      refine (h a ha).imp ?_ id
      rintro ⟨o', k', g1, g2⟩
      exact ⟨o', k', g1, g2.imp (fun g => g.of_eq rfl) id⟩
  · exact .refl _ _ _ _ _

theorem OfClass.of_eq {o : O} {k : Key} {a : Nat} (h : OfClass s o k a) (h1 : s'.tab = s.tab) (h2 : s'.base = s.base) :
    OfClass s' o k a := by
  obtain ⟨c, x, g1, g2, g3⟩ := h
  exact ⟨c, x, by rw [h2]; exact g1, g2, by rw [h1]; exact g3⟩

theorem note_fields {n : Nat} {o : O} {sym : Option Nat} : (note n o sym s).tab = s.tab ∧ (note n o sym s).base = s.base ∧
    (note n o sym s).made = s.made ∧ (note n o sym s).vars = s.vars ∧ (note n o sym s).outer = s.outer ∧
    (note n o sym s).next = s.next ∧ (note n o sym s).top = some (s.top.getD n) ∧
    (note n o sym s).first = some (s.first.getD o) ∧ (note n o sym s).saved = s.saved ∧
    (note n o sym s).stores = s.stores ∧ (note n o sym s).dels = s.dels ∧ (note n o sym s).pend = s.pend := by
  unfold note
  cases sym <;> exact ⟨rfl, rfl, rfl, rfl, rfl, rfl, rfl, rfl, rfl, rfl, rfl, rfl⟩

theorem mkNs_fields {o : O} : (mkNs w o s).tab = s.tab ∧ (mkNs w o s).vars = s.vars ∧ (mkNs w o s).outer = s.outer ∧
    (mkNs w o s).next = s.next ∧ (mkNs w o s).top = s.top ∧ (mkNs w o s).first = s.first ∧ (mkNs w o s).saved = s.saved ∧
    (mkNs w o s).stores = s.stores ∧ (mkNs w o s).dels = s.dels ∧ (mkNs w o s).pend = s.pend ∧
    (mkNs w o s).obj = s.obj ∧ (mkNs w o s).loaded = s.loaded := by
  unfold mkNs
  split <;> exact ⟨rfl, rfl, rfl, rfl, rfl, rfl, rfl, rfl, rfl, rfl, rfl, rfl⟩

theorem recordUse_fields {ev : Ev} {so sym : Option Nat} {o : O} : (recordUse ev so sym o s).tab = s.tab ∧
    (recordUse ev so sym o s).base = s.base ∧
    (recordUse ev so sym o s).made = s.made ∧ (recordUse ev so sym o s).vars = s.vars ∧
    (recordUse ev so sym o s).outer = s.outer ∧ (recordUse ev so sym o s).next = s.next ∧
    (recordUse ev so sym o s).top = s.top ∧ (recordUse ev so sym o s).first = s.first ∧
    (recordUse ev so sym o s).saved = s.saved ∧ (recordUse ev so sym o s).stores = s.stores ∧
    (recordUse ev so sym o s).dels = s.dels ∧ (recordUse ev so sym o s).obj = s.obj ∧
    (recordUse ev so sym o s).loaded = s.loaded := by
  rw [recordUse_eq]
  exact ⟨rfl, rfl, rfl, rfl, rfl, rfl, rfl, rfl, rfl, rfl, rfl, rfl, rfl⟩

/-- The symbol of the object is that of the part entered before, or that of a variable. -/
theorem symFor_from {name : Option String} {o : O} {a : Nat} (hname : ∀ x, name = some x → s.active = none)
    (h : symFor w name (settle w s o) = some a) :
    (∃ o' k', s.saved = some (o', k') ∧ Part w (settle w s o).2 o' k' a) ∨ ∃ x, name = some x ∧ s.vars x = some a := by
  cases hs : s.saved with
  | some p =>
    obtain ⟨o', k'⟩ := p
    obtain ⟨b, h1, h2, _⟩ := settle_recorded (w := w) (v := o) hs
    unfold symFor at h
    rw [h1] at h
    cases h
    exact .inl ⟨o', k', rfl, h2⟩
  | none =>
    rw [settle_none hs] at h
    cases name with
    | none => cases h
    | some x =>
      refine .inr ⟨x, rfl, ?_⟩
      unfold symFor activeGet at h
      simp only [Option.bind_some, hname x rfl] at h
      exact h

theorem rest_step {T U V} {ev : Ev} {n : Nat} {name : Option String} {o : O} {k : Key}
    (hb : ∀ o, s.made o = false → s.base o = none) (hp : ∀ o k, s.saved = some (o, k) → Plain k)
    (hS : ∀ o' k', s.saved = some (o', k') → U o' k') (hU : U o k)
    (hname : (∀ a, V a) ∨ ∀ x, name = some x → s.active = none ∧ ∀ a, s.vars x = some a ∨ s.outer x = some a → V a)
    (hf : ∀ a, s.next ≤ a → V a) : Step w T U V (settle w s o).2 (rest w ev n name o k (settle w s o)) := by
  have hsf := settle_fields (w := w) (s := s) (v := o)
  have hst : Step w (Due s o) U V s (settle w s o).2 := settle_step hp hb
  have hb1 := hst.nobase hb
  have h2 : Step w T U V (settle w s o).2 (mkNs w o (settle w s o).2) := mkNs_step
  have hb2 := h2.nobase hb1
  obtain ⟨m1, m2, m3, m4, m5, m6, m7, m8, m9, m10⟩ := mkNs_fields (w := w) (s := (settle w s o).2) (o := o)
  generalize hso : symFor w name (settle w s o) = so at *
  unfold rest
  rw [hso]
  generalize hsym : partSym w (mkNs w o (settle w s o).2) so o k = sym
  obtain ⟨r1, r2, r3, r4, r5, r6, r7⟩ := recordUse_fields (ev := ev) (so := so) (sym := sym) (o := o) (s := mkNs w o (settle w s o).2)
  have h3 : Step w T U V (mkNs w o (settle w s o).2) (recordUse ev so sym o (mkNs w o (settle w s o).2)) := by
    rw [recordUse_eq]
    exact Step.of_eq rfl rfl rfl rfl rfl rfl rfl rfl
  have hb3 := h3.nobase hb2
  have h4 : Step w T U V (recordUse ev so sym o (mkNs w o (settle w s o).2))
      (note n o sym (recordUse ev so sym o (mkNs w o (settle w s o).2))) := by
    refine note_step hb3 hU ?_
    intro a ha
    subst ha
    exact (partSym_from hsym).imp (fun g => g.of_eq r1) (fun g => g.of_eq r1 r2)
  have hb4 := h4.nobase hb3
  obtain ⟨t1, t2, t3, t4, t5, t6, t7⟩ := note_fields (n := n) (o := o) (sym := sym)
    (s := recordUse ev so sym o (mkNs w o (settle w s o).2))
  have h5 : Step w T U V (note n o sym (recordUse ev so sym o (mkNs w o (settle w s o).2)))
      (save ev n name o k so (note n o sym (recordUse ev so sym o (mkNs w o (settle w s o).2)))) := by
    refine save_step hb4 ?_ ?_
    · intro a ha
      rcases hname with hV | hname
      · exact .inr (hV a)
      have hvar : ∀ x, name = some x → (s.vars x = some a ∨ s.outer x = some a) → V a := fun x hx g => (hname x hx).2 a g
      rcases ha with ha | ⟨x, hx, g⟩
      · rw [ha] at hso
        rcases symFor_from (fun x hx => (hname x hx).1) hso with ⟨o', k', g1, g2⟩ | ⟨x, g1, g2⟩
        · exact .inl ⟨o', k', hS _ _ g1, .inl (g2.of_eq (by rw [t1, r1, m1]))⟩
        · exact .inr (hvar x g1 (.inl g2))
      · rw [t4, t5, r4, r5, m2, m3, hsf.2.1, hsf.2.2.1] at g
        exact .inr (hvar x hx g)
    · intro a ha
      rw [t6, r6, m4] at ha
      exact hf a (Nat.le_trans hst.next ha)
  have h6 : Step w T U V (save ev n name o k so (note n o sym (recordUse ev so sym o (mkNs w o (settle w s o).2))))
      { save ev n name o k so (note n o sym (recordUse ev so sym o (mkNs w o (settle w s o).2))) with active := some o } :=
    Step.of_eq rfl rfl rfl rfl rfl rfl rfl rfl
  exact (((h2.trans hb1 h3).trans hb1 h4).trans hb1 h5).trans hb1 h6

theorem callee_fields {n : Nat} {name : Option String} {o : O} {so : Option Nat} :
    (callee n name o so s).saved = s.saved ∧ (callee n name o so s).first = s.first ∧
    (callee n name o so s).top = s.top := by
  unfold callee
  cases calleeSym name so s <;> exact ⟨rfl, rfl, rfl⟩

theorem save_first {ev : Ev} {n : Nat} {name : Option String} {o : O} {k : Key} {so : Option Nat} :
    (save ev n name o k so s).first = s.first ∧ (save ev n name o k so s).top = s.top := by
  unfold save
  split
  · cases ev with
    | call => exact ⟨callee_fields.2.1, callee_fields.2.2⟩
    | _ => exact ⟨rfl, rfl⟩
  · exact ⟨rfl, rfl⟩

theorem save_saved {ev : Ev} {n : Nat} {name : Option String} {o : O} {k : Key} {so : Option Nat} (hk : Plain k)
    (he : isLoad ev = true) : (save ev n name o k so s).saved = some (o, k) := by
  unfold save
  rw [if_pos (supported_iff.2 hk)]
  cases ev with
  | load => rfl
  | call => exact callee_fields.1
  | store => cases he
  | del => cases he

theorem rest_fields {ev : Ev} {n : Nat} {name : Option String} {o : O} {k : Key} :
    (rest w ev n name o k (settle w s o)).active = some o ∧ (rest w ev n name o k (settle w s o)).first = some (s.first.getD o) ∧
    (rest w ev n name o k (settle w s o)).top = some (s.top.getD n) := by
  have hsf := settle_fields (w := w) (s := s) (v := o)
  obtain ⟨m1, m2, m3, m4, m5, m6, m7⟩ := mkNs_fields (w := w) (s := (settle w s o).2) (o := o)
  unfold rest
  refine ⟨rfl, ?_, ?_⟩
  · refine (save_first.1).trans (note_fields.2.2.2.2.2.2.2.1.trans ?_)
    rw [recordUse_fields.2.2.2.2.2.2.2.1, m6, hsf.2.2.2.2.1]
  · refine (save_first.2).trans (note_fields.2.2.2.2.2.2.1.trans ?_)
    rw [recordUse_fields.2.2.2.2.2.2.1, m5, hsf.2.2.2.1]

theorem rest_saved {ev : Ev} {n : Nat} {name : Option String} {o : O} {k : Key} {p : Option Nat × St O} (hk : Plain k)
    (he : isLoad ev = true) : (rest w ev n name o k p).saved = some (o, k) := by
  unfold rest
  exact save_saved hk he

/-- A recorded part stays recorded as what it is. -/
theorem Recorded.step {T U V} {o : O} {k : Key} {u : O} (hw : Seq w) (hs : Wf s) (h : Step w T U V s s')
    (hT : ∀ o k v, T o k v → w.get o k = some v) (hg : w.get o k = some u) (hr : Recorded w s o k u) : Recorded w s' o k u := by
  obtain ⟨a, hp, ha⟩ := hr
  obtain ⟨k', ht⟩ := hp.tab
  refine ⟨a, h.part _ _ _ hp, ?_⟩
  rcases h.obj hs a (hs.old _ _ _ ht) with e | ⟨o', k', v, h1, h2, h3⟩
  · rw [e]; exact ha
  · rw [h3]
    exact h2.same hw (h.wf hs) (h.part _ _ _ hp) (hT _ _ _ h1) hg

/-- What one event does, when no part of `None` or the shell is read. -/
theorem link_fine {U V} {ev : Ev} {n : Nat} {name : Option String} {o : O} {k : Key}
    (hs : Wf s) (hb : ∀ o, s.made o = false → s.base o = none) (hp : ∀ o k, s.saved = some (o, k) → Plain k)
    (hS : ∀ o' k', s.saved = some (o', k') → U o' k') (hU : U o k)
    (hname : (∀ a, V a) ∨ ∀ x, name = some x → s.active = none ∧ ∀ a, s.vars x = some a ∨ s.outer x = some a → V a)
    (hf : ∀ a, s.next ≤ a → V a) (hskip : w.skip o = false) :
    Step w (Due s o) U V s (link w ev n name o k s) ∧
    (∀ o' k', s.saved = some (o', k') → Recorded w (link w ev n name o k s) o' k' o) ∧
    (Plain k → isLoad ev = true → (link w ev n name o k s).saved = some (o, k)) ∧
    (link w ev n name o k s).active = some o ∧ (link w ev n name o k s).first.isSome = true ∧
    (link w ev n name o k s).top = some (s.top.getD n) := by
  rw [link_eq hskip]
  have h1 : Step w (Due s o) U V s (settle w s o).2 := settle_step hp hb
  have h2 : Step w (Due s o) U V (settle w s o).2 (rest w ev n name o k (settle w s o)) := rest_step hb hp hS hU hname hf
  have h2' : Step w (fun _ _ _ => False) U V (settle w s o).2 (rest w ev n name o k (settle w s o)) :=
    rest_step hb hp hS hU hname hf
  obtain ⟨f1, f2, f3⟩ := rest_fields (w := w) (s := s) (ev := ev) (n := n) (name := name) (o := o) (k := k)
  refine ⟨h1.trans hb h2, ?_, fun hk he => rest_saved hk he, f1, by rw [f2]; rfl, f3⟩
  intro o' k' hsv
  obtain ⟨a, _, ha, hv⟩ := settle_recorded (w := w) (v := o) hsv
  refine ⟨a, h2'.part _ _ _ ha, ?_⟩
  obtain ⟨k1, ht⟩ := ha.tab
  rcases h2'.obj (h1.wf hs) a ((h1.wf hs).old _ _ _ ht) with e | ⟨_, _, _, e, _⟩
  · rw [e]; exact hv
  · exact e.elim

theorem finish_some {v : O} {n : Nat} {o : O} {k : Key} (h1 : s.first.isSome = true) (h2 : s.top = some n)
    (h3 : s.saved = some (o, k)) : ∃ a, (settle w s v).1 = some a ∧ finish w v s = reset (load (settle w s v).2 n a) := by
  obtain ⟨a, ha, _⟩ := settle_recorded (w := w) (v := v) h3
  refine ⟨a, ha, ?_⟩
  unfold finish
  rw [if_neg (by cases h : s.first <;> simp_all)]
  simp only [ha, h2]

theorem finish_none {v : O} (h3 : s.saved = none) : finish w v s = reset s := by
  unfold finish
  split
  · rfl
  · rw [settle_none h3]

theorem reset_step {T U V} : Step w T U V s (reset s) := Step.of_eq rfl rfl rfl rfl rfl rfl rfl rfl

/-- The end of an expression. -/
theorem finish_fine {U V} {v : O} (hb : ∀ o, s.made o = false → s.base o = none)
    (hp : ∀ o k, s.saved = some (o, k) → Plain k) (hS : ∀ o' k', s.saved = some (o', k') → U o' k')
    (h1 : s.first.isSome = true) (h2 : ∃ n, s.top = some n) :
    Step w (Due s v) U V s (finish w v s) ∧ Clean (finish w v s) ∧
    ∀ o k, s.saved = some (o, k) → ∃ a, Part w (finish w v s) o k a ∧ (finish w v s).obj a = v ∧
      ∀ n, s.top = some n → a ∈ (finish w v s).loaded n := by
  obtain ⟨n, hn⟩ := h2
  cases hsv : s.saved with
  | none =>
    rw [finish_none hsv]
    exact ⟨reset_step, ⟨rfl, rfl, rfl, rfl⟩, fun _ _ h => nomatch h⟩
  | some p =>
    obtain ⟨o, k⟩ := p
    obtain ⟨a, ha, e⟩ := finish_some (w := w) (v := v) h1 hn hsv
    obtain ⟨b, hb1, hb2, hb3⟩ := settle_recorded (w := w) (v := v) hsv
    rw [ha] at hb1
    cases hb1
    rw [e]
    have h1 : Step w (Due s v) U V s (settle w s v).2 := settle_step hp hb
    refine ⟨?_, ⟨rfl, rfl, rfl, rfl⟩, ?_⟩
    · exact (h1.trans hb (load_step (.inl ⟨o, k, hS _ _ hsv, .inl hb2⟩))).trans hb reset_step
    · rintro o' k' ⟨rfl, rfl⟩
      refine ⟨a, hb2.of_eq rfl, hb3, ?_⟩
      intro m hm
      rw [hn] at hm
      cases hm
      show a ∈ (load (settle w s v).2 n a).loaded n
      have e : (load (settle w s v).2 n a).loaded n = (settle w s v).2.loaded n ++ [a] := put_self _ _ _
      rw [e]
      simp

/-! ### Whole expressions -/

theorem Val.det {e : Exp} {v v' : O} (h : Val w e v) (h' : Val w e v') : v = v' := by
  induction h generalizing v' with
  | var h => cases h' with | var h' => rw [h] at h'; exact Option.some.inj h'
  | part _ g ih =>
    cases h' with
    | part h1 g' => cases ih h1; rw [g] at g'; exact Option.some.inj g'
  | item _ _ g ih1 ih2 =>
    cases h' with
    | item h1 h2 g' => cases ih1 h1; cases ih2 h2; rw [g] at g'; exact Option.some.inj g'
  | call _ g1 g ih =>
    cases h' with
    | call h1 _ g' => cases ih h1; rw [g] at g'; exact Option.some.inj g'

theorem Reads.get {e : Exp} {o v : O} {k : Key} (h : Reads w e o k v) : w.get o k = some v := by
  induction h with
  | part _ h => exact h
  | item _ _ h => exact h
  | partIn _ ih => exact ih
  | itemObj _ ih => exact ih
  | itemIdx _ ih => exact ih
  | callIn _ ih => exact ih

theorem Reads.asks {e : Exp} {o v : O} {k : Key} (h : Reads w e o k v) : Asks w e o k := by
  induction h with
  | part h _ => exact .part h
  | item h h' _ => exact .item h h'
  | partIn _ ih => exact .partIn ih
  | itemObj _ ih => exact .itemObj ih
  | itemIdx _ ih => exact .itemIdx ih
  | callIn _ ih => exact .callIn ih

/-- The symbols of variables of the expression, and those that do not exist yet. -/
def Named (e : Exp) (s : St O) (a : Nat) : Prop :=
  (∃ x, Occurs x e ∧ (s.vars x = some a ∨ s.outer x = some a)) ∨ s.next ≤ a

/-- What holds when the expression has been evaluated, before the end of the chain. -/
structure Mid (w : World O) (n : Nat) (e : Exp) (v : O) (s s1 : St O) : Prop where
  step : Step w (Reads w e) (Asks w e) (Named e s) s s1
  done : ∀ o k u, Reads w e o k u → Recorded w s1 o k u ∨ (s1.saved = some (o, k) ∧ u = v)
  due : ∀ o k, s1.saved = some (o, k) → Reads w e o k v
  idle : (∃ x, e = .var x) ∨ (∃ e' k, e = .call e' k) → s1.saved = none ∧ s1.active = none
  first : Compound e → s1.first.isSome = true ∧ ∃ m, s1.top = some m
  top : Compound e → s.top = none ∨ s.top = some n → s1.top = some n
  last : ∀ o k, Last w e o k → s1.saved = some (o, k)
  same : ∀ x, e = .var x → s1 = s

theorem nameOf_var {e : Exp} {x : String} (h : nameOf e = some x) : e = .var x := by
  cases e <;> cases h
  rfl

/-- One more part, `ev` being a load: `s1` is the state when the object and the index have been evaluated. -/
theorem mid_link {e e' : Exp} {n : Nat} {o v : O} {k : Key} {ev : Ev} {s1 : St O} (hw : Seq w) (hs : Wf s)
    (hb : ∀ o, s.made o = false → s.base o = none)
    (hR : ∀ o' k' u, Reads w e' o' k' u → Recorded w s1 o' k' u ∨ (s1.saved = some (o', k') ∧ u = o) ∨
      (o' = o ∧ k' = k ∧ u = v ∧ ev = .load))
    (hst : Step w (Reads w e') (Asks w e') (Named e' s) s s1) (hdue : ∀ o' k', s1.saved = some (o', k') → Reads w e' o' k' o)
    (hfine : Fine w e') (hask : Asks w e' o k) (hev : isLoad ev = true)
    (hname : ∀ x, nameOf e = some x → s1.active = none ∧ Occurs x e') :
    Step w (Reads w e') (Asks w e') (Named e' s) s (link w ev n (nameOf e) o k s1) ∧
    (∀ o' k' u, Reads w e' o' k' u → Recorded w (link w ev n (nameOf e) o k s1) o' k' u ∨
      (o' = o ∧ k' = k ∧ u = v ∧ ev = .load)) ∧
    (link w ev n (nameOf e) o k s1).saved = some (o, k) ∧ (link w ev n (nameOf e) o k s1).first.isSome = true ∧
    (link w ev n (nameOf e) o k s1).top = some (s1.top.getD n) := by
  have hs1 := hst.wf hs
  have hb1 := hst.nobase hb
  obtain ⟨g1, g2, g3, _, g5, g6⟩ := link_fine (w := w) (s := s1) (U := Asks w e') (V := Named e' s) (ev := ev) (n := n)
    (name := nameOf e) (o := o) (k := k) hs1 hb1 (fun o' k' h => (hfine _ _ (hdue _ _ h).asks).2)
    (fun o' k' h => (hdue _ _ h).asks) hask
    (by
      refine .inr ?_
      intro x hx
      refine ⟨(hname x hx).1, fun a ha => .inl ⟨x, (hname x hx).2, ?_⟩⟩
      rw [hst.vars, hst.outer] at ha
      exact ha)
    (fun a ha => .inr (Nat.le_trans hst.next ha)) (hfine _ _ hask).1
  have hg : ∀ o' k' u, Due s1 o o' k' u → Reads w e' o' k' u := by
    rintro o' k' u ⟨h1, rfl⟩
    exact hdue _ _ h1
  have g1' := g1.mono hg (fun _ _ h => h) (fun _ h => h)
  refine ⟨hst.trans hb g1', ?_, g3 (hfine _ _ hask).2 hev, g5, g6⟩
  intro o' k' u hr
  rcases hR o' k' u hr with h | ⟨h, rfl⟩ | h
  · exact .inl (h.step hw hs1 g1' (fun _ _ _ h => h.get) hr.get)
  · exact .inl (g2 _ _ h)
  · exact .inr h

theorem run_fine (hw : Seq w) {e : Exp} : ∀ {n : Nat} {v : O} {s : St O}, Safe e → Fine w e → Wf s →
    (∀ o, s.made o = false → s.base o = none) → s.saved = none → s.active = none → Val w e v →
    ∃ s1, run w n e s = (some v, s1) ∧ Mid w n e v s s1 := by
  induction e with
  | var x =>
    intro n v s _ _ _ _ hsv hac hv
    cases hv with
    | var hv =>
      refine ⟨s, by simp [run, hv], .refl _ _ _ _ _, ?_, ?_, fun _ => ⟨hsv, hac⟩, fun h => h.elim, fun h => h.elim, ?_, fun _ _ => rfl⟩
      · intro o k u h; nomatch h
      · intro o k h; rw [hsv] at h; cases h
      · intro o k h; nomatch h
  | part e k ih =>
    intro n v s hsafe hfine hs hb hsv hac hv
    cases hv with
    | @part _ _ o _ hv hg =>
      obtain ⟨s1, hrun, m⟩ := ih (n := n) hsafe (fun o k h => hfine o k (.partIn h)) hs hb hsv hac hv
      have hst := m.step.mono (T' := Reads w (.part e k)) (U' := Asks w (.part e k)) (V' := Named (.part e k) s)
        (fun _ _ _ h => .partIn h) (fun _ _ h => .partIn h) (fun a h => h.imp (fun ⟨x, h1, h2⟩ => ⟨x, .part h1, h2⟩) id)
      obtain ⟨g1, g2, g3, g5, g6⟩ := mid_link (e := e) (e' := .part e k) (n := n) (o := o) (v := v) (k := k) (ev := .load)
        hw hs hb
        (by
          intro o' k' u hr
          cases hr with
          | part h1 h2 =>
            cases hv.det h1
            rw [hg] at h2
            cases h2
            exact .inr (.inr ⟨rfl, rfl, rfl, rfl⟩)
          | partIn h => exact (m.done _ _ _ h).imp id .inl)
        hst (fun o' k' h => .partIn (m.due _ _ h)) hfine (.part hv) rfl
        (by
          intro x hx
          have := nameOf_var hx
          exact ⟨(m.idle (.inl ⟨x, this⟩)).2, this ▸ .part .var⟩)
      refine ⟨_, by simp only [run, hrun, hg], g1, ?_, ?_, ?_, ?_, ?_, ?_, ?_⟩
      · intro o' k' u hr
        refine (g2 o' k' u hr).imp id ?_
        rintro ⟨rfl, rfl, rfl, _⟩
        exact ⟨g3, rfl⟩
      · intro o' k' h
        rw [g3] at h
        cases h
        exact .part hv hg
      · rintro (⟨x, h⟩ | ⟨_, _, h⟩) <;> cases h
      · intro _; exact ⟨g5, _, g6⟩
      · intro _ ht
        rw [g6]
        cases e with
        | var x => rw [m.same x rfl]; rcases ht with h | h <;> rw [h] <;> rfl
        | _ => rw [m.top trivial ht]; rfl
      · intro o' k' h
        cases h with
        | part h => cases hv.det h; exact g3
      · intro x h; cases h
  | call e k ih =>
    intro n v s hsafe hfine hs hb hsv hac hv
    cases hv with
    | @call _ _ o f _ hv hg hret =>
      obtain ⟨s1, hrun, m⟩ := ih (n := n) hsafe (fun o k h => hfine o k (.callIn h)) hs hb hsv hac hv
      have hst := m.step.mono (T' := Reads w (.call e k)) (U' := Asks w (.call e k)) (V' := Named (.call e k) s)
        (fun _ _ _ h => .callIn h) (fun _ _ h => .callIn h) (fun a h => h.imp (fun ⟨x, h1, h2⟩ => ⟨x, .call h1, h2⟩) id)
      obtain ⟨g1, g2, g3, g5, g6⟩ := mid_link (e := e) (e' := .call e k) (n := n) (o := o) (v := v) (k := k) (ev := .call)
        hw hs hb
        (by
          intro o' k' u hr
          cases hr with
          | callIn h => exact (m.done _ _ _ h).imp id .inl)
        hst (fun o' k' h => .callIn (m.due _ _ h)) hfine (.call hv) rfl
        (by
          intro x hx
          have := nameOf_var hx
          exact ⟨(m.idle (.inl ⟨x, this⟩)).2, this ▸ .call .var⟩)
      have hbc : Step w (Reads w (.call e k)) (Asks w (.call e k)) (Named (.call e k) s)
          (link w .call n (nameOf e) o k s1) (beforeCall (link w .call n (nameOf e) o k s1)) :=
        Step.of_eq rfl rfl rfl rfl rfl rfl rfl rfl
      refine ⟨beforeCall (link w .call n (nameOf e) o k s1), by simp only [run, hrun, hg, hret], g1.trans hb hbc, ?_, ?_, ?_, ?_, ?_, ?_, ?_⟩
      · intro o' k' u hr
        rcases g2 o' k' u hr with h | h
        · obtain ⟨a, h1, h2⟩ := h
          exact .inl ⟨a, h1.of_eq rfl, h2⟩
        · cases h.2.2.2
      · intro o' k' h; cases h
      · intro _; exact ⟨rfl, rfl⟩
      · intro _; exact ⟨g5, _, g6⟩
      · intro _ ht
        show (link w .call n (nameOf e) o k s1).top = some n
        rw [g6]
        cases e with
        | var x => rw [m.same x rfl]; rcases ht with h | h <;> rw [h] <;> rfl
        | _ => rw [m.top trivial ht]; rfl
      · intro o' k' h; nomatch h
      · intro x h; cases h
  | item e mm i ihe ihi =>
    intro n v s hsafe hfine hs hb hsv hac hv
    obtain ⟨se, si, hsafe⟩ := hsafe
    cases hv with
    | @item _ _ _ o j _ hv hi hg =>
      obtain ⟨s1, hrun, m⟩ := ihe (n := n) se (fun o k h => hfine o k (.itemObj h)) hs hb hsv hac hv
      have hst := m.step.mono (T' := Reads w (.item e mm i)) (U' := Asks w (.item e mm i)) (V' := Named (.item e mm i) s)
        (fun _ _ _ h => .itemObj h) (fun _ _ h => .itemObj h) (fun a h => h.imp (fun ⟨x, h1, h2⟩ => ⟨x, .itemObj h1, h2⟩) id)
      -- the state after the index, and what is due then
      have key : ∃ s3, (match run w mm i s1 with
          | (some j', s2) => (w.get o (.sub (w.idx j')), link w .load n (nameOf e) o (.sub (w.idx j')) (close w i j' s2))
          | (none, s2) => (none, s2)) = (w.get o (.sub (w.idx j)), link w .load n (nameOf e) o (.sub (w.idx j)) s3) ∧
          Step w (Reads w (.item e mm i)) (Asks w (.item e mm i)) (Named (.item e mm i) s) s s3 ∧
          (∀ o' k' u, Reads w e o' k' u ∨ Reads w i o' k' u → Recorded w s3 o' k' u ∨ (s3.saved = some (o', k') ∧ u = o)) ∧
          (∀ o' k', s3.saved = some (o', k') → Reads w e o' k' o) ∧
          (∀ x, e = .var x → s3.active = none) ∧
          (s.top = none ∨ s.top = some n → s3.top.getD n = n) := by
        by_cases hvar : ∃ x, i = .var x
        · obtain ⟨x, rfl⟩ := hvar
          cases hi with
          | var hi =>
            refine ⟨s1, by simp only [run, hi, close], hst, ?_, m.due, fun x h => (m.idle (.inl ⟨x, h⟩)).2, ?_⟩
            · rintro o' k' u (h | h)
              · exact m.done _ _ _ h
              · nomatch h
            · intro ht
              cases e with
              | var x => rw [m.same x rfl]; rcases ht with h | h <;> rw [h] <;> rfl
              | _ => rw [m.top trivial ht]; rfl
        · have hidle := m.idle (hsafe.resolve_left hvar)
          obtain ⟨s2, hrun2, m2⟩ := ihi (n := mm) si (fun o k h => hfine o k (.itemIdx h)) (m.step.wf hs) (m.step.nobase hb)
            hidle.1 hidle.2 hi
          have hcomp : Compound i := by
            cases i with
            | var x => exact absurd ⟨x, rfl⟩ hvar
            | _ => trivial
          have hst2 := m2.step.mono (T' := Reads w (.item e mm i)) (U' := Asks w (.item e mm i)) (V' := Named (.item e mm i) s)
            (fun _ _ _ h => .itemIdx h) (fun _ _ h => .itemIdx h) (by
              intro a ha
              rcases ha with ⟨x, h1, h2⟩ | h
              · rw [hst.vars, hst.outer] at h2
                exact .inl ⟨x, .itemIdx h1, h2⟩
              · exact .inr (Nat.le_trans hst.next h))
          have hst12 := hst.trans hb hst2
          obtain ⟨f1, f2, f3⟩ := finish_fine (w := w) (s := s2) (v := j) (U := Asks w (.item e mm i)) (V := Named (.item e mm i) s)
            (hst12.nobase hb) (fun o' k' h => (hfine _ _ (.itemIdx (m2.due _ _ h).asks)).2)
            (fun o' k' h => .itemIdx (m2.due _ _ h).asks) (m2.first hcomp).1 (m2.first hcomp).2
          have f1' := f1.mono (T' := Reads w (.item e mm i)) (by
            rintro o' k' u ⟨h1, rfl⟩
            exact .itemIdx (m2.due _ _ h1)) (fun _ _ h => h) (fun _ h => h)
          refine ⟨finish w j s2, ?_, hst12.trans hb f1', ?_, ?_, fun _ _ => f2.active, fun _ => by rw [f2.top]; rfl⟩
          · rw [hrun2]
            cases i with
            | var x => exact absurd ⟨x, rfl⟩ hvar
            | _ => rfl
          · rintro o' k' u (h | h)
            · rcases m.done _ _ _ h with g | g
              · exact .inl ((g.step hw (hst.wf hs) hst2 (fun _ _ _ h => h.get) h.get).step hw (hst12.wf hs) f1'
                  (fun _ _ _ h => h.get) h.get)
              · rw [hidle.1] at g; cases g.1
            · rcases m2.done _ _ _ h with g | ⟨g, rfl⟩
              · exact .inl (g.step hw (hst12.wf hs) f1' (fun _ _ _ h => h.get) h.get)
              · obtain ⟨a, h1, h2, _⟩ := f3 _ _ g
                exact .inl ⟨a, h1, h2⟩
          · intro o' k' h; rw [f2.saved] at h; cases h
      obtain ⟨s3, hrun3, hst3, hdone3, hdue3, hact3, htop3⟩ := key
      obtain ⟨g1, g2, g3, g5, g6⟩ := mid_link (e := e) (e' := .item e mm i) (n := n) (o := o) (v := v) (k := .sub (w.idx j))
        (ev := .load) hw hs hb
        (by
          intro o' k' u hr
          cases hr with
          | item h1 h2 h3 =>
            cases hv.det h1
            cases hi.det h2
            rw [hg] at h3
            cases h3
            exact .inr (.inr ⟨rfl, rfl, rfl, rfl⟩)
          | itemObj h => exact (hdone3 _ _ _ (.inl h)).imp id .inl
          | itemIdx h => exact (hdone3 _ _ _ (.inr h)).imp id .inl)
        hst3 (fun o' k' h => .itemObj (hdue3 _ _ h)) hfine (.item hv hi) rfl
        (by
          intro x hx
          have := nameOf_var hx
          exact ⟨hact3 x this, this ▸ .itemObj .var⟩)
      refine ⟨link w .load n (nameOf e) o (.sub (w.idx j)) s3, ?_, g1, ?_, ?_, ?_, ?_, ?_, ?_, ?_⟩
      · rw [← hg, ← hrun3]
        simp only [run, hrun]
        rfl
      · intro o' k' u hr
        refine (g2 o' k' u hr).imp id ?_
        rintro ⟨rfl, rfl, rfl, _⟩
        exact ⟨g3, rfl⟩
      · intro o' k' h
        rw [g3] at h
        cases h
        exact .item hv hi hg
      · rintro (⟨x, h⟩ | ⟨_, _, h⟩) <;> cases h
      · intro _; exact ⟨g5, _, g6⟩
      · intro _ ht
        rw [g6, htop3 ht]
      · intro o' k' h
        cases h with
        | item h h' => cases hv.det h; cases hi.det h'; exact g3
      · intro x h; cases h

theorem close_compound {e : Exp} {v : O} (h : Compound e) : close w e v s = finish w v s := by
  cases e with
  | var x => exact h.elim
  | _ => rfl

/-- What holds at the end. -/
theorem eval_fine (hw : Seq w) {e : Exp} {n : Nat} {v : O} (hsafe : Safe e) (hfine : Fine w e) (hc : Compound e) (hs : Wf s)
    (hb : ∀ o, s.made o = false → s.base o = none) (hcl : Clean s) (hv : Val w e v) :
    ∃ s', eval w n e s = (some v, s') ∧ Step w (Reads w e) (Asks w e) (Named e s) s s' ∧ Clean s' ∧
      (∀ o k u, Reads w e o k u → Recorded w s' o k u) ∧ ∀ o k, Last w e o k → ∃ a, Part w s' o k a ∧ a ∈ s'.loaded n := by
  obtain ⟨s1, hrun, m⟩ := run_fine hw (n := n) hsafe hfine hs hb hcl.saved hcl.active hv
  obtain ⟨f1, f2, f3⟩ := finish_fine (w := w) (s := s1) (v := v) (U := Asks w e) (V := Named e s) (m.step.nobase hb)
    (fun o' k' h => (hfine _ _ (m.due _ _ h).asks).2) (fun o' k' h => (m.due _ _ h).asks) (m.first hc).1 (m.first hc).2
  have f1' := f1.mono (T' := Reads w e) (by
    rintro o' k' u ⟨h1, rfl⟩
    exact m.due _ _ h1) (fun _ _ h => h) (fun _ h => h)
  refine ⟨finish w v s1, by simp only [eval, hrun, close_compound hc], m.step.trans hb f1', f2, ?_, ?_⟩
  · intro o k u h
    rcases m.done _ _ _ h with g | ⟨g, rfl⟩
    · exact g.step hw (m.step.wf hs) f1' (fun _ _ _ h => h.get) h.get
    · obtain ⟨a, h1, h2, _⟩ := f3 _ _ g
      exact ⟨a, h1, h2⟩
  · intro o k h
    obtain ⟨a, h1, _, h3⟩ := f3 o k (m.last o k h)
    exact ⟨a, h1, h3 n (m.top hc (.inl hcl.top))⟩

/-! ### Without conditions -/

theorem finish_clean {v : O} : Clean (finish w v s) := by
  unfold finish
  split
  · exact ⟨rfl, rfl, rfl, rfl⟩
  · simp only
    split <;> exact ⟨rfl, rfl, rfl, rfl⟩

/-- Values are those of Python. -/
theorem run_val {e : Exp} {n : Nat} {v : O} : ∀ {s s1 : St O}, run w n e s = (some v, s1) → Val w e v := by
  induction e generalizing n v with
  | var x =>
    intro s s1 h
    simp only [run, Prod.mk.injEq] at h
    exact .var h.1
  | part e k ih =>
    intro s s1 h
    simp only [run] at h
    split at h
    · rename_i o s2 hr
      simp only [Prod.mk.injEq] at h
      exact .part (ih hr) h.1
    · cases h
  | call e k ih =>
    intro s s1 h
    simp only [run] at h
    split at h
    · rename_i o s2 hr
      split at h
      · rename_i f hf
        simp only [Prod.mk.injEq] at h
        exact .call (ih hr) hf h.1
      · cases h
    · cases h
  | item e m i ihe ihi =>
    intro s s1 h
    simp only [run] at h
    split at h
    · rename_i o s2 hr
      split at h
      · rename_i j s3 hr2
        simp only [Prod.mk.injEq] at h
        exact .item (ihe hr) (ihi hr2) h.1
      · cases h
    · cases h

/-! ### Parts recorded as something else -/

/-- The symbol of an attribute is found where it is. -/
theorem Part.attr_here {o : O} {a : String} {c : Nat} (h : Part w s o (.attr a) c) : s.tab o (.attr a) = some c := by
  cases h with
  | here h => exact h

theorem Part.of_attr {o o' : O} {k : Key} {a : String} {c : Nat} (hs : Wf s) (h : Part w s o (.attr a) c) (h' : Part w s o' k c) :
    o' = o ∧ k = .attr a := by
  cases h' with
  | here h' => exact hs.one _ _ _ _ _ h' h.attr_here
  | fromEnd _ _ _ h' => cases (hs.one _ _ _ _ _ h' h.attr_here).2

/-- What an attribute is recorded as stays when other parts are entered. -/
theorem Recorded.keep {T U V} {o u : O} {a : String} (hs : Wf s) (h : Step w T U V s s')
    (hT : ∀ o' k' v', T o' k' v' → ¬ (o' = o ∧ k' = .attr a)) (hr : Recorded w s o (.attr a) u) : Recorded w s' o (.attr a) u := by
  obtain ⟨c, hp, hc⟩ := hr
  refine ⟨c, h.part _ _ _ hp, ?_⟩
  rcases h.obj hs c (hs.old _ _ _ hp.attr_here) with e | ⟨o', k', v', h1, h2, _⟩
  · rw [e]; exact hc
  · exact absurd (Part.of_attr (h.wf hs) (h.part _ _ _ hp) h2) (hT _ _ _ h1)

/-- One event, whatever counts as loaded. -/
theorem link_any {ev : Ev} {n : Nat} {name : Option String} {o : O} {k : Key} (hs : Wf s)
    (hb : ∀ o, s.made o = false → s.base o = none) (hp : ∀ o k, s.saved = some (o, k) → Plain k) (hskip : w.skip o = false) :
    Step w (Due s o) (fun _ _ => True) (fun _ => True) s (link w ev n name o k s) ∧
    (∀ o' k', s.saved = some (o', k') → Recorded w (link w ev n name o k s) o' k' o) ∧
    (Plain k → isLoad ev = true → (link w ev n name o k s).saved = some (o, k)) ∧
    (link w ev n name o k s).active = some o ∧ (link w ev n name o k s).first.isSome = true ∧
    (link w ev n name o k s).top = some (s.top.getD n) :=
  link_fine hs hb hp (fun _ _ _ => trivial) trivial (.inl fun _ => trivial) (fun _ _ => trivial) hskip

theorem finish_any {v : O} (hb : ∀ o, s.made o = false → s.base o = none) (hp : ∀ o k, s.saved = some (o, k) → Plain k)
    (h1 : s.first.isSome = true) (h2 : ∃ n, s.top = some n) :
    Step w (Due s v) (fun _ _ => True) (fun _ => True) s (finish w v s) ∧ Clean (finish w v s) ∧
    ∀ o k, s.saved = some (o, k) → ∃ a, Part w (finish w v s) o k a ∧ (finish w v s).obj a = v ∧
      ∀ n, s.top = some n → a ∈ (finish w v s).loaded n :=
  finish_fine hb hp (fun _ _ _ => trivial) h1 h2

/-- If an expression `y.b` is evaluated while part `a` of `ox` is waited for, that part is recorded as the object of `y`. -/
theorem stale {m : Nat} {y a b : String} {ox oy j : O} (hs : Wf s) (hb : ∀ o, s.made o = false → s.base o = none)
    (hsv : s.saved = some (ox, .attr a)) (hy : w.val y = some oy) (hj : w.get oy (.attr b) = some j)
    (hk : w.skip oy = false) (hne : ¬ (oy = ox ∧ b = a)) :
    ∃ s', eval w m (.part (.var y) (.attr b)) s = (some j, s') ∧
      Step w (fun o k _ => (o = ox ∧ k = .attr a) ∨ (o = oy ∧ k = .attr b)) (fun _ _ => True) (fun _ => True) s s' ∧
      Clean s' ∧ Recorded w s' ox (.attr a) oy := by
  have hp : ∀ o k, s.saved = some (o, k) → Plain k := by
    intro o k h; rw [hsv] at h; cases h; exact .attr a
  obtain ⟨g1, g2, g3, g4, g5, g6⟩ := link_any (w := w) (ev := .load) (n := m) (name := some y) (k := .attr b) hs hb hp hk
  have hsv2 := g3 (.attr b) rfl
  obtain ⟨f1, f2, _⟩ := finish_any (w := w) (v := j) (g1.nobase hb)
    (by intro o k h; rw [hsv2] at h; cases h; exact .attr b) g5 ⟨_, g6⟩
  refine ⟨finish w j (link w .load m (some y) oy (.attr b) s), ?_, ?_, f2, ?_⟩
  · simp only [eval, run, hy, hj, nameOf, close]
  · refine (g1.mono ?_ (fun _ _ h => h) (fun _ h => h)).trans hb (f1.mono ?_ (fun _ _ h => h) (fun _ h => h))
    · rintro o k u ⟨h, _⟩
      rw [hsv] at h; cases h; exact .inl ⟨rfl, rfl⟩
    · rintro o k u ⟨h, _⟩
      rw [hsv2] at h; cases h; exact .inr ⟨rfl, rfl⟩
  · refine (g2 _ _ hsv).keep (g1.wf hs) f1 ?_
    rintro o k u ⟨h, _⟩ ⟨h1, h2⟩
    rw [hsv2] at h
    cases h
    cases h2
    exact hne ⟨h1, rfl⟩

/-- The event at the start of an expression. -/
theorem link_start {ev : Ev} {n : Nat} {x : String} {o : O} {k : Key} (hcl : Clean s) (hskip : w.skip o = false) :
    link w ev n (some x) o k s = rest w ev n (some x) o k (none, s) := by
  rw [link_eq hskip, settle_none hcl.saved]

theorem symFor_start {x : String} (hcl : Clean s) : symFor w (some x) (none, s) = s.vars x := by
  simp [symFor, activeGet, hcl.active]

/-- No symbol is found for a part with an unsupported index. -/
theorem lookAll_odd {o : O} {k : Key} (hs : Wf s) (hk : ¬ Plain k) : lookAll w s o k = none := by
  have ht : s.tab o k = none := by
    cases e : s.tab o k with
    | none => rfl
    | some a => exact absurd (hs.plain _ _ _ e) hk
  match k with
  | .attr a => exact absurd (.attr a) hk
  | .sub (.int i) => exact absurd (.int i) hk
  | .sub (.str i) => exact absurd (.str i) hk
  | .sub (.other m ok) => simp [lookAll, look, ht, other, classLook]

theorem recordUse_none {so : Option Nat} {o : O} : recordUse .load so none o s = s := by
  unfold recordUse
  split
  · split
    · simp [usage]
    · rfl
  · rfl

theorem partSym_none {so : Option Nat} {o : O} {k : Key} (h : lookAll w s o k = none) : partSym w s so o k = none := by
  unfold partSym
  split
  · split
    · exact h
    · rfl
  · rfl

/-- A load of a part of which nothing is known. -/
theorem rest_unknown {n : Nat} {name : Option String} {o : O} {k : Key} {p : Option Nat × St O}
    (h : partSym w (mkNs w o p.2) (symFor w name p) o k = none) :
    rest w .load n name o k p = { save .load n name o k (symFor w name p) { mkNs w o p.2 with
      top := some ((mkNs w o p.2).top.getD n)
      first := some ((mkNs w o p.2).first.getD o) } with active := some o } := by
  unfold rest
  rw [h, recordUse_none]
  rfl

end Verif.Chain
