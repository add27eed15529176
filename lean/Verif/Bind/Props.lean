import Verif.Bind.Spec

/-! # C100, C102: which bindings are recorded for a statement -/

namespace Verif.Bind

variable {X N : Type}

theorem Within.occurs {e : E X N} {n x v} (h : Within e n x v) : Occurs e n x v := by
  induction h with
  | here => exact .here
  | inside _ ih => exact .inside ih
  | left _ ih => exact .left ih
  | right _ ih => exact .right ih
  | node _ ih => exact .node ih
  | defaults _ ih => exact .defaults ih

theorem mem_edgesE {e : E X N} {d : Edge X N} : d ∈ edgesE e ↔ ∃ n x v, Occurs e n x v ∧ d = .tgt (.name x) v := by
  induction e with
  | nil => simp only [edgesE, List.not_mem_nil, false_iff]; rintro ⟨n, x, v, h, _⟩; cases h
  | var y => simp only [edgesE, List.not_mem_nil, false_iff]; rintro ⟨n, x, v, h, _⟩; cases h
  | node e ih =>
    simp only [edgesE, ih]
    constructor
    · rintro ⟨n, x, v, h, rfl⟩; exact ⟨n, x, v, .node h, rfl⟩
    · rintro ⟨n, x, v, h, rfl⟩; cases h with | node h => exact ⟨n, x, v, h, rfl⟩
  | pair a b iha ihb =>
    simp only [edgesE, List.mem_append, iha, ihb]
    constructor
    · rintro (⟨n, x, v, h, rfl⟩ | ⟨n, x, v, h, rfl⟩)
      · exact ⟨n, x, v, .left h, rfl⟩
      · exact ⟨n, x, v, .right h, rfl⟩
    · rintro ⟨n, x, v, h, rfl⟩
      cases h with
      | left h => exact .inl ⟨n, x, v, h, rfl⟩
      | right h => exact .inr ⟨n, x, v, h, rfl⟩
  | lam a b iha ihb =>
    simp only [edgesE, List.mem_append, iha, ihb]
    constructor
    · rintro (⟨n, x, v, h, rfl⟩ | ⟨n, x, v, h, rfl⟩)
      · exact ⟨n, x, v, .defaults h, rfl⟩
      · exact ⟨n, x, v, .body h, rfl⟩
    · rintro ⟨n, x, v, h, rfl⟩
      cases h with
      | defaults h => exact .inl ⟨n, x, v, h, rfl⟩
      | body h => exact .inr ⟨n, x, v, h, rfl⟩
  | named m y w ih =>
    simp only [edgesE, List.mem_cons, ih]
    constructor
    · rintro (rfl | ⟨n, x, v, h, rfl⟩)
      · exact ⟨m, y, w, .here, rfl⟩
      · exact ⟨n, x, v, .inside h, rfl⟩
    · rintro ⟨n, x, v, h, rfl⟩
      cases h with
      | here => exact .inl rfl
      | inside h => exact .inr ⟨n, x, v, h, rfl⟩

theorem No.edgesE {e : E X N} (h : No e) : edgesE e = [] := by
  rw [List.eq_nil_iff_forall_not_mem]
  intro d hd
  obtain ⟨n, x, v, ho, _⟩ := mem_edgesE.1 hd
  exact h n x v ho

theorem hasE_iff {e : E X N} : hasE e = true ↔ ∃ n x v, Occurs e n x v := by
  induction e with
  | nil => simp only [hasE, Bool.false_eq_true, false_iff]; rintro ⟨n, x, v, h⟩; cases h
  | var y => simp only [hasE, Bool.false_eq_true, false_iff]; rintro ⟨n, x, v, h⟩; cases h
  | node e ih =>
    simp only [hasE, ih]
    constructor
    · rintro ⟨n, x, v, h⟩; exact ⟨n, x, v, .node h⟩
    · rintro ⟨n, x, v, h⟩; cases h with | node h => exact ⟨n, x, v, h⟩
  | pair a b iha ihb =>
    simp only [hasE, Bool.or_eq_true, iha, ihb]
    constructor
    · rintro (⟨n, x, v, h⟩ | ⟨n, x, v, h⟩)
      · exact ⟨n, x, v, .left h⟩
      · exact ⟨n, x, v, .right h⟩
    · rintro ⟨n, x, v, h⟩
      cases h with
      | left h => exact .inl ⟨n, x, v, h⟩
      | right h => exact .inr ⟨n, x, v, h⟩
  | lam a b iha ihb =>
    simp only [hasE, Bool.or_eq_true, iha, ihb]
    constructor
    · rintro (⟨n, x, v, h⟩ | ⟨n, x, v, h⟩)
      · exact ⟨n, x, v, .defaults h⟩
      · exact ⟨n, x, v, .body h⟩
    · rintro ⟨n, x, v, h⟩
      cases h with
      | defaults h => exact .inl ⟨n, x, v, h⟩
      | body h => exact .inr ⟨n, x, v, h⟩
  | named m y w _ => simp only [hasE, true_iff]; exact ⟨m, y, w, .here⟩

theorem hasT_eq (t : T X N) : hasT t = hasE (inner t) := by
  induction t with
  | name x => rfl
  | ref n e => rfl
  | nil => rfl
  | pair a b iha ihb => simp only [hasT, inner, hasE, iha, ihb]
  | tuple ts ih => simpa only [hasT, inner] using ih
  | star t ih => simpa only [hasT, inner] using ih

theorem edgesT_eq (t : T X N) : edgesT t = edgesE (inner t) := by
  induction t with
  | name x => rfl
  | ref n e => rfl
  | nil => rfl
  | pair a b iha ihb => simp only [edgesT, inner, edgesE, iha, ihb]
  | tuple ts ih => simpa only [edgesT, inner] using ih
  | star t ih => simpa only [edgesT, inner] using ih

theorem hasI_eq (l : List (E X N × Option (T X N))) : hasI l = (hasE (contexts l) || hasE (innerI l)) := by
  induction l with
  | nil => rfl
  | cons p l ih =>
    obtain ⟨e, _ | t⟩ := p
    · simp only [hasI, contexts, innerI, hasE, ih]; cases hasE e <;> simp
    · simp only [hasI, contexts, innerI, hasE, ih, hasT_eq]
      cases hasE e <;> cases hasE (inner t) <;> cases hasE (contexts l) <;> simp

theorem occurs_of_hasE {e : E X N} (h : hasE e = true) : ∃ n x v, Occurs e n x v := hasE_iff.1 h

theorem occurs_heads {hs : S X N} {n : N} {x : X} {v : E X N} (h : Occurs (heads hs) n x v) : hasS hs = true := by
  induction hs with
  | seq a b iha ihb =>
    simp only [hasS, Bool.or_eq_true]
    cases h with
    | left h => exact .inl (iha h)
    | right h => exact .inr (ihb h)
  | handler e y b _ => simp only [hasS, Bool.or_eq_true]; exact .inl (hasE_iff.2 ⟨n, x, v, h⟩)
  | case p xs g b _ =>
    simp only [hasS, Bool.or_eq_true]
    cases h with
    | left h => exact .inl (.inl (hasE_iff.2 ⟨n, x, v, h⟩))
    | right h => exact .inl (.inr (hasE_iff.2 ⟨n, x, v, h⟩))
  | _ => cases h

theorem hasS_child {s t : S X N} (h : Child t s) (ht : hasS t = true) : hasS s = true := by
  cases h <;> simp [hasS, ht]

theorem Walrus.has {s : S X N} (h : Walrus s) : hasS s = true := by
  induction h with
  | child hc _ ih => exact hasS_child hc ih
  | @rhs s n x v h =>
    cases s with
    | annAssign t ann w =>
      cases w with
      | none => simp only [hasS, Bool.or_eq_true]; exact .inl (.inr (hasE_iff.2 ⟨n, x, v, h⟩))
      | some w =>
        simp only [hasS, Bool.or_eq_true]
        cases h with
        | left h => exact .inl (.inr (hasE_iff.2 ⟨n, x, v, h⟩))
        | right h => exact .inr (hasE_iff.2 ⟨n, x, v, h⟩)
    | «with» items b => simp only [hasS, hasI_eq, Bool.or_eq_true]; exact .inl (.inl (hasE_iff.2 ⟨n, x, v, h⟩))
    | asyncWith items b => simp only [hasS, hasI_eq, Bool.or_eq_true]; exact .inl (.inl (hasE_iff.2 ⟨n, x, v, h⟩))
    | «try» b hs o f => simp only [hasS, Bool.or_eq_true]; exact .inl (.inl (.inr (occurs_heads h)))
    | «match» e cs =>
      simp only [hasS, Bool.or_eq_true]
      cases h with
      | left h => exact .inl (hasE_iff.2 ⟨n, x, v, h⟩)
      | right h => exact .inr (occurs_heads h)
    | done => cases h
    | seq a b => cases h
    | imp as => cases h
    | del ts => cases h
    | other => cases h
    | _ =>
      have h' := hasE_iff.2 ⟨n, x, v, h⟩
      simp only [Bind.rhs, hasE, Bool.or_eq_true] at h'
      simp only [hasS, Bool.or_eq_true]
      tauto
  | @lhs s n x v h =>
    cases s with
    | annAssign t ann w => simp only [hasS, hasT_eq, Bool.or_eq_true]; exact .inl (.inl (hasE_iff.2 ⟨n, x, v, h⟩))
    | assign t w => simp only [hasS, hasT_eq, Bool.or_eq_true]; exact .inl (hasE_iff.2 ⟨n, x, v, h⟩)
    | augAssign t w => simp only [hasS, hasT_eq, Bool.or_eq_true]; exact .inl (hasE_iff.2 ⟨n, x, v, h⟩)
    | loop t i b o => simp only [hasS, hasT_eq, Bool.or_eq_true]; exact .inl (.inl (.inl (hasE_iff.2 ⟨n, x, v, h⟩)))
    | asyncLoop t i b o => simp only [hasS, hasT_eq, Bool.or_eq_true]; exact .inl (.inl (.inl (hasE_iff.2 ⟨n, x, v, h⟩)))
    | «with» items b => simp only [hasS, hasI_eq, Bool.or_eq_true]; exact .inl (.inr (hasE_iff.2 ⟨n, x, v, h⟩))
    | asyncWith items b => simp only [hasS, hasI_eq, Bool.or_eq_true]; exact .inl (.inr (hasE_iff.2 ⟨n, x, v, h⟩))
    | del ts => simp only [hasS, hasT_eq]; exact hasE_iff.2 ⟨n, x, v, h⟩
    | _ => cases h

theorem walrus_of_rhs {s : S X N} (h : hasE (rhs s) = true) : Walrus s := by
  obtain ⟨n, x, v, ho⟩ := hasE_iff.1 h
  exact .rhs ho

theorem walrus_of_lhs {s : S X N} (h : hasE (lhs s) = true) : Walrus s := by
  obtain ⟨n, x, v, ho⟩ := hasE_iff.1 h
  exact .lhs ho

theorem walrus_of_has {s : S X N} : hasS s = true → Walrus s := by
  induction s with
  | done => intro h; cases h
  | seq a b iha ihb =>
    simp only [hasS, Bool.or_eq_true]
    rintro (h | h)
    · exact .child .seqL (iha h)
    · exact .child .seqR (ihb h)
  | assign ts v =>
    simp only [hasS, hasT_eq, Bool.or_eq_true]
    rintro (h | h)
    · exact walrus_of_lhs h
    · exact walrus_of_rhs h
  | annAssign t ann v =>
    simp only [hasS, hasT_eq, Bool.or_eq_true]
    cases v with
    | none =>
      rintro ((h | h) | h)
      · exact walrus_of_lhs h
      · exact walrus_of_rhs h
      · cases h
    | some v =>
      rintro ((h | h) | h)
      · exact walrus_of_lhs h
      · exact walrus_of_rhs (by simp only [rhs, hasE, h, Bool.true_or])
      · exact walrus_of_rhs (by simp only [rhs, hasE, h, Bool.or_true])
  | augAssign t v =>
    simp only [hasS, hasT_eq, Bool.or_eq_true]
    rintro (h | h)
    · exact walrus_of_lhs h
    · exact walrus_of_rhs h
  | loop t i b o ihb iho =>
    simp only [hasS, hasT_eq, Bool.or_eq_true]
    rintro (((h | h) | h) | h)
    · exact walrus_of_lhs h
    · exact walrus_of_rhs h
    · exact .child .loop (ihb h)
    · exact .child .loopElse (iho h)
  | asyncLoop t i b o ihb iho =>
    simp only [hasS, hasT_eq, Bool.or_eq_true]
    rintro (((h | h) | h) | h)
    · exact walrus_of_lhs h
    · exact walrus_of_rhs h
    · exact .child .asyncLoop (ihb h)
    · exact .child .asyncLoopElse (iho h)
  | cond c b o ihb iho =>
    simp only [hasS, Bool.or_eq_true]
    rintro ((h | h) | h)
    · exact walrus_of_rhs h
    · exact .child .cond (ihb h)
    · exact .child .condElse (iho h)
  | «while» c b o ihb iho =>
    simp only [hasS, Bool.or_eq_true]
    rintro ((h | h) | h)
    · exact walrus_of_rhs h
    · exact .child .while (ihb h)
    · exact .child .whileElse (iho h)
  | «with» items b ih =>
    simp only [hasS, hasI_eq, Bool.or_eq_true]
    rintro ((h | h) | h)
    · exact walrus_of_rhs h
    · exact walrus_of_lhs h
    · exact .child .with (ih h)
  | asyncWith items b ih =>
    simp only [hasS, hasI_eq, Bool.or_eq_true]
    rintro ((h | h) | h)
    · exact walrus_of_rhs h
    · exact walrus_of_lhs h
    · exact .child .asyncWith (ih h)
  | funDef x d ann decs b ih =>
    simp only [hasS, Bool.or_eq_true]
    rintro (((h | h) | h) | h)
    · exact walrus_of_rhs (by simp [rhs, hasE, h])
    · exact walrus_of_rhs (by simp [rhs, hasE, h])
    · exact walrus_of_rhs (by simp [rhs, hasE, h])
    · exact .child .fn (ih h)
  | classDef x d ann decs b ih =>
    simp only [hasS, Bool.or_eq_true]
    rintro (((h | h) | h) | h)
    · exact walrus_of_rhs (by simp [rhs, hasE, h])
    · exact walrus_of_rhs (by simp [rhs, hasE, h])
    · exact walrus_of_rhs (by simp [rhs, hasE, h])
    · exact .child .cls (ih h)
  | imp as => intro h; cases h
  | «try» b hs o f ihb ihh iho ihf =>
    simp only [hasS, Bool.or_eq_true]
    rintro (((h | h) | h) | h)
    · exact .child .tryBody (ihb h)
    · exact .child .tryHandlers (ihh h)
    · exact .child .tryElse (iho h)
    · exact .child .tryFinally (ihf h)
  | handler e y b ih =>
    simp only [hasS, Bool.or_eq_true]
    rintro (h | h)
    · exact walrus_of_rhs h
    · exact .child .handler (ih h)
  | «match» e cs ih =>
    simp only [hasS, Bool.or_eq_true]
    rintro (h | h)
    · exact walrus_of_rhs (by simp [rhs, hasE, h])
    · exact .child .cases (ih h)
  | case p xs g b ih =>
    simp only [hasS, Bool.or_eq_true]
    rintro ((h | h) | h)
    · exact walrus_of_rhs (by simp [rhs, hasE, h])
    · exact walrus_of_rhs (by simp [rhs, hasE, h])
    · exact .child .case (ih h)
  | expr e => intro h; exact walrus_of_rhs h
  | del ts => intro h; exact walrus_of_lhs (by simpa only [hasS, hasT_eq, lhs] using h)
  | other => intro h; cases h

theorem hasS_false {s : S X N} (h : ¬ Walrus s) : hasS s = false := by
  cases hs : hasS s with
  | false => rfl
  | true => exact absurd (walrus_of_has hs) h

/-! ## Targets -/

theorem mem_simple {has : X → Bool} {x : X} {l : Leaf X N} : (simple has x : Option (Leaf X N)) = some l ↔ l = .name x ∧ has x = true := by
  unfold simple
  by_cases h : has x = true
  · simp [h, eq_comm]
  · simp [h]

theorem mem_unpack {has : X → Bool} {t : T X N} (hf : Flat t) {l : Leaf X N} :
    l ∈ unpack has t ↔ Part t l ∧ ∀ x, l = .name x → has x = true := by
  induction t with
  | name x =>
    simp only [unpack, Option.mem_toList, mem_simple]
    constructor
    · rintro ⟨rfl, h⟩; exact ⟨.name, fun y hy => by cases hy; exact h⟩
    · rintro ⟨h, hx⟩; cases h; exact ⟨rfl, hx x rfl⟩
  | ref n e =>
    simp only [unpack, List.mem_singleton]
    constructor
    · rintro rfl; exact ⟨.ref, fun y hy => by cases hy⟩
    · rintro ⟨h, _⟩; cases h; rfl
  | nil =>
    simp only [unpack, List.not_mem_nil, false_iff]
    rintro ⟨h, _⟩; cases h
  | pair a b iha ihb =>
    simp only [unpack, List.mem_append, iha hf.1, ihb hf.2]
    constructor
    · rintro (⟨h, hx⟩ | ⟨h, hx⟩)
      · exact ⟨.left h, hx⟩
      · exact ⟨.right h, hx⟩
    · rintro ⟨h, hx⟩
      cases h with
      | left h => exact .inl ⟨h, hx⟩
      | right h => exact .inr ⟨h, hx⟩
  | tuple ts ih =>
    simp only [unpack, ih hf]
    constructor
    · rintro ⟨h, hx⟩; exact ⟨.tuple h, hx⟩
    · rintro ⟨h, hx⟩; cases h with | tuple h => exact ⟨h, hx⟩
  | star t _ =>
    rcases hf with ⟨x, rfl⟩ | ⟨n, e, rfl⟩
    · simp only [unpack, leaf, Option.mem_toList, mem_simple]
      constructor
      · rintro ⟨rfl, h⟩; exact ⟨.star .name, fun y hy => by cases hy; exact h⟩
      · rintro ⟨h, hx⟩; cases h with | star h => cases h; exact ⟨rfl, hx x rfl⟩
    · simp only [unpack, leaf, Option.toList_some, List.mem_singleton]
      constructor
      · rintro rfl; exact ⟨.star .ref, fun y hy => by cases hy⟩
      · rintro ⟨h, _⟩; cases h with | star h => cases h; rfl

theorem mem_leaf {has : X → Bool} {t : T X N} (hs : Single t) {l : Leaf X N} :
    leaf has t = some l ↔ Part t l ∧ ∀ x, l = .name x → has x = true := by
  rcases hs with ⟨x, rfl⟩ | ⟨n, e, rfl⟩
  · simp only [leaf, mem_simple]
    constructor
    · rintro ⟨rfl, h⟩; exact ⟨.name, fun y hy => by cases hy; exact h⟩
    · rintro ⟨h, hx⟩; cases h; exact ⟨rfl, hx x rfl⟩
  · simp only [leaf, Option.some.injEq]
    constructor
    · rintro rfl; exact ⟨.ref, fun y hy => by cases hy⟩
    · rintro ⟨h, _⟩; cases h; rfl

theorem mem_dels {t : T X N} (hs : Singles t) {ev : Ev X N} : ev ∈ dels t ↔ ∃ l, Part t l ∧ ev = .del l := by
  induction t with
  | pair a b _ ihb =>
    have ha : ∀ l, delLeaf a = some l ↔ Part a l := by
      intro l
      rcases hs.1 with ⟨x, rfl⟩ | ⟨n, e, rfl⟩
      · simp only [delLeaf, Option.some.injEq]
        exact ⟨fun h => h ▸ .name, fun h => by cases h; rfl⟩
      · simp only [delLeaf, Option.some.injEq]
        exact ⟨fun h => h ▸ .ref, fun h => by cases h; rfl⟩
    simp only [dels, List.mem_append, Option.mem_toList, Option.map_eq_some_iff, ihb hs.2, ha]
    constructor
    · rintro (⟨l, h, rfl⟩ | ⟨l, h, rfl⟩)
      · exact ⟨l, .left h, rfl⟩
      · exact ⟨l, .right h, rfl⟩
    · rintro ⟨l, h, rfl⟩
      cases h with
      | left h => exact .inl ⟨l, h, rfl⟩
      | right h => exact .inr ⟨l, h, rfl⟩
  | nil =>
    simp only [dels, List.not_mem_nil, false_iff]
    rintro ⟨l, h, _⟩; cases h
  | _ => exact hs.elim

/-! ## Bodies -/

theorem Quiet.edgesS {s : S X N} (h : Quiet s) : edgesS s = [] := by
  induction s with
  | done => rfl
  | seq a b iha ihb => simp only [Bind.edgesS, iha h.1, ihb h.2, List.append_nil]
  | assign ts v => simp only [Bind.edgesS, edgesT_eq, h.1.edgesE, h.2.edgesE, List.append_nil]
  | cond c b o _ _ => simp only [Bind.edgesS, h.1.edgesE]
  | «while» c b o ihb iho => simp only [Bind.edgesS, h.1.edgesE, ihb h.2.1, iho h.2.2, List.append_nil]
  | «try» b hs o f ihb ihh iho ihf =>
    simp only [Bind.edgesS, ihb h.1, ihh h.2.1, iho h.2.2.1, ihf h.2.2.2, List.append_nil]
  | handler e x b _ => obtain ⟨_, rfl, _⟩ := h; rfl
  | «match» e cs ih => simp only [Bind.edgesS, h.1.edgesE, ih h.2, List.append_nil]
  | case p xs g b ih => simp only [Bind.edgesS, h.1.edgesE, h.2.1.edgesE, ih h.2.2, List.append_nil]
  | expr e => exact No.edgesE h
  | del ts => simp only [Bind.edgesS, edgesT_eq]; exact No.edgesE h
  | other => rfl
  | _ => exact h.elim

theorem No.pair {a b : E X N} (ha : No a) (hb : No b) : No (.pair a b) := by
  intro n x v h
  cases h with
  | left h => exact ha n x v h
  | right h => exact hb n x v h

theorem No.nil : No (.nil : E X N) := by intro n x v h; cases h

/-! ## Events of expressions -/

theorem mem_filterMap_cons {α β : Type} {f : α → Option β} {a : α} {l : List α} {b : β} :
    b ∈ (a :: l).filterMap f ↔ f a = some b ∨ b ∈ l.filterMap f := by
  simp only [List.mem_filterMap, List.mem_cons]
  constructor
  · rintro ⟨c, rfl | h, hc⟩
    · exact .inl hc
    · exact .inr ⟨c, h, hc⟩
  · rintro (h | ⟨c, h, hc⟩)
    · exact ⟨a, .inl rfl, h⟩
    · exact ⟨c, .inr h, hc⟩

theorem mem_evsE {has : X → Bool} {e : E X N} {ev : Ev X N} :
    ev ∈ (edgesE e).filterMap (bindOf has) ↔ ∃ n x v, Occurs e n x v ∧ has x = true ∧ ev = .bind (.name x) (.expr v) := by
  simp only [List.mem_filterMap, mem_edgesE]
  constructor
  · rintro ⟨d, ⟨n, x, v, h, rfl⟩, hb⟩
    simp only [bindOf, leaf, Option.map_eq_some_iff] at hb
    obtain ⟨l, hl, rfl⟩ := hb
    obtain ⟨rfl, hx⟩ := mem_simple.1 hl
    exact ⟨n, x, v, h, hx, rfl⟩
  · rintro ⟨n, x, v, h, hx, rfl⟩
    exact ⟨_, ⟨n, x, v, h, rfl⟩, by simp [bindOf, leaf, simple, hx]⟩

theorem mem_evsE_ok {has : X → Bool} {ran : N → Prop} {e : E X N} (ho : Ok has ran e)
    (hb : ∀ n x v, Within e n x v → ran n → has x = true) {ev : Ev X N} :
    ev ∈ (edgesE e).filterMap (bindOf has) ↔ ∃ n x v, Within e n x v ∧ ran n ∧ ev = .bind (.name x) (.expr v) := by
  rw [mem_evsE]
  constructor
  · rintro ⟨n, x, v, h, hx, rfl⟩
    rcases ho n x v h with ⟨hw, hr⟩ | hn
    · exact ⟨n, x, v, hw, hr, rfl⟩
    · rw [hn] at hx; cases hx
  · rintro ⟨n, x, v, h, hr, rfl⟩
    exact ⟨n, x, v, h.occurs, hb n x v h hr, rfl⟩

theorem No.within {e : E X N} (h : No e) {n x v} : ¬ Within e n x v := fun hw => h n x v hw.occurs

theorem mem_evsI {has : X → Bool} {items : List (E X N × Option (T X N))} (hs : ∀ e t, (e, some t) ∈ items → Single t) {ev : Ev X N} :
    ev ∈ (edgesI items).filterMap (bindOf has) ↔
      ∃ e t l, (e, some t) ∈ items ∧ Part t l ∧ (∀ x, l = .name x → has x = true) ∧ ev = .bind l (.expr e) := by
  induction items with
  | nil => simp [edgesI]
  | cons p l ih =>
    obtain ⟨e, _ | t⟩ := p
    · rw [edgesI, ih (fun e t h => hs e t (List.mem_cons_of_mem _ h))]
      simp
    · rw [edgesI, mem_filterMap_cons]
      have hev : ∀ ev, bindOf has (.tgt t e) = some ev ↔
          ∃ l, Part t l ∧ (∀ x, l = .name x → has x = true) ∧ ev = .bind l (.expr e) := by
        intro ev
        simp only [bindOf, Option.map_eq_some_iff]
        constructor
        · rintro ⟨l, hl, rfl⟩
          exact ⟨l, (mem_leaf (hs e t List.mem_cons_self)).1 hl |>.1, (mem_leaf (hs e t List.mem_cons_self)).1 hl |>.2, rfl⟩
        · rintro ⟨l, h1, h2, rfl⟩
          exact ⟨l, (mem_leaf (hs e t List.mem_cons_self)).2 ⟨h1, h2⟩, rfl⟩
      have ih := ih (fun e t h => hs e t (List.mem_cons_of_mem _ h))
      rw [hev, ih]
      constructor
      · rintro (⟨l', h1, h2, rfl⟩ | ⟨e', t', l', h1, h2, h3, rfl⟩)
        · exact ⟨e, t, l', List.mem_cons_self, h1, h2, rfl⟩
        · exact ⟨e', t', l', List.mem_cons_of_mem _ h1, h2, h3, rfl⟩
      · rintro ⟨e', t', l', h1, h2, h3, rfl⟩
        rcases List.mem_cons.1 h1 with h | h
        · cases h; exact .inl ⟨l', h2, h3, rfl⟩
        · exact .inr ⟨e', t', l', h, h2, h3, rfl⟩

theorem mem_filterMap_append {α β : Type} {f : α → Option β} {a b : List α} {c : β} :
    c ∈ (a ++ b).filterMap f ↔ c ∈ a.filterMap f ∨ c ∈ b.filterMap f := by
  rw [List.filterMap_append, List.mem_append]

theorem old_of_not_def {has : X → Bool} {s : S X N} (h : isDef s = false) : old has s = .ok ((edgesS s).reverse.filterMap (bindOf has)) := by
  unfold old
  rw [if_neg]
  simp [h]

theorem mem_rev {α β : Type} {f : α → Option β} {l : List α} {b : β} : b ∈ l.reverse.filterMap f ↔ b ∈ l.filterMap f := by
  simp only [List.mem_filterMap, List.mem_reverse]

theorem no_rhs_lhs {ran : N → Prop} {s : S X N} (hr : No (rhs s)) (hl : No (lhs s)) {ev : Ev X N} : Does ran s ev ↔ Direct s ev := by
  constructor
  · rintro (h | ⟨h, _⟩ | ⟨h, _⟩)
    · exact h
    · exact absurd h hr.within
    · exact absurd h hl.within
  · exact .direct

theorem no_of_not_walrus {s : S X N} (h : ¬ Walrus s) : No (rhs s) ∧ No (lhs s) :=
  ⟨fun _ _ _ ho => h (.rhs ho), fun _ _ _ ho => h (.lhs ho)⟩

/-- What is recorded when the statement is dealt with by its edges. -/
theorem record_old {has : X → Bool} {s : S X N} (hd : isDef s = false) (hc : containsLval s = true)
    (h1 : ∀ ts v, s ≠ .assign ts v) (h2 : ∀ t i b o, s ≠ .loop t i b o) (h3 : ∀ t i b o, s ≠ .asyncLoop t i b o) :
    record has s = .ok ((edgesS s).reverse.filterMap (bindOf has)) := by
  unfold record
  rw [if_pos hc]
  cases s with
  | assign ts v => exact absurd rfl (h1 ts v)
  | loop t i b o => exact absurd rfl (h2 t i b o)
  | asyncLoop t i b o => exact absurd rfl (h3 t i b o)
  | _ => exact old_of_not_def hd

theorem record_else {has : X → Bool} {s : S X N} (hc : containsLval s = false) (h1 : ∀ ts, s ≠ .del ts) : record has s = .ok [] := by
  unfold record
  rw [if_neg (by simp [hc])]
  cases s with
  | del ts => exact absurd rfl (h1 ts)
  | _ => rfl

theorem ok_single {has : X → Bool} {t : T X N} {v : E X N} (hs : Single t) {ev : Ev X N} :
    bindOf has (.tgt t v) = some ev ↔ ∃ l, Part t l ∧ (∀ x, l = .name x → has x = true) ∧ ev = .bind l (.expr v) := by
  simp only [bindOf, Option.map_eq_some_iff, mem_leaf hs]
  constructor
  · rintro ⟨l, ⟨h1, h2⟩, rfl⟩; exact ⟨l, h1, h2, rfl⟩
  · rintro ⟨l, h1, h2, rfl⟩; exact ⟨l, ⟨h1, h2⟩, rfl⟩

/-- **C100** For the statements described by `Fine`, what is recorded is exactly what the statement binds and deletes, each with the expression its value
comes from. `Fine` excludes the statements for which this is false: see `Verif.Bind.Witness`. That what was bound has a value is assumed. -/
theorem bindings_recorded_partial {has : X → Bool} {ran : N → Prop} {s : S X N} (hf : Fine has ran s)
    (hb : ∀ x src, Does ran s (.bind (.name x) src) → has x = true) :
    ∃ evs, record has s = .ok evs ∧ ∀ ev, ev ∈ evs ↔ Does ran s ev := by
  -- a recorded part of the targets is a binding and conversely
  have single : ∀ (t : T X N) (v : E X N), (∀ l, Part t l → Does ran s (.bind l (.expr v))) →
      ∀ ev : Ev X N, (∃ l, Part t l ∧ (∀ x, l = .name x → has x = true) ∧ ev = .bind l (.expr v)) ↔ ∃ l, Part t l ∧ ev = .bind l (.expr v) := by
    intro t v hd ev
    constructor
    · rintro ⟨l, h, _, rfl⟩; exact ⟨l, h, rfl⟩
    · rintro ⟨l, h, rfl⟩
      exact ⟨l, h, fun x hx => hb x (.expr v) (hx ▸ hd l h), rfl⟩
  cases s with
  | done => exact hf.elim
  | seq a b => exact hf.elim
  | handler e x b => exact hf.elim
  | case p xs g b => exact hf.elim
  | assign ts v =>
    obtain ⟨h1, h2, h3⟩ := hf
    refine ⟨_, rfl, fun ev => ?_⟩
    rw [no_rhs_lhs (s := .assign ts v) h2 h1]
    simp only [List.mem_map, mem_unpack h3]
    constructor
    · rintro ⟨l, ⟨hl, _⟩, rfl⟩; exact .assign hl
    · intro hd
      cases hd with
      | assign hp => exact ⟨_, ⟨hp, fun x hx => hb x (.expr v) (.direct (hx ▸ .assign hp))⟩, rfl⟩
  | loop t i b o =>
    obtain ⟨h1, h2, h3⟩ := hf
    refine ⟨_, rfl, fun ev => ?_⟩
    rw [no_rhs_lhs (s := .loop t i b o) h2 h1]
    simp only [List.mem_map, mem_unpack h3]
    constructor
    · rintro ⟨l, ⟨hl, _⟩, rfl⟩; exact .loop hl
    · intro hd
      cases hd with
      | loop hp => exact ⟨_, ⟨hp, fun x hx => hb x (.expr i) (.direct (hx ▸ .loop hp))⟩, rfl⟩
  | asyncLoop t i b o =>
    obtain ⟨h1, h2, h3⟩ := hf
    refine ⟨_, rfl, fun ev => ?_⟩
    rw [no_rhs_lhs (s := .asyncLoop t i b o) h2 h1]
    simp only [List.mem_map, mem_unpack h3]
    constructor
    · rintro ⟨l, ⟨hl, _⟩, rfl⟩; exact .asyncLoop hl
    · intro hd
      cases hd with
      | asyncLoop hp => exact ⟨_, ⟨hp, fun x hx => hb x (.expr i) (.direct (hx ▸ .asyncLoop hp))⟩, rfl⟩
  | annAssign t ann v =>
    cases v with
    | none =>
      obtain ⟨h1, h2, x, rfl, hx⟩ := hf
      refine ⟨_, record_old rfl rfl (fun _ _ h => by cases h) (fun _ _ _ _ h => by cases h) (fun _ _ _ _ h => by cases h), fun ev => ?_⟩
      rw [mem_rev, no_rhs_lhs (s := .annAssign (.name x) ann none) h2 h1]
      constructor
      · intro h; simp [edgesS, bindOf, leaf, simple, hx] at h
      · intro hd; cases hd
    | some v =>
      obtain ⟨h1, h2, h3, h4⟩ := hf
      refine ⟨_, record_old rfl rfl (fun _ _ h => by cases h) (fun _ _ _ _ h => by cases h) (fun _ _ _ _ h => by cases h), fun ev => ?_⟩
      rw [mem_rev, edgesS, mem_filterMap_cons, ok_single h4,
        single t v (fun l hl => .direct (.ann hl)), mem_evsE_ok h3 (fun n x w hw hr => hb x (.expr w) (.rhs (Within.right hw) hr))]
      constructor
      · rintro (⟨l, hl, rfl⟩ | ⟨n, x, w, hw, hr, rfl⟩)
        · exact .direct (.ann hl)
        · exact .rhs (Within.right hw) hr
      · rintro (h | ⟨h, hr⟩ | ⟨h, hr⟩)
        · cases h with | ann hp => exact .inl ⟨_, hp, rfl⟩
        · cases h with
          | left h => exact absurd h h2.within
          | right h => exact .inr ⟨_, _, _, h, hr, rfl⟩
        · exact absurd h h1.within
  | augAssign t v =>
    obtain ⟨h1, h3, h4⟩ := hf
    refine ⟨_, record_old rfl rfl (fun _ _ h => by cases h) (fun _ _ _ _ h => by cases h) (fun _ _ _ _ h => by cases h), fun ev => ?_⟩
    rw [mem_rev, edgesS, mem_filterMap_cons, ok_single h4,
      single t v (fun l hl => .direct (.aug hl)), mem_evsE_ok h3 (fun n x w hw hr => hb x (.expr w) (.rhs hw hr))]
    constructor
    · rintro (⟨l, hl, rfl⟩ | ⟨n, x, w, hw, hr, rfl⟩)
      · exact .direct (.aug hl)
      · exact .rhs hw hr
    · rintro (h | ⟨h, hr⟩ | ⟨h, hr⟩)
      · cases h with | aug hp => exact .inl ⟨_, hp, rfl⟩
      · exact .inr ⟨_, _, _, h, hr, rfl⟩
      · exact absurd h h1.within
  | cond c b o =>
    have key : ∀ ev, ev ∈ (edgesE c).filterMap (bindOf has) ↔ Does ran (.cond c b o) ev := by
      intro ev
      rw [mem_evsE_ok hf (fun n x w hw hr => hb x (.expr w) (.rhs hw hr))]
      constructor
      · rintro ⟨n, x, w, hw, hr, rfl⟩; exact .rhs hw hr
      · rintro (h | ⟨h, hr⟩ | ⟨h, hr⟩)
        · cases h
        · exact ⟨_, _, _, h, hr, rfl⟩
        · cases h
    cases hc : containsLval (.cond c b o : S X N) with
    | true =>
      refine ⟨_, record_old rfl hc (fun _ _ h => by cases h) (fun _ _ _ _ h => by cases h) (fun _ _ _ _ h => by cases h), fun ev => ?_⟩
      rw [mem_rev]; exact key ev
    | false =>
      refine ⟨_, record_else hc (fun _ h => by cases h), fun ev => ?_⟩
      rw [← key ev]
      have hn : No c := by
        intro n x v ho
        have : hasS (.cond c b o : S X N) = true := by simp only [hasS, hasE_iff.2 ⟨n, x, v, ho⟩, Bool.true_or]
        rw [show containsLval (.cond c b o : S X N) = hasS (.cond c b o) from rfl, this] at hc
        cases hc
      rw [hn.edgesE]; simp
  | «while» c b o =>
    by_cases hw : Walrus (.while c b o : S X N)
    · have hf := hf.resolve_left (fun h => h hw)
      obtain ⟨h1, h2, h3⟩ := hf
      refine ⟨_, record_old rfl hw.has (fun _ _ h => by cases h) (fun _ _ _ _ h => by cases h) (fun _ _ _ _ h => by cases h), fun ev => ?_⟩
      rw [mem_rev, edgesS, h2.edgesS, h3.edgesS, List.append_nil, List.append_nil,
        mem_evsE_ok h1 (fun n x w hw hr => hb x (.expr w) (.rhs hw hr))]
      constructor
      · rintro ⟨n, x, w, hw, hr, rfl⟩; exact .rhs hw hr
      · rintro (h | ⟨h, hr⟩ | ⟨h, hr⟩)
        · cases h
        · exact ⟨_, _, _, h, hr, rfl⟩
        · cases h
    · refine ⟨_, record_else (hasS_false hw) (fun _ h => by cases h), fun ev => ?_⟩
      rw [no_rhs_lhs (no_of_not_walrus hw).1 (no_of_not_walrus hw).2]
      simp only [List.not_mem_nil, false_iff]
      intro h; cases h
  | «with» items b =>
    obtain ⟨h1, h2, h3⟩ := hf
    refine ⟨_, record_old rfl rfl (fun _ _ h => by cases h) (fun _ _ _ _ h => by cases h) (fun _ _ _ _ h => by cases h), fun ev => ?_⟩
    rw [mem_rev, edgesS, mem_evsI h3, no_rhs_lhs (s := .with items b) h1 h2]
    constructor
    · rintro ⟨e, t, l, hm, hp, _, rfl⟩; exact .with hm hp
    · intro hd
      cases hd with
      | @«with» _ _ e t l hm hp => exact ⟨e, t, l, hm, hp, fun x hx => hb x (.expr e) (.direct (hx ▸ .with hm hp)), rfl⟩
  | asyncWith items b =>
    obtain ⟨h1, h2, h3, h4⟩ := hf
    refine ⟨_, record_old rfl rfl (fun _ _ h => by cases h) (fun _ _ _ _ h => by cases h) (fun _ _ _ _ h => by cases h), fun ev => ?_⟩
    rw [mem_rev, edgesS, h4.edgesS, List.append_nil, mem_evsI h3, no_rhs_lhs (s := .asyncWith items b) h1 h2]
    constructor
    · rintro ⟨e, t, l, hm, hp, _, rfl⟩; exact .asyncWith hm hp
    · intro hd
      cases hd with
      | @asyncWith _ _ e t l hm hp => exact ⟨e, t, l, hm, hp, fun x hx => hb x (.expr e) (.direct (hx ▸ .asyncWith hm hp)), rfl⟩
  | funDef x d ann decs b =>
    obtain ⟨h1, h2, h3⟩ := hf
    have hx : has x = true := hb x .self (.direct .fn)
    refine ⟨[.bind (.name x) .self], ?_, fun ev => ?_⟩
    · simp [record, containsLval, old, edgesS, h1.edgesE, h3.edgesE, bindOf, simple, hx]
    · rw [no_rhs_lhs (s := .funDef x d ann decs b) (h1.pair (h2.pair h3)) No.nil, List.mem_singleton]
      constructor
      · rintro rfl; exact .fn
      · intro h; cases h; rfl
  | classDef x d ann decs b =>
    obtain ⟨h1, h2, h3⟩ := hf
    have hx : has x = true := hb x .self (.direct .cls)
    refine ⟨[.bind (.name x) .self], ?_, fun ev => ?_⟩
    · simp [record, containsLval, old, edgesS, h1.edgesE, h3.edgesE, bindOf, simple, hx]
    · rw [no_rhs_lhs (s := .classDef x d ann decs b) (h1.pair (h2.pair h3)) No.nil, List.mem_singleton]
      constructor
      · rintro rfl; exact .cls
      · intro h; cases h; rfl
  | imp as =>
    refine ⟨_, record_old rfl rfl (fun _ _ h => by cases h) (fun _ _ _ _ h => by cases h) (fun _ _ _ _ h => by cases h), fun ev => ?_⟩
    rw [mem_rev, no_rhs_lhs (s := .imp as) No.nil No.nil, edgesS]
    simp only [List.mem_filterMap, List.mem_map]
    constructor
    · rintro ⟨d, ⟨a, ha, rfl⟩, hd⟩
      rcases hf a ha with ⟨x, rfl⟩ | ⟨x, rfl⟩
      · simp only [bindOf, Option.map_eq_some_iff, mem_simple] at hd
        obtain ⟨l, ⟨rfl, _⟩, rfl⟩ := hd
        exact .imp ha .plain
      · simp only [bindOf, Option.map_eq_some_iff, mem_simple] at hd
        obtain ⟨l, ⟨rfl, _⟩, rfl⟩ := hd
        exact .imp ha .named
    · intro hd
      cases hd with
      | @imp _ a x ha hi =>
        have hx : has x = true := hb x .module (.direct (.imp ha hi))
        refine ⟨_, ⟨a, ha, rfl⟩, ?_⟩
        rcases hf a ha with ⟨y, rfl⟩ | ⟨y, rfl⟩
        · cases hi; simp [bindOf, simple, hx]
        · cases hi; simp [bindOf, simple, hx]
  | «try» b hs o f =>
    refine ⟨_, record_else (hasS_false hf) (fun _ h => by cases h), fun ev => ?_⟩
    rw [no_rhs_lhs (no_of_not_walrus hf).1 (no_of_not_walrus hf).2]
    simp only [List.not_mem_nil, false_iff]
    intro h; cases h
  | «match» e cs =>
    obtain ⟨hw, hc⟩ := hf
    refine ⟨_, record_else (hasS_false hw) (fun _ h => by cases h), fun ev => ?_⟩
    rw [no_rhs_lhs (no_of_not_walrus hw).1 (no_of_not_walrus hw).2]
    simp only [List.not_mem_nil, false_iff]
    intro h
    cases h with
    | capture h => exact hc _ h
  | expr e =>
    have key : ∀ ev, ev ∈ (edgesE e).filterMap (bindOf has) ↔ Does ran (.expr e) ev := by
      intro ev
      rw [mem_evsE_ok hf (fun n x w hw hr => hb x (.expr w) (.rhs hw hr))]
      constructor
      · rintro ⟨n, x, w, hw, hr, rfl⟩; exact .rhs hw hr
      · rintro (h | ⟨h, hr⟩ | ⟨h, hr⟩)
        · cases h
        · exact ⟨_, _, _, h, hr, rfl⟩
        · cases h
    cases hc : containsLval (.expr e : S X N) with
    | true =>
      refine ⟨_, record_old rfl hc (fun _ _ h => by cases h) (fun _ _ _ _ h => by cases h) (fun _ _ _ _ h => by cases h), fun ev => ?_⟩
      rw [mem_rev]; exact key ev
    | false =>
      refine ⟨_, record_else hc (fun _ h => by cases h), fun ev => ?_⟩
      rw [← key ev]
      have hn : No e := by
        intro n x v ho
        rw [show containsLval (.expr e : S X N) = hasE e from rfl, hasE_iff.2 ⟨n, x, v, ho⟩] at hc
        cases hc
      rw [hn.edgesE]; simp
  | del ts =>
    obtain ⟨h1, h2⟩ := hf
    have hc : containsLval (.del ts : S X N) = false := by
      rw [show containsLval (.del ts : S X N) = hasT ts from rfl, hasT_eq]
      cases hh : hasE (inner ts) with
      | false => rfl
      | true =>
        obtain ⟨n, x, v, ho⟩ := hasE_iff.1 hh
        exact absurd ho (h1 n x v)
    refine ⟨dels ts, by rw [record, hc]; rfl, fun ev => ?_⟩
    rw [no_rhs_lhs (s := .del ts) No.nil h1, mem_dels h2]
    constructor
    · rintro ⟨l, h, rfl⟩; exact .del h
    · intro h
      cases h with
      | del h => exact ⟨_, h, rfl⟩
  | other =>
    refine ⟨[], rfl, fun ev => ?_⟩
    rw [no_rhs_lhs (s := .other) No.nil No.nil]
    simp only [List.not_mem_nil, false_iff]
    intro h; cases h

/-! ## Order -/

theorem inner_after {e : E X N} {l1 l2 : List (Edge X N)} {y : X} {v : E X N} (h : edgesE e = l1 ++ .tgt (.name y) v :: l2) :
    ∀ d ∈ edgesE v, d ∈ l2 := by
  induction e generalizing l1 l2 with
  | nil => simp [edgesE] at h
  | var x => simp [edgesE] at h
  | node e ih => exact ih h
  | pair a b iha ihb =>
    rw [edgesE, List.append_eq_append_iff] at h
    rcases h with ⟨m, h1, h2⟩ | ⟨m, h1, h2⟩
    · exact fun d hd => ihb h2 d hd
    · cases m with
      | nil => simp only [List.nil_append] at h2; exact fun d hd => ihb (l1 := []) h2.symm d hd
      | cons c m =>
        rw [List.cons_append] at h2
        injection h2 with h3 h4
        subst h3
        intro d hd
        rw [h4]
        exact List.mem_append_left _ (iha h1 d hd)
  | lam a b iha ihb =>
    rw [edgesE, List.append_eq_append_iff] at h
    rcases h with ⟨m, h1, h2⟩ | ⟨m, h1, h2⟩
    · exact fun d hd => ihb h2 d hd
    · cases m with
      | nil => simp only [List.nil_append] at h2; exact fun d hd => ihb (l1 := []) h2.symm d hd
      | cons c m =>
        rw [List.cons_append] at h2
        injection h2 with h3 h4
        subst h3
        intro d hd
        rw [h4]
        exact List.mem_append_left _ (iha h1 d hd)
  | named n x w ih =>
    rw [edgesE] at h
    cases l1 with
    | nil =>
      rw [List.nil_append] at h
      injection h with h1 h2
      cases h1
      subst h2
      exact fun d hd => hd
    | cons c l1 =>
      rw [List.cons_append] at h
      injection h with _ h2
      exact ih h2

/-- **C102** In an expression, what is bound inside the value of another binding is recorded before it. -/
theorem inner_first_partial {has : X → Bool} {e : E X N} {evs l1 l2 : List (Ev X N)} {y : X} {v : E X N}
    (hr : record has (.expr e) = .ok evs) (hs : evs = l1 ++ .bind (.name y) (.expr v) :: l2) {n : N} {x : X} {w : E X N} (ho : Occurs v n x w)
    (hx : has x = true) : Ev.bind (.name x) (.expr w) ∈ l1 := by
  have hc : containsLval (.expr e : S X N) = true := by
    cases hc : containsLval (.expr e : S X N) with
    | true => rfl
    | false =>
      rw [record_else hc (fun _ h => by cases h)] at hr
      cases hr
      simp at hs
  rw [record_old rfl hc (fun _ _ h => by cases h) (fun _ _ _ _ h => by cases h) (fun _ _ _ _ h => by cases h)] at hr
  injection hr with hr
  subst hr
  rw [edgesS, List.filterMap_eq_append_iff] at hs
  obtain ⟨m1, m2, hm, h1, h2⟩ := hs
  rw [List.filterMap_eq_cons_iff] at h2
  obtain ⟨p, d, q, h3, hp, hd, hq⟩ := h2
  subst h3
  have hmem : d ∈ edgesE e := by
    rw [← List.mem_reverse, hm]; simp
  obtain ⟨n', x', v', ho', rfl⟩ := mem_edgesE.1 hmem
  simp only [bindOf, leaf, Option.map_eq_some_iff, mem_simple] at hd
  obtain ⟨l, ⟨rfl, hx'⟩, hl⟩ := hd
  cases hl
  have he : edgesE e = q.reverse ++ .tgt (.name y) v :: (p.reverse ++ m1.reverse) := by
    have := congrArg List.reverse hm
    simpa using this
  have hin := inner_after he (.tgt (.name x) w) (mem_edgesE.2 ⟨n, x, w, ho, rfl⟩)
  rw [List.mem_append, List.mem_reverse, List.mem_reverse] at hin
  have hbx : bindOf has (.tgt (.name x) w : Edge X N) = some (.bind (.name x) (.expr w)) := by simp [bindOf, leaf, simple, hx]
  rcases hin with h | h
  · exact absurd (hp _ h) (by rw [hbx]; simp)
  · rw [← h1]; exact List.mem_filterMap.2 ⟨_, h, hbx⟩

end Verif.Bind
