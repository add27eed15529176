import Verif.Types.Spec
import Mathlib.Tactic.Choose
import Mathlib.Tactic.Tauto

/-!
# The type given for a value is a type of it
-/

namespace Verif.Types

mutual
theorem same_iff : ∀ t u : Ty, same t u = true ↔ t = u
  | .int, u => by cases u <;> simp [same]
  | .float, u => by cases u <;> simp [same]
  | .str, u => by cases u <;> simp [same]
  | .none, u => by cases u <;> simp [same]
  | .cls c, u => by cases u <;> simp [same]
  | .type c, u => by cases u <;> simp [same]
  | .bareList, u => by cases u <;> simp [same]
  | .bareSet, u => by cases u <;> simp [same]
  | .bareTuple, u => by cases u <;> simp [same]
  | .bareDict, u => by cases u <;> simp [same]
  | .list t, u => by
    cases u <;> simp [same]
    rename_i u; exact same_iff t u
  | .set t, u => by
    cases u <;> simp [same]
    rename_i u; exact same_iff t u
  | .tuple ts, u => by
    cases u <;> simp [same]
    rename_i us; exact sames_iff ts us
  | .tupleOf t, u => by
    cases u <;> simp [same]
    rename_i u; exact same_iff t u
  | .dict k v, u => by
    cases u <;> simp [same]
    rename_i k' v'; rw [same_iff k k', same_iff v v']
  | .union ts, u => by
    cases u <;> simp [same]
    rename_i us; exact sames_iff ts us
theorem sames_iff : ∀ ts us : List Ty, sames ts us = true ↔ ts = us
  | [], us => by cases us <;> simp [sames]
  | t :: ts, us => by
    cases us with
    | nil => simp [sames]
    | cons u us => simp [sames, same_iff t u, sames_iff ts us]
end

theorem any_same (t : Ty) (l : List Ty) : l.any (same t) = true ↔ t ∈ l := by
  rw [List.any_eq_true]
  constructor
  · rintro ⟨u, hu, hs⟩; rw [(same_iff t u).1 hs]; exact hu
  · intro h; exact ⟨t, h, (same_iff t t).2 rfl⟩

theorem mem_distinct (t : Ty) (l : List Ty) : t ∈ distinct l ↔ t ∈ l := by
  induction l with
  | nil => simp [distinct]
  | cons u l ih =>
    unfold distinct
    by_cases h : (distinct l).any (same u) = true
    · rw [if_pos h, ih, List.mem_cons]
      have := (any_same u _).1 h
      constructor
      · exact .inr
      · rintro (rfl | h')
        · exact ih.1 this
        · exact h'
    · rw [if_neg h, List.mem_cons, List.mem_cons, ih]

theorem nodup_distinct (l : List Ty) : (distinct l).Nodup := by
  induction l with
  | nil => simp [distinct]
  | cons u l ih =>
    unfold distinct
    by_cases h : (distinct l).any (same u) = true
    · rw [if_pos h]; exact ih
    · rw [if_neg h, List.nodup_cons]
      exact ⟨fun hm => h ((any_same u _).2 hm), ih⟩

theorem mem_ordered (t : Ty) (l : List Ty) : t ∈ ordered l ↔ t ∈ l := by
  unfold ordered
  rw [(List.perm_insertionSort _ _).mem_iff, mem_distinct]

theorem isNone_iff (t : Ty) : isNone t = true ↔ t = .none := by cases t <;> simp [isNone]

theorem isFloat_iff (t : Ty) : isFloat t = true ↔ t = .float := by cases t <;> simp [isFloat]

theorem isInt_iff (t : Ty) : isInt t = true ↔ t = .int := by cases t <;> simp [isInt]

/-- What is left for the union, `data_model/utils/annotation_utils.py` 22-26. -/
def left (types : List Ty) : List Ty :=
  let used := (ordered types).filter (fun t => !isNone t)
  if used.any isFloat then used.filter (fun t => !isInt t) else used

theorem mem_left (t : Ty) (types : List Ty) :
    t ∈ left types ↔ t ∈ types ∧ t ≠ .none ∧ (.float ∈ types → t ≠ .int) := by
  have hn : ∀ u, u ∈ (ordered types).filter (fun t => !isNone t) ↔ u ∈ types ∧ u ≠ .none := by
    intro u
    rw [List.mem_filter, mem_ordered]
    have := isNone_iff u
    cases h : isNone u <;> simp_all
  have hf : ((ordered types).filter (fun t => !isNone t)).any isFloat = true ↔
      .float ∈ types := by
    rw [List.any_eq_true]
    constructor
    · rintro ⟨u, hu, h⟩
      rw [(isFloat_iff u).1 h] at hu
      exact ((hn _).1 hu).1
    · intro h; exact ⟨.float, (hn _).2 ⟨h, by simp⟩, rfl⟩
  unfold left
  by_cases h : ((ordered types).filter (fun t => !isNone t)).any isFloat = true
  · simp only [if_pos h]
    rw [List.mem_filter, hn]
    have := isInt_iff t
    have := hf.1 h
    cases h : isInt t <;> simp_all
  · simp only [if_neg h]
    rw [hn]
    have : ¬ Ty.float ∈ types := fun hh => h (hf.2 hh)
    simp_all

theorem elemType_eq (types : List Ty) : elemType types =
    match left types with
    | [] => if (ordered types).any isNone then some .none else none
    | [t] => some (if (ordered types).any isNone then .union [t, .none] else t)
    | ts => some (.union (if (ordered types).any isNone then ts ++ [.none] else ts)) := rfl

theorem noneSeen_iff (types : List Ty) : (ordered types).any isNone = true ↔ .none ∈ types := by
  rw [List.any_eq_true]
  constructor
  · rintro ⟨u, hu, h⟩
    rw [(isNone_iff u).1 h] at hu
    exact (mem_ordered _ _).1 hu
  · intro h; exact ⟨.none, (mem_ordered _ _).2 h, rfl⟩

theorem elemType_none (types : List Ty) (h : elemType types = none) : types = [] := by
  rw [elemType_eq] at h
  have hl := mem_left (types := types)
  cases hleft : left types with
  | nil =>
    rw [hleft] at h hl
    simp only [ite_eq_right_iff, reduceCtorEq, imp_false] at h
    rw [noneSeen_iff] at h
    cases types with
    | nil => rfl
    | cons t ts =>
      exfalso
      have h1 : t ≠ .none := fun he => h (he ▸ List.mem_cons_self ..)
      have := (hl t).2
      by_cases hf : Ty.float ∈ t :: ts
      · have := (hl .float).2 ⟨hf, by simp, by simp⟩
        exact absurd this (by simp)
      · exact absurd (this ⟨List.mem_cons_self .., h1, fun hh => absurd hh hf⟩) (by simp)
  | cons t ts =>
    rw [hleft] at h
    cases ts <;> simp at h

theorem elemType_nil : elemType [] = none := rfl

/-- Types that are no unions. -/
def NoUnion (t : Ty) : Prop := ∀ ts, t ≠ .union ts

theorem elemType_covers (types : List Ty) (e : Ty) (hu : ∀ t ∈ types, NoUnion t)
    (h : elemType types = some e) :
    ∀ t ∈ types, Alternative e t ∨ (t = .int ∧ Alternative e .float) := by
  rw [elemType_eq] at h
  have hl := mem_left (types := types)
  have hn := noneSeen_iff types
  have cover : ∀ t ∈ types, t = .none ∨ t ∈ left types ∨ (t = .int ∧ .float ∈ left types) := by
    intro t ht
    by_cases h1 : t = .none
    · exact .inl h1
    · by_cases h2 : Ty.float ∈ types ∧ t = .int
      · exact .inr (.inr ⟨h2.2, (hl _).2 ⟨h2.1, by simp, by simp⟩⟩)
      · refine .inr (.inl ((hl _).2 ⟨ht, h1, fun hf hi => h2 ⟨hf, hi⟩⟩))
  have alt : ∀ t ∈ types, (t = .none → Alternative e .none) →
      (∀ u, u ∈ left types → Alternative e u) →
      Alternative e t ∨ (t = .int ∧ Alternative e .float) := by
    intro t ht h1 h2
    rcases cover t ht with rfl | h' | ⟨h', h''⟩
    · exact .inl (h1 rfl)
    · exact .inl (h2 _ h')
    · exact .inr ⟨h', h2 _ h''⟩
  intro t ht
  refine alt t ht ?_ ?_
  · rintro rfl
    have hs := hn.2 ht
    cases hleft : left types with
    | nil => rw [hleft] at h; simp [hs] at h; subst h; exact .itself (by simp)
    | cons a l =>
      rw [hleft] at h
      cases l with
      | nil => simp [hs] at h; subst h; exact .member (by simp)
      | cons b l => simp [hs] at h; subst h; exact .member (by simp)
  · intro u hul
    cases hleft : left types with
    | nil => rw [hleft] at hul; simp at hul
    | cons a l =>
      rw [hleft] at h hul
      cases l with
      | nil =>
        simp at hul; subst hul
        by_cases hs : (ordered types).any isNone = true
        · simp [hs] at h; subst h; exact .member (by simp)
        · simp [hs] at h; subst h
          exact .itself (hu _ ((hl _).1 (by rw [hleft]; simp)).1)
      | cons b l =>
        by_cases hs : (ordered types).any isNone = true
        · simp [hs] at h; subst h
          exact .member (by simp at hul ⊢; tauto)
        · simp [hs] at h; subst h
          exact .member (by simpa using hul)

theorem elemType_members (types : List Ty) (e : Ty) (hu : ∀ t ∈ types, NoUnion t)
    (h : elemType types = some e) : ∀ a, Alternative e a → a ∈ types := by
  rw [elemType_eq] at h
  have hl := mem_left (types := types)
  have hn := noneSeen_iff types
  have key : (e = .none ∧ .none ∈ types) ∨ e ∈ left types ∨
      ∃ ts, e = .union ts ∧ ∀ a ∈ ts, a ∈ left types ∨ (a = .none ∧ .none ∈ types) := by
    cases hleft : left types with
    | nil =>
      rw [hleft] at h
      by_cases hs : (ordered types).any isNone = true
      · simp [hs] at h; exact .inl ⟨h.symm, hn.1 hs⟩
      · simp [hs] at h
    | cons a l =>
      rw [hleft] at h
      cases l with
      | nil =>
        by_cases hs : (ordered types).any isNone = true
        · simp [hs] at h; subst h
          refine .inr (.inr ⟨_, rfl, ?_⟩)
          intro b hb
          simp at hb
          rcases hb with rfl | rfl
          · simp
          · exact .inr ⟨rfl, hn.1 hs⟩
        · simp [hs] at h; subst h; exact .inr (.inl (by simp))
      | cons b l =>
        by_cases hs : (ordered types).any isNone = true
        · simp [hs] at h; subst h
          refine .inr (.inr ⟨_, rfl, ?_⟩)
          intro c hc
          have : c ∈ a :: b :: l ∨ c = .none := by simp at hc ⊢; tauto
          rcases this with h1 | h1
          · exact .inl h1
          · exact .inr ⟨h1, hn.1 hs⟩
        · simp [hs] at h; subst h
          exact .inr (.inr ⟨_, rfl, fun c hc => .inl hc⟩)
  intro a ha
  rcases key with ⟨rfl, h1⟩ | h1 | ⟨ts, rfl, h1⟩
  · cases ha; exact h1
  · have := (hl _).1 h1
    cases ha with
    | member => exact absurd rfl (hu _ this.1 _)
    | itself => exact this.1
  · cases ha with
    | member hm =>
      rcases h1 a hm with h2 | ⟨rfl, h2⟩
      · exact ((hl _).1 h2).1
      · exact h2
    | itself hne => exact absurd rfl (hne ts)

theorem typesOf_eq (l : List Val) : typesOf l = l.map typeOf := by
  induction l with
  | nil => rfl
  | cons v l ih => simp [typesOf, ih]

theorem typeOf_noUnion (v : Val) : NoUnion (typeOf v) := by
  intro ts
  cases v with
  | list l => simp only [typeOf]; split <;> simp
  | set l => simp only [typeOf]; split <;> simp
  | tuple l =>
    simp only [typeOf, tupleType]
    split
    · simp
    · split
      · simp
      · split <;> simp
  | dict k v => simp only [typeOf, dictType]; split <;> simp
  | _ => simp [typeOf]

theorem typesOf_noUnion (l : List Val) : ∀ t ∈ typesOf l, NoUnion t := by
  rw [typesOf_eq]
  intro t ht
  obtain ⟨v, _, rfl⟩ := List.mem_map.1 ht
  exact typeOf_noUnion v

theorem hasType_of_alternative (v : Val) (e a : Ty) (h : Alternative e a) (hv : HasType v a) :
    HasType v e := by
  cases h with
  | member hm => exact .union hm hv
  | itself => exact hv

theorem elem_sound (l : List Val) (e : Ty) (hl : ∀ v ∈ l, HasType v (typeOf v))
    (h : elemType (typesOf l) = some e) : ∀ v ∈ l, HasType v e := by
  intro v hv
  have ht : typeOf v ∈ typesOf l := by rw [typesOf_eq]; exact List.mem_map_of_mem hv
  rcases elemType_covers _ e (typesOf_noUnion l) h _ ht with h1 | ⟨h1, h2⟩
  · exact hasType_of_alternative v e _ h1 (hl v hv)
  · refine hasType_of_alternative v e _ h2 ?_
    have := hl v hv
    rw [h1] at this
    cases this
    exact .promoted

theorem typesOf_length (l : List Val) : (typesOf l).length = l.length := by
  rw [typesOf_eq, List.length_map]

mutual
/-- The type given for a value is a type of the value, whatever the value is. -/
theorem sound : ∀ v : Val, HasType v (typeOf v)
  | .int => .int
  | .float => .float
  | .str => .str
  | .none => .none
  | .cls c => .cls c
  | .obj c => .obj c
  | .list l => by
    have ih := sounds l
    simp only [typeOf]
    cases h : elemType (typesOf l) with
    | none => exact .bareList l
    | some e => exact .list (elem_sound l e ih h)
  | .set l => by
    have ih := sounds l
    simp only [typeOf]
    cases h : elemType (typesOf l) with
    | none => exact .bareSet l
    | some e => exact .set (elem_sound l e ih h)
  | .tuple l => by
    have ih := sounds l
    simp only [typeOf, tupleType]
    have hfix : HasType (.tuple l) (.tuple (typesOf l)) := by
      refine .tuple (typesOf_length l).symm ?_
      intro i v t hv ht
      rw [typesOf_eq, List.getElem?_map, hv] at ht
      simp at ht
      subst ht
      exact ih v (List.mem_of_getElem? hv)
    split
    · exact .bareTuple l
    · split
      · exact hfix
      · cases h : elemType (typesOf l) with
        | none => exact hfix
        | some e => exact .tupleOf (elem_sound l e ih h)
  | .dict ks vs => by
    have ih := sounds ks
    have ih' := sounds vs
    simp only [typeOf, dictType]
    cases h : elemType (typesOf ks) with
    | none => exact .bareDict ks vs
    | some k =>
      cases h' : elemType (typesOf vs) with
      | none => exact .bareDict ks vs
      | some t => exact .dict (elem_sound ks k ih h) (elem_sound vs t ih' h')
theorem sounds : ∀ l : List Val, ∀ v ∈ l, HasType v (typeOf v)
  | [], v, h => by simp at h
  | u :: l, v, h => by
    rcases List.mem_cons.1 h with h | h
    · rw [h]; exact sound u
    · exact sounds l v h
end

theorem elem_tight (l : List Val) (e : Ty) (hl : ∀ v ∈ l, Tight v (typeOf v))
    (h : elemType (typesOf l) = some e) :
    ∃ f : Ty → Val, (∀ a, Alternative e a → f a ∈ l) ∧
      ∀ a, Alternative e a → Tight (f a) a := by
  have hm := elemType_members _ e (typesOf_noUnion l) h
  have : ∀ a, ∃ v, Alternative e a → v ∈ l ∧ Tight v a := by
    intro a
    by_cases ha : Alternative e a
    · have := hm a ha
      rw [typesOf_eq] at this
      obtain ⟨v, hv, rfl⟩ := List.mem_map.1 this
      exact ⟨v, fun _ => ⟨hv, hl v hv⟩⟩
    · exact ⟨.int, fun h => absurd h ha⟩
  choose f hf using this
  exact ⟨f, fun a ha => (hf a ha).1, fun a ha => (hf a ha).2⟩

theorem elem_empty (l : List Val) (h : elemType (typesOf l) = none) : l = [] := by
  have := elemType_none _ h
  rw [typesOf_eq] at this
  simpa using this

mutual
/-- The type given for a value says nothing that the value does not call for. -/
theorem tight : ∀ v : Val, Proper v → Tight v (typeOf v)
  | .int, _ => .int
  | .float, _ => .float
  | .str, _ => .str
  | .none, _ => .none
  | .cls c, _ => .cls c
  | .obj c, _ => .obj c
  | .list l, hp => by
    have ih := tights l (by cases hp; assumption)
    simp only [typeOf]
    cases h : elemType (typesOf l) with
    | none => rw [elem_empty l h]; exact .bareList
    | some e =>
      obtain ⟨f, h1, h2⟩ := elem_tight l e ih h
      exact .list h1 h2
  | .set l, hp => by
    have ih := tights l (by cases hp; assumption)
    simp only [typeOf]
    cases h : elemType (typesOf l) with
    | none => rw [elem_empty l h]; exact .bareSet
    | some e =>
      obtain ⟨f, h1, h2⟩ := elem_tight l e ih h
      exact .set h1 h2
  | .tuple l, hp => by
    have ih := tights l (by cases hp; assumption)
    simp only [typeOf, tupleType]
    have hfix : Tight (.tuple l) (.tuple (typesOf l)) := by
      refine .tuple (typesOf_length l).symm ?_
      intro i v t hv ht
      rw [typesOf_eq, List.getElem?_map, hv] at ht
      simp at ht
      subst ht
      exact ih v (List.mem_of_getElem? hv)
    by_cases h0 : (typesOf l).length = 0
    · rw [if_pos h0]
      rw [typesOf_length] at h0
      rw [List.length_eq_zero_iff.1 h0]
      exact .bareTuple
    · rw [if_neg h0]
      split
      · exact hfix
      · cases h : elemType (typesOf l) with
        | none => exact hfix
        | some e =>
          obtain ⟨f, h1, h2⟩ := elem_tight l e ih h
          exact .tupleOf h1 h2
  | .dict ks vs, hp => by
    have ih := tights ks (by cases hp; assumption)
    have ih' := tights vs (by cases hp; assumption)
    have hlen : ks.length = vs.length := by cases hp; assumption
    simp only [typeOf, dictType]
    cases h : elemType (typesOf ks) with
    | none =>
      have h1 := elem_empty ks h
      subst h1
      rw [List.length_eq_zero_iff.1 hlen.symm]
      exact .bareDict
    | some k =>
      cases h' : elemType (typesOf vs) with
      | none =>
        have h1 := elem_empty vs h'
        subst h1
        rw [List.length_eq_zero_iff.1 hlen]
        exact .bareDict
      | some t =>
        obtain ⟨f, h1, h2⟩ := elem_tight ks k ih h
        obtain ⟨g, h3, h4⟩ := elem_tight vs t ih' h'
        exact .dict h1 h2 h3 h4
theorem tights : ∀ l : List Val, (∀ v ∈ l, Proper v) → ∀ v ∈ l, Tight v (typeOf v)
  | [], _, v, h => by simp at h
  | u :: l, hp, v, h => by
    rcases List.mem_cons.1 h with h | h
    · rw [h]; exact tight u (hp u (by simp))
    · exact tights l (fun w hw => hp w (by simp [hw])) v h
end

/-! ## The text -/

theorem inter1 (sep a : String) : sep.intercalate [a] = a := rfl

theorem inter2 (sep a b : String) : sep.intercalate [a, b] = a ++ sep ++ b := rfl

theorem showTys_eq (ts : List Ty) : showTys ts = ts.map showTy := by
  induction ts with
  | nil => rfl
  | cons t ts ih => simp [showTys, ih]

theorem spells_pointwise (ts : List Ty) (h : ∀ t ∈ ts, Spells (showTy t) t) :
    ∀ (i : Nat) s t, (ts.map showTy)[i]? = some s → ts[i]? = some t → Spells s t := by
  intro i s t hs ht
  rw [List.getElem?_map, ht] at hs
  simp at hs
  subst hs
  exact h t (List.mem_of_getElem? ht)

theorem spells_union (ts : List Ty) (h : ∀ t ∈ ts, Spells (showTy t) t) (hne : ts ≠ []) :
    Spells (applied "Union" ((ts.map showTy).insertionSort (· ≤ ·))) (.union ts) := by
  have hmap : (ts.map showTy).insertionSort (· ≤ ·) =
      (ts.insertionSort (fun a b => showTy a ≤ showTy b)).map showTy :=
    (List.map_insertionSort (f := showTy) (r := fun a b => showTy a ≤ showTy b)
      (s := (· ≤ ·)) (l := ts) (by intros; rfl)).symm
  rw [hmap]
  have hperm := List.perm_insertionSort (fun a b => showTy a ≤ showTy b) ts
  refine .reorder ?_ hperm
  have := Spells.union (ss := (ts.insertionSort (fun a b => showTy a ≤ showTy b)).map showTy)
    (ts := ts.insertionSort (fun a b => showTy a ≤ showTy b)) (by simp)
    (by
      intro he
      rw [List.map_eq_nil_iff] at he
      have := hperm.length_eq
      rw [he] at this
      exact hne (List.length_eq_zero_iff.1 this.symm))
    (spells_pointwise _ (fun t ht => h t (hperm.mem_iff.1 ht)))
  simpa [applied, String.append_assoc] using this

theorem elem_spells (types : List Ty) (e : Ty)
    (hs : ∀ t ∈ types, Spells (showTy t) t) (h : elemType types = some e) :
    Spells (showTy e) e := by
  rw [elemType_eq] at h
  have hl := mem_left (types := types)
  have hs' : ∀ t ∈ left types, Spells (showTy t) t := fun t ht => hs t ((hl t).1 ht).1
  cases hleft : left types with
  | nil =>
    rw [hleft] at h
    by_cases hn : (ordered types).any isNone = true
    · simp [hn] at h; subst h; exact .none
    · simp [hn] at h
  | cons a l =>
    have ha := hs' a (by rw [hleft]; simp)
    cases l with
    | nil =>
      rw [hleft] at h
      by_cases hn : (ordered types).any isNone = true
      · simp [hn] at h; subst h
        have := Spells.optional ha
        simpa [showTy, showTys, showUnion, isNone, applied, String.append_assoc] using this
      · simp [hn] at h; subst h; exact ha
    | cons b l =>
      by_cases hn : (ordered types).any isNone = true
      · rw [hleft] at h
        simp [hn] at h
        subst h
        have := spells_union (a :: b :: (l ++ [.none])) (by
          intro t ht
          have : t ∈ a :: b :: l ∨ t = .none := by simp at ht ⊢; tauto
          rcases this with h1 | rfl
          · exact hs' t (by rw [hleft]; exact h1)
          · exact .none) (by simp)
        simp only [showTy, showTys_eq, showUnion]
        simpa using this
      · have hlast : (((a :: b :: l).getLast?.map isNone).getD false) = false := by
          rw [List.getLast?_eq_some_getLast (by simp)]
          simp only [Option.map_some, Option.getD_some]
          have hm := List.getLast_mem (l := a :: b :: l) (by simp)
          have := ((hl _).1 (by rw [hleft]; exact hm)).2.1
          cases hh : isNone ((a :: b :: l).getLast (by simp)) with
          | false => rfl
          | true => exact absurd ((isNone_iff _).1 hh) this
        rw [hleft] at h
        simp [hn] at h
        subst h
        have := spells_union (a :: b :: l) (by
          intro t ht; exact hs' t (by rw [hleft]; exact ht)) (by simp)
        rw [showTy, showTys_eq, hlast]
        simpa [showUnion] using this

theorem names_plain (c : Cls) (h : Plain c) : Names (showCls c) c := by
  obtain ⟨m, n, p⟩ := c
  obtain ⟨h1, h2⟩ := h
  simp only at h1 h2
  subst h1
  unfold showCls
  simp only [h2, false_or]
  by_cases hm : m = "__main__" ∨ m = "builtins"
  · rw [if_pos (by tauto)]
    have := Names.here (n := n) (p := [n]) hm
    simpa [inter1, inter2] using this
  · rw [if_neg (by tauto)]
    have := Names.other (n := n) (p := [n]) (fun h => hm (.inl h)) (fun h => hm (.inr h))
    simpa [inter1, inter2] using this

mutual
theorem spells_typeOf : ∀ v : Val, (∀ c, Occurs c v → Plain c) →
    Spells (showTy (typeOf v)) (typeOf v)
  | .int, _ => .int
  | .float, _ => .float
  | .str, _ => .str
  | .none, _ => .none
  | .cls c, h => by
    have := Spells.type (names_plain c (h c (.cls c)))
    simpa [typeOf, showTy, applied, String.append_assoc, inter1, inter2] using this
  | .obj c, h => .cls (names_plain c (h c (.obj c)))
  | .list l, h => by
    have ih := spells_typesOf l (fun c v hv ho => h c (.list hv ho))
    simp only [typeOf]
    cases he : elemType (typesOf l) with
    | none => exact .bareList
    | some e =>
      have := Spells.list (elem_spells _ e ih he)
      simpa [showTy, applied, String.append_assoc, inter1, inter2] using this
  | .set l, h => by
    have ih := spells_typesOf l (fun c v hv ho => h c (.set hv ho))
    simp only [typeOf]
    cases he : elemType (typesOf l) with
    | none => exact .bareSet
    | some e =>
      have := Spells.set (elem_spells _ e ih he)
      simpa [showTy, applied, String.append_assoc, inter1, inter2] using this
  | .tuple l, h => by
    have ih := spells_typesOf l (fun c v hv ho => h c (.tuple hv ho))
    simp only [typeOf, tupleType]
    by_cases h0 : (typesOf l).length = 0
    · rw [if_pos h0]; exact .bareTuple
    · have hfix : Spells (showTy (.tuple (typesOf l))) (.tuple (typesOf l)) := by
        have := Spells.tuple (ss := (typesOf l).map showTy) (ts := typesOf l) (by simp)
          (by
            intro he
            rw [List.map_eq_nil_iff] at he
            rw [he] at h0
            exact h0 rfl) (spells_pointwise _ ih)
        simpa [showTy, showTys_eq, applied, String.append_assoc] using this
      rw [if_neg h0]
      split
      · exact hfix
      · cases he : elemType (typesOf l) with
        | none => exact hfix
        | some e =>
          have := Spells.tupleOf (elem_spells _ e ih he)
          simpa [showTy, applied, String.append_assoc, inter1, inter2] using this
  | .dict ks vs, h => by
    have ih := spells_typesOf ks (fun c v hv ho => h c (.key hv ho))
    have ih' := spells_typesOf vs (fun c v hv ho => h c (.value hv ho))
    simp only [typeOf, dictType]
    cases he : elemType (typesOf ks) with
    | none => exact .bareDict
    | some k =>
      cases he' : elemType (typesOf vs) with
      | none => exact .bareDict
      | some t =>
        have := Spells.dict (elem_spells _ k ih he) (elem_spells _ t ih' he')
        simpa [showTy, applied, String.append_assoc, inter1, inter2] using this
theorem spells_typesOf : ∀ l : List Val, (∀ c, ∀ v ∈ l, Occurs c v → Plain c) →
    ∀ t ∈ typesOf l, Spells (showTy t) t
  | [], _, t, ht => by simp [typesOf] at ht
  | v :: l, h, t, ht => by
    simp only [typesOf, List.mem_cons] at ht
    rcases ht with ht | ht
    · rw [ht]; exact spells_typeOf v (fun c ho => h c v (by simp) ho)
    · exact spells_typesOf l (fun c w hw ho => h c w (by simp [hw]) ho) t ht
end

/-- The text declared for a variable stands for a type of the value of the variable, which says
nothing that the value does not call for; if the classes that occur in it are found in their
modules under their own names. -/
theorem declared_partial (v : Val) (hp : Proper v) (hc : ∀ c, Occurs c v → Plain c) :
    ∃ t, Spells (declared v) t ∧ HasType v t ∧ Tight v t :=
  ⟨typeOf v, spells_typeOf v hc, sound v, tight v hp⟩

/-! ## The order of the elements -/

theorem perm_of_nodup {l l' : List Ty} (h : l.Nodup) (h' : l'.Nodup)
    (hm : ∀ t, t ∈ l ↔ t ∈ l') : l.Perm l' := (List.perm_ext_iff_of_nodup h h').2 hm

theorem nodup_left (types : List Ty) : (left types).Nodup := by
  have h : (ordered types).Nodup :=
    (List.perm_insertionSort _ _).nodup_iff.2 (nodup_distinct types)
  unfold left
  simp only
  split
  · exact (h.filter _).filter _
  · exact h.filter _

theorem left_perm (types types' : List Ty) (h : ∀ t, t ∈ types ↔ t ∈ types') :
    (left types).Perm (left types') := by
  refine perm_of_nodup (nodup_left _) (nodup_left _) ?_
  intro t
  rw [mem_left, mem_left, h t, h .float]

theorem sort_perm (ss ss' : List String) (h : ss.Perm ss') :
    ss.insertionSort (· ≤ ·) = ss'.insertionSort (· ≤ ·) := by
  refine List.Perm.eq_of_pairwise (le := (· ≤ ·)) ?_ (List.pairwise_insertionSort _ _)
    (List.pairwise_insertionSort _ _)
    (((List.perm_insertionSort _ ss).trans h).trans (List.perm_insertionSort _ ss').symm)
  intro a b _ _ h1 h2
  exact le_antisymm h1 h2

theorem elem_order (types types' : List Ty) (h : ∀ t, t ∈ types ↔ t ∈ types') :
    (elemType types).map showTy = (elemType types').map showTy := by
  have hp := left_perm types types' h
  have hn : (ordered types).any isNone = (ordered types').any isNone := by
    rw [Bool.eq_iff_iff, noneSeen_iff, noneSeen_iff, h]
  have hl := mem_left (types := types)
  have hl' := mem_left (types := types')
  rw [elemType_eq, elemType_eq, hn]
  cases hleft : left types with
  | nil =>
    rw [hleft] at hp
    rw [List.nil_perm.1 hp]
  | cons a l =>
    cases l with
    | nil =>
      rw [hleft] at hp
      rw [List.singleton_perm.1 hp]
    | cons b l =>
      rw [hleft] at hp
      obtain ⟨a', b', l', hleft'⟩ : ∃ a' b' l', left types' = a' :: b' :: l' := by
        have := hp.length_eq
        match hh : left types' with
        | [] => rw [hh] at this; simp at this
        | [x] => rw [hh] at this; simp at this
        | a' :: b' :: l' => exact ⟨a', b', l', rfl⟩
      rw [hleft']
      rw [hleft'] at hp
      by_cases hs : (ordered types').any isNone = true
      · have e1 := sort_perm _ _ ((hp.append_right [Ty.none]).map showTy)
        simp [hs, showTy, showTys_eq, showUnion] at e1 ⊢
        rw [e1]
      · have last : ∀ (ts : List Ty), (∀ t ∈ ts, t ≠ .none) →
            ((ts.getLast?.map isNone).getD false) = false := by
          intro ts hts
          cases hg : ts.getLast? with
          | none => rfl
          | some t =>
            simp only [Option.map_some, Option.getD_some]
            have := hts t (List.mem_of_getLast? hg)
            cases hh : isNone t with
            | false => rfl
            | true => exact absurd ((isNone_iff _).1 hh) this
        have e1 := sort_perm _ _ (hp.map showTy)
        have l1 := last (a :: b :: l) (fun t ht => ((hl t).1 (by rw [hleft]; exact ht)).2.1)
        have l2 := last (a' :: b' :: l')
          (fun t ht => ((hl' t).1 (by rw [hleft']; exact ht)).2.1)
        simp only [hs, Bool.false_eq_true, if_false, Option.map_some, Option.some.injEq]
        rw [showTy, showTy, showTys_eq, showTys_eq, l1, l2]
        simp [showUnion] at e1 ⊢
        rw [e1]

/-- What is declared for a list does not depend on the order of its elements or on how often
they occur. -/
theorem list_order (l l' : List Val) (h : ∀ v, v ∈ l ↔ v ∈ l') :
    declared (.list l) = declared (.list l') := by
  have he := elem_order (typesOf l) (typesOf l') (by
    intro t; rw [typesOf_eq, typesOf_eq, List.mem_map, List.mem_map]; simp only [h])
  unfold declared
  simp only [typeOf]
  cases h1 : elemType (typesOf l) <;> cases h2 : elemType (typesOf l') <;>
    simp_all [showTy]

/-- The same for sets, whose elements have no order. -/
theorem set_order (l l' : List Val) (h : ∀ v, v ∈ l ↔ v ∈ l') :
    declared (.set l) = declared (.set l') := by
  have he := elem_order (typesOf l) (typesOf l') (by
    intro t; rw [typesOf_eq, typesOf_eq, List.mem_map, List.mem_map]; simp only [h])
  unfold declared
  simp only [typeOf]
  cases h1 : elemType (typesOf l) <;> cases h2 : elemType (typesOf l') <;>
    simp_all [showTy]

/-! ## Where it goes wrong -/

theorem mem_le_sum (l : List Nat) (n : Nat) (h : n ∈ l) : n ≤ l.sum := by
  induction l with
  | nil => simp at h
  | cons a l ih =>
    rw [List.sum_cons]
    rcases List.mem_cons.1 h with rfl | h
    · omega
    · have := ih h; omega

theorem spells_cls (s : String) (t : Ty) (c : Cls) (h : Spells s t) (ht : t = .cls c) :
    Names s c := by
  cases h <;> first | (cases ht; assumption) | cases ht

theorem length_inter (p : List String) (n : String) (h : n ∈ p) (h2 : 2 ≤ p.length) :
    n.length < (".".intercalate p).length := by
  have key : ∀ (p : List String) (acc : String),
      (".".intercalate (acc :: p)).length = acc.length + (p.map (fun s => s.length + 1)).sum := by
    intro p
    induction p with
    | nil => intro acc; simp
    | cons a p ih =>
      intro acc
      have : ".".intercalate (acc :: a :: p) = ".".intercalate ((acc ++ "." ++ a) :: p) := rfl
      rw [this, ih]
      rw [String.length_append, String.length_append, List.map_cons, List.sum_cons]
      have : (".":String).length = 1 := rfl
      omega
  cases p with
  | nil => simp at h
  | cons a p =>
    rw [key]
    rcases List.mem_cons.1 h with rfl | h'
    · cases p with
      | nil => simp at h2
      | cons b p => simp
    · have : n.length + 1 ≤ (p.map (fun s => s.length + 1)).sum :=
        mem_le_sum _ _ (List.mem_map_of_mem h')
      omega

/-- Objects of a class that is defined in another class are declared with a name that is not
that of the class. -/
theorem inner_misnamed (c : Cls) (p : List String) (hp : c.path = some p)
    (hn : c.name ∈ p) (h2 : 2 ≤ p.length) :
    ¬ Spells (declared (.obj c)) (.cls c) := by
  intro h
  have hlen := length_inter p c.name hn h2
  have hnm : Names (showCls c) c := spells_cls _ _ c h rfl
  obtain ⟨m, n, q⟩ := c
  simp only at hp hn hlen
  subst hp
  generalize hs : showCls ⟨m, n, some p⟩ = s at hnm
  unfold showCls at hs
  cases hnm with
  | here hm =>
    rw [if_pos (by simp only; tauto)] at hs
    simp only at hs
    rw [hs] at hlen
    exact absurd hlen (lt_irrefl _)
  | other h1 h2 =>
    simp only [h1, h2, or_false] at hs
    have := congrArg String.length hs
    split at this
    · simp [String.length_append] at this; omega
    · simp [String.length_append] at this; omega

/-- And classes that differ only in where they are defined are not told apart. -/
theorem inner_confused (m n : String) (p q : Option (List String)) :
    declared (.obj ⟨m, n, p⟩) = declared (.obj ⟨m, n, q⟩) := rfl

end Verif.Types
