import Verif.Annot.Model

/-!
# C98: which annotation a method call gets
-/

namespace Verif.Annot

variable {C M F H : Type} [DecidableEq C] [DecidableEq M] [DecidableEq F]

/-! ## Specification -/

/-- `h` is the annotation of method `m` of class `c`: the last one given. -/
def Annotated (rs : List (C × M × H)) (c : C) (m : M) (h : H) : Prop :=
  ∃ l1 l2, rs = l1 ++ (c, m, h) :: l2 ∧ ∀ r ∈ l2, ¬ (r.1 = c ∧ r.2.1 = m)

/-- The annotation for `m` that the classes of an object inherit: the one of the first class that has one. -/
def Inherits (L : Lib C M F) (rs : List (C × M × H)) (c : C) (m : M) (h : H) : Prop :=
  ∃ l1 d l2, L.mro c = l1 ++ d :: l2 ∧ Annotated rs d m h ∧ ∀ b ∈ l1, ∀ h', ¬ Annotated rs b m h'

/-- The methods that are annotated for a class are defined there. -/
def Own (L : Lib C M F) (rs : List (C × M × H)) : Prop := ∀ r ∈ rs, ∃ f, L.defines r.1 r.2.1 = some f

/-- Different methods are different functions. -/
def Distinct (L : Lib C M F) : Prop := ∀ c m c' m' f, L.defines c m = some f → L.defines c' m' = some f → c = c' ∧ m = m'

/-- Every class comes first in its own order. -/
def Heads (L : Lib C M F) : Prop := ∀ c, (L.mro c).head? = some c

/-! ## Proofs -/

theorem get_cons {K V : Type} [DecidableEq K] (k' k : K) (v : V) (d : List (K × V)) : get ((k', v) :: d) k = if k' = k then some v else get d k := by
  unfold get
  by_cases h : k' = k
  · simp [h]
  · simp [h]

/-- What the registrations leave behind. -/
theorem byMethod_iff (L : Lib C M F) (rs : List (C × M × H)) : ∀ c m h, get (registerAll L rs).byMethod (c, m) = some h ↔ Annotated rs c m h := by
  intro c m h
  unfold registerAll
  induction rs using List.reverseRecOn with
  | nil =>
    simp [get, Annotated]
  | append_singleton rs r ih =>
    rw [List.foldl_append]
    simp only [List.foldl_cons, List.foldl_nil]
    show get (((r.1, r.2.1), r.2.2) :: (rs.foldl (register L) ⟨[], []⟩).byMethod) (c, m) = some h ↔ _
    rw [get_cons]
    by_cases hr : (r.1, r.2.1) = (c, m)
    · rw [if_pos hr]
      obtain ⟨h1, h2⟩ := Prod.mk.inj hr
      constructor
      · intro he
        refine ⟨rs, [], ?_, by simp⟩
        rw [← h1, ← h2, ← Option.some.inj he]
      · rintro ⟨l1, l2, he, hl⟩
        rcases List.eq_nil_or_concat l2 with rfl | ⟨l3, x, rfl⟩
        · have := (List.append_inj' he rfl).2
          simp only [List.cons.injEq, and_true] at this
          rw [this]
        · have h3 : rs ++ [r] = (l1 ++ (c, m, h) :: l3) ++ [x] := by rw [he]; simp
          have h4 := (List.append_inj' h3 rfl).2
          simp only [List.cons.injEq, and_true] at h4
          subst h4
          exact absurd ⟨h1, h2⟩ (hl r (by simp))
    · rw [if_neg hr, ih]
      constructor
      · rintro ⟨l1, l2, rfl, hl⟩
        refine ⟨l1, l2 ++ [r], by simp, fun x hx => ?_⟩
        rcases List.mem_append.1 hx with hx | hx
        · exact hl x hx
        · rw [List.mem_singleton.1 hx]
          rintro ⟨h1, h2⟩
          exact hr (by rw [h1, h2])
      · rintro ⟨l1, l2, he, hl⟩
        rcases List.eq_nil_or_concat l2 with rfl | ⟨l3, x, rfl⟩
        · have := (List.append_inj' he rfl).2
          simp only [List.cons.injEq, and_true] at this
          exact absurd (by rw [this]) hr
        · have h3 : rs ++ [r] = (l1 ++ (c, m, h) :: l3) ++ [x] := by rw [he]; simp
          have h4 := (List.append_inj' h3 rfl)
          exact ⟨l1, l3, h4.1, fun y hy => hl y (by simp [hy])⟩

theorem attr_own {L : Lib C M F} (hh : Heads L) {c : C} {m : M} {f : F} (h : L.defines c m = some f) : attr L c m = some f := by
  unfold attr
  have h1 := hh c
  cases hm : L.mro c with
  | nil => rw [hm] at h1; cases h1
  | cons d l =>
    rw [hm] at h1
    have : d = c := Option.some.inj h1
    subst this
    rw [List.findSome?_cons, h]

theorem register_some {L : Lib C M F} {t : Tables C M F H} {r : C × M × H} {g : F} (h : attr L r.1 r.2.1 = some g) :
    register L t r = ⟨((r.1, r.2.1), r.2.2) :: t.byMethod, (g, r.2.2) :: t.byFunction⟩ := by
  unfold register
  rw [h]

theorem byFunction_iff {L : Lib C M F} (hh : Heads L) (hd : Distinct L) : ∀ (rs : List (C × M × H)), Own L rs → ∀ {d : C} {m : M} {f : F},
    L.defines d m = some f → get (registerAll L rs).byFunction f = get (registerAll L rs).byMethod (d, m) := by
  intro rs
  unfold registerAll
  induction rs using List.reverseRecOn with
  | nil => intro _ d m f _; rfl
  | append_singleton rs r ih =>
    intro ho d m f hf
    rw [List.foldl_append]
    simp only [List.foldl_cons, List.foldl_nil]
    obtain ⟨g, hg⟩ := ho r (by simp)
    have ha := attr_own hh hg
    rw [register_some ha]
    simp only
    rw [get_cons, get_cons, ih (fun x hx => ho x (by simp [hx])) hf]
    by_cases he : (r.1, r.2.1) = (d, m)
    · obtain ⟨h1, h2⟩ := Prod.mk.inj he
      rw [h1, h2, hf] at hg
      rw [if_pos he, if_pos (Option.some.inj hg).symm]
    · rw [if_neg he]
      have : g ≠ f := by
        rintro rfl
        obtain ⟨h1, h2⟩ := hd _ _ _ _ _ hg hf
        exact he (by rw [h1, h2])
      rw [if_neg this]

theorem findSome_iff {α β : Type} (g : α → Option β) (l : List α) (b : β) :
    l.findSome? g = some b ↔ ∃ l1 a l2, l = l1 ++ a :: l2 ∧ g a = some b ∧ ∀ x ∈ l1, g x = none := by
  induction l with
  | nil => simp
  | cons x l ih =>
    rw [List.findSome?_cons]
    cases hx : g x with
    | some y =>
      simp only
      constructor
      · intro h; exact ⟨[], x, l, rfl, by rw [hx, h], by simp⟩
      · rintro ⟨l1, a, l2, he, ha, hl⟩
        cases l1 with
        | nil =>
          simp only [List.nil_append, List.cons.injEq] at he
          rw [← he.1, hx] at ha; exact ha
        | cons z l1 =>
          simp only [List.cons_append, List.cons.injEq] at he
          have := hl z (List.mem_cons_self ..)
          rw [← he.1, hx] at this; cases this
    | none =>
      simp only
      rw [ih]
      constructor
      · rintro ⟨l1, a, l2, rfl, ha, hl⟩
        refine ⟨x :: l1, a, l2, rfl, ha, fun z hz => ?_⟩
        rcases List.mem_cons.1 hz with rfl | hz
        · exact hx
        · exact hl z hz
      · rintro ⟨l1, a, l2, he, ha, hl⟩
        cases l1 with
        | nil =>
          simp only [List.nil_append, List.cons.injEq] at he
          rw [← he.1, hx] at ha; cases ha
        | cons z l1 =>
          simp only [List.cons_append, List.cons.injEq] at he
          exact ⟨l1, a, l2, he.2, ha, fun y hy => hl y (List.mem_cons_of_mem _ hy)⟩

/-- C98 in part. If every annotated method is defined by the class it is annotated for, then a method call gets the annotation that is inherited, and none
if there is none. Missing: annotations of methods that the class inherits, see `choose_violated`. -/
theorem choose_partial {L : Lib C M F} {rs : List (C × M × H)} (hh : Heads L) (hd : Distinct L) (ho : Own L rs) (c : C) (m : M) (h : H) :
    choose L (registerAll L rs) c m = some h ↔ Inherits L rs c m h := by
  have hmro : choose L (registerAll L rs) c m = (L.mro c).findSome? fun d => get (registerAll L rs).byMethod (d, m) := by
    unfold choose
    cases ha : attr L c m with
    | none => rfl
    | some f =>
      obtain ⟨l1, d, l2, h1, h2, h3⟩ := (findSome_iff _ _ _).1 ha
      have hbf := byFunction_iff hh hd rs ho h2
      show (match get (registerAll L rs).byFunction f with | some h => some h | none => _) = _
      rw [hbf]
      cases hg : get (registerAll L rs).byMethod (d, m) with
      | none => rfl
      | some h0 =>
        refine ((findSome_iff _ _ _).2 ⟨l1, d, l2, h1, hg, fun b hb => ?_⟩).symm
        cases hb2 : get (registerAll L rs).byMethod (b, m) with
        | none => rfl
        | some h' =>
          obtain ⟨k1, k2, rfl, _⟩ := (byMethod_iff L _ b m h').1 hb2
          obtain ⟨g, hg⟩ := ho (b, m, h') (by simp)
          rw [h3 b hb] at hg; cases hg
  rw [hmro, findSome_iff]
  unfold Inherits
  constructor
  · rintro ⟨l1, d, l2, h1, h2, h3⟩
    refine ⟨l1, d, l2, h1, (byMethod_iff L rs d m h).1 h2, fun b hb h' hh' => ?_⟩
    have := (byMethod_iff L rs b m h').2 hh'
    rw [h3 b hb] at this; cases this
  · rintro ⟨l1, d, l2, h1, h2, h3⟩
    refine ⟨l1, d, l2, h1, (byMethod_iff L rs d m h).2 h2, fun b hb => ?_⟩
    cases hb2 : get (registerAll L rs).byMethod (b, m) with
    | none => rfl
    | some h' => exact absurd ((byMethod_iff L rs b m h').1 hb2) (h3 b hb h')

/-! ## Cases -/

/-- Class 1 derives from class 0; both have a method 0 of their own, and class 0 a method 1. -/
def lib : Lib Nat Nat Nat where
  mro c := if c = 1 then [1, 0] else [c]
  defines c m := if c = 0 ∧ m = 0 then some 10 else if c = 1 ∧ m = 0 then some 11 else if c = 0 ∧ m = 1 then some 20 else none

/-- Annotations as `choose_partial` asks for: each class gets its own for method 0, and both get the one of class 0 for method 1. -/
example : Heads lib ∧ Distinct lib ∧ Own lib [(0, 0, 'a'), (1, 0, 'b'), (0, 1, 'c')] ∧
    choose lib (registerAll lib [(0, 0, 'a'), (1, 0, 'b'), (0, 1, 'c')]) 0 0 = some 'a' ∧
    choose lib (registerAll lib [(0, 0, 'a'), (1, 0, 'b'), (0, 1, 'c')]) 1 0 = some 'b' ∧
    choose lib (registerAll lib [(0, 0, 'a'), (1, 0, 'b'), (0, 1, 'c')]) 1 1 = some 'c' := by
  refine ⟨fun c => ?_, fun c m c' m' f h1 h2 => ?_, fun r hr => ?_, by decide, by decide, by decide⟩
  · unfold lib; simp only; split <;> simp_all
  · unfold lib at h1 h2
    simp only at h1 h2
    split at h1 <;> split at h2 <;> (try split at h1) <;> (try split at h2) <;> (try split at h1) <;> (try split at h2) <;> simp_all <;> omega
  · simp only [List.mem_cons, List.not_mem_nil, or_false] at hr
    rcases hr with rfl | rfl | rfl
    · exact ⟨10, by decide⟩
    · exact ⟨11, by decide⟩
    · exact ⟨20, by decide⟩

/-- **C98 fails** for methods that are inherited: if method 1 is annotated for the class that defines it and then for a derived class, calls on objects of the
former get the annotation for the latter. -/
theorem choose_violated : Inherits lib [(0, 1, 'a'), (1, 1, 'b')] 0 1 'a' ∧ choose lib (registerAll lib [(0, 1, 'a'), (1, 1, 'b')]) 0 1 = some 'b' := by
  refine ⟨⟨[], 0, [], by decide, ⟨[], [(1, 1, 'b')], rfl, by simp⟩, by simp⟩, by decide⟩

/-- **C98 fails** the other way round as well: if the derived class is annotated first, its annotation is not used for its own objects. -/
theorem choose_violated_order : Inherits lib [(1, 1, 'b'), (0, 1, 'a')] 1 1 'b' ∧ choose lib (registerAll lib [(1, 1, 'b'), (0, 1, 'a')]) 1 1 = some 'a' := by
  refine ⟨⟨[], 1, [0], by decide, ⟨[], [(0, 1, 'a')], rfl, by simp⟩, by simp⟩, by decide⟩

end Verif.Annot
