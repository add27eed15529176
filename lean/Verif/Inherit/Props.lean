import Verif.Inherit.Spec

/-!
# The attribute of an object depends on the class that it comes from -/

namespace Verif.Inherit
open Spec

theorem put_has (s : Sys) (o a : Nat) (v : Option (List Nat)) : (put s o a v).has = s.has ∧ (put s o a v).dict = s.dict := ⟨rfl, rfl⟩

theorem load_has (w : World) (s : Sys) (o a : Nat) : (load w s o a).has = s.has ∧ (load w s o a).dict = s.dict := by
  unfold load
  by_cases h : found w s o a = true
  · rw [if_pos h]
    cases s.syms o a <;> exact ⟨rfl, rfl⟩
  · rw [if_neg h]
    exact ⟨rfl, rfl⟩

theorem store_has (w : World) (s : Sys) (o a : Nat) : (store w s o a).has = s.has := by
  unfold store
  cases s.syms o a <;> rfl

theorem has_iff (w : World) (h : List Ev) (c a : Nat) : (after w h).has c a = true ↔ Given h c a := by
  induction h with
  | nil => simp [after, start, Given]
  | cons e h ih =>
    unfold Given at *
    cases e with
    | setC d b =>
      by_cases q : c = d ∧ a = b
      · obtain ⟨rfl, rfl⟩ := q
        simp [after, step]
      · simp only [after, step, if_false, ih, List.mem_cons, Ev.setC.injEq, q, false_or]
    | read o b => simp [after, step, load_has, ih]
    | setO o b => simp [after, step, store_has, ih]
    | hidden o b => simp [after, step, ih]
    | delO o b =>
      by_cases q : (after w h).dict o b = true
      · simp [after, step, q, put, ih]
      · simp [after, step, q, ih]

theorem dict_iff (w : World) (h : List Ev) (o a : Nat) : (after w h).dict o a = true ↔ Own h o a := by
  induction h with
  | nil => simp [after, start, Own]
  | cons e h ih =>
    cases e with
    | setC d b => simpa [after, step, Own] using ih
    | read p b => simpa [after, step, load_has, Own] using ih
    | setO p b =>
      by_cases q : o = p ∧ a = b
      · simp [after, step, Own, q]
      · simp only [after, step, Own, if_false, ih, q, false_or]
    | hidden p b =>
      by_cases q : o = p ∧ a = b
      · simp [after, step, Own, q]
      · simp only [after, step, Own, if_false, ih, q, false_or]
    | delO p b =>
      by_cases q : o = p ∧ a = b
      · obtain ⟨rfl, rfl⟩ := q
        by_cases r : (after w h).dict o a = true
        · simp [after, step, Own, r]
        · simp [after, step, Own, r]
      · by_cases r : (after w h).dict p b = true
        · simp only [after, step, Own, if_pos r, if_false, ih, q, not_false_eq_true, true_and]
        · simp only [after, step, Own, if_neg r, ih, q, not_false_eq_true, true_and]

theorem found_of_from {w : World} {h : List Ev} {o a d : Nat} (q : From w h o a d) : found w (after w h) o a = true := by
  obtain ⟨-, l, r, hl, hg, -⟩ := q
  unfold found
  rw [hl]
  simp [(has_iff w h d a).2 hg]

/-- An event that is none of the object's own for this attribute leaves a symbol that is there. -/
theorem syms_kept (w : World) (h : List Ev) (e : Ev) (o a : Nat) (q : Quiet [e] o a) (v : List Nat) (hv : (after w h).syms o a = some v) : (after w (e :: h)).syms o a = some v := by
  cases e with
  | setC d b => exact hv
  | hidden p b => exact hv
  | read p b =>
    simp only [after, step, load]
    by_cases hf : found w (after w h) p b = true
    · rw [if_pos hf]
      cases hs : (after w h).syms p b with
      | some u => exact hv
      | none =>
        have : ¬ (o = p ∧ a = b) := by
          rintro ⟨rfl, rfl⟩
          rw [hv] at hs
          cases hs
        simp [put, this, hv]
    · rw [if_neg hf]
      exact hv
  | setO p b =>
    have : ¬ (o = p ∧ a = b) := by
      rintro ⟨rfl, rfl⟩
      exact q.1 (by simp)
    simp only [after, step, store]
    cases (after w h).syms p b <;> simp [put, this, hv]
  | delO p b =>
    have : ¬ (o = p ∧ a = b) := by
      rintro ⟨rfl, rfl⟩
      exact q.2 (by simp)
    by_cases r : (after w h).dict p b = true
    · simp [after, step, r, put, this, hv]
    · simp [after, step, r, hv]

theorem syms_stay (w : World) (h l : List Ev) (o a : Nat) (q : Quiet l o a) (v : List Nat) (hv : (after w h).syms o a = some v) : (after w (l ++ h)).syms o a = some v := by
  induction l with
  | nil => exact hv
  | cons e l ih =>
    refine syms_kept w (l ++ h) e o a ?_ v (ih ?_)
    · exact ⟨fun m => q.1 (by simp at m; simp [m]), fun m => q.2 (by simp at m; simp [m])⟩
    · exact ⟨fun m => q.1 (by simp [m]), fun m => q.2 (by simp [m])⟩

theorem syms_none (w : World) (h : List Ev) (o a : Nat) (q : Fresh h o a) : (after w h).syms o a = none := by
  obtain ⟨l, k, rfl, q1, q2, hk⟩ := q
  induction l with
  | nil =>
    rcases hk with rfl | ⟨k', rfl, ho⟩
    · rfl
    · simp [after, step, (dict_iff w k' o a).2 ho, put]
  | cons e l ih =>
    simp only [List.mem_cons, not_or] at q1 q2
    have ih := ih q1.2 q2.2
    generalize hh : l ++ k = h at ih
    rw [List.cons_append, hh]
    cases e with
    | setC d b => exact ih
    | hidden p b => exact ih
    | read p b =>
      have : ¬ (o = p ∧ a = b) := by
        rintro ⟨rfl, rfl⟩
        exact q1.1 rfl
      simp only [after, step, load]
      by_cases hf : found w (after w h) p b = true
      · rw [if_pos hf]
        cases (after w h).syms p b with
        | some u => exact ih
        | none => simp [put, this, ih]
      · rw [if_neg hf]
        exact ih
    | setO p b =>
      have : ¬ (o = p ∧ a = b) := by
        rintro ⟨rfl, rfl⟩
        exact q2.1 rfl
      simp only [after, step, store]
      cases (after w h).syms p b <;> simp [put, this, ih]
    | delO p b =>
      by_cases r : (after w h).dict p b = true
      · simp [after, step, r, put, ih]
      · simp [after, step, r, ih]

theorem first_read (w : World) (h : List Ev) (o a d : Nat) (hu : Fresh h o a) (hd : From w h o a d) :
    (after w (.read o a :: h)).syms o a = some (if (after w h).has (w.cls o) a then [w.cls o] else []) := by
  have hdict : (after w h).dict o a = false := by
    have := mt (dict_iff w h o a).1 hd.1
    simpa using this
  simp only [after, step, load, found_of_from hd, if_true, syms_none w h o a hu, put, viaClass, newDep, hdict, and_self, Bool.false_eq_true, if_false]
  cases (after w h).has (w.cls o) a <;> simp

/-- **C192** (partial): if `o.a` is read for the first time, or for the first time after it was deleted, when its value is the one of the class of `o` itself, then `o.a` depends on the attribute of this class and on no other, as long
as `o.a` is neither assigned nor deleted.

Full statement: at each time `o.a` depends on the attribute of the class that its value comes from, if it comes from one. It is false, see `base_lost`, `assigned_depends`, `hidden_depends`. -/
theorem direct_partial (w : World) (h l : List Ev) (o a : Nat) (hu : Fresh h o a) (hd : From w h o a (w.cls o)) (hq : Quiet l o a) :
    recorded (after w (l ++ .read o a :: h)) o a = [w.cls o] := by
  have hg : (after w h).has (w.cls o) a = true := by
    obtain ⟨-, l', r, hl, hg, hn⟩ := hd
    exact (has_iff w h _ a).2 hg
  have := syms_stay w (.read o a :: h) l o a hq _ (first_read w h o a _ hu hd)
  simp [recorded, this, hg]

/-- **C192** (violated): if `o.a` is read for the first time, or for the first time after it was deleted, when its value comes from a class that the class of `o` inherits from, then it depends on no attribute of a class, neither
then nor later, as long as `o.a` is neither assigned nor deleted, even if the class of `o` is given the attribute. -/
theorem base_lost (w : World) (h l : List Ev) (o a d : Nat) (hu : Fresh h o a) (hd : From w h o a d) (hne : d ≠ w.cls o) (hq : Quiet l o a) :
    recorded (after w (l ++ .read o a :: h)) o a = [] := by
  have hg : (after w h).has (w.cls o) a = false := by
    obtain ⟨-, l', r, hl, hg, hn⟩ := hd
    cases l' with
    | nil =>
      simp only [List.nil_append, List.cons.injEq] at hl
      exact absurd hl.1.symm hne
    | cons c l' =>
      simp only [List.cons_append, List.cons.injEq] at hl
      have := hn c (by simp)
      rw [← hl.1] at this
      have := mt (has_iff w h _ a).1 this
      simpa using this
  have := syms_stay w (.read o a :: h) l o a hq _ (first_read w h o a d hu hd)
  simp [recorded, this, hg]

/-- **C192** (violated): if `o.a` is assigned before it is read, and the class of `o` has the attribute, then `o.a` depends on the attribute of the class, although its value is its own. -/
theorem assigned_depends (w : World) (h l : List Ev) (o a : Nat) (hu : Fresh h o a) (hg : Given h (w.cls o) a) (hq : Quiet l o a) :
    recorded (after w (l ++ .setO o a :: h)) o a = [w.cls o] ∧ Own (l ++ .setO o a :: h) o a := by
  have h1 : (after w (.setO o a :: h)).syms o a = some [w.cls o] := by
    simp [after, step, store, syms_none w h o a hu, put, newDep, (has_iff w h _ a).2 hg]
  refine ⟨by simp [recorded, syms_stay w _ l o a hq _ h1], ?_⟩
  have : ∀ l : List Ev, Quiet l o a → Own (l ++ .setO o a :: h) o a := by
    intro l
    induction l with
    | nil => intro _; exact .inl ⟨rfl, rfl⟩
    | cons e l ih =>
      intro q
      have ih := ih ⟨fun m => q.1 (by simp [m]), fun m => q.2 (by simp [m])⟩
      cases e with
      | setC c b => exact ih
      | read p b => exact ih
      | setO p b => exact .inr ih
      | hidden p b => exact .inr ih
      | delO p b =>
        refine ⟨?_, ih⟩
        rintro ⟨rfl, rfl⟩
        exact q.2 (by simp)
  exact this l hq

/-- **C192** (violated): the same if the object was given the attribute by code that is not traced, and it is then read. -/
theorem hidden_depends (w : World) (h : List Ev) (o a : Nat) (hu : Fresh h o a) (hg : Given h (w.cls o) a) (ho : Own h o a) :
    recorded (after w (.read o a :: h)) o a = [w.cls o] := by
  have hd := (dict_iff w h o a).2 ho
  have hf : found w (after w h) o a = true := by simp [found, hd]
  simp [recorded, after, step, load, hf, syms_none w h o a hu, put, viaClass, newDep, hd, (has_iff w h _ a).2 hg]

/-- **C192**: an assignment to `o.a` after it was read leaves it with no dependency on attributes of classes, which is right. -/
theorem assigned_after_read (w : World) (h l : List Ev) (o a d : Nat) (hu : Fresh h o a) (hd : From w h o a d) (hq : Quiet l o a) (l' : List Ev) (hq' : Quiet l' o a) :
    recorded (after w (l' ++ .setO o a :: (l ++ .read o a :: h))) o a = [] := by
  have h1 := syms_stay w (.read o a :: h) l o a hq _ (first_read w h o a d hu hd)
  have h2 : (after w (.setO o a :: (l ++ .read o a :: h))).syms o a = some [] := by
    simp [after, step, store, h1, put]
  simp [recorded, syms_stay w _ l' o a hq' _ h2]

end Verif.Inherit
