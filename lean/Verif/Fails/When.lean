import Verif.Fails.Props

/-! # C120: what makes a cell ready that reads an access -/

namespace Verif.Fails

open Ref (Const Index Exp Val Atom)
open Spec (way Known)

/-- The object has changed since: as a whole if it is marked, and otherwise itself, not what is in it. -/
def Spec.Newer (w : World) (ctr : Int) (q : List Val) : Prop := (w.hot q = true ∧ ctr < w.deep q) ∨ (w.hot q = false ∧ ctr < w.shallow q)

/-- One of the objects on the way to `q` has. -/
def Spec.NewerBefore (w : World) (ctr : Int) (q : List Val) : Prop := ∃ q' l, q' ≠ [] ∧ l ≠ [] ∧ q = q' ++ l ∧ Spec.Newer w ctr q'

theorem newer_iff {w : World} {ctr : Int} {f : Found} {n : Atom} (hn : f.next = some n) (hc : n.callpoint = false) : stamp w f > ctr ↔ Spec.Newer w ctr f.way := by
  simp only [stamp, isDeep, hn, hc, Bool.false_and, Bool.or_false, Spec.Newer]
  cases w.hot f.way <;> simp

/-- What is found in a chain without calls such that there are symbols for all of it. -/
theorem mem_found {w : World} {l r : List Atom} (hc : ∀ b ∈ l, b.callpoint = false) (hs : ∀ m k, l = m ++ k → m ≠ [] → (w.sym (m.map (·.value))).isSome)
    {q : List Val} {k : List Val} (hq : q ≠ []) (hl : l.map (·.value) = q ++ k) :
    ∃ f ∈ found w [] (l ++ r), f.way = q ∧ w.sym q = some f.obj ∧ ∃ l1 l2, l = l1 ++ l2 ∧ l1.map (·.value) = q ∧ l2.map (·.value) = k ∧ f.next = (l2 ++ r).head? := by
  obtain ⟨l1, l2, rfl, h1, h2⟩ := List.map_eq_append_iff.1 hl
  rcases List.eq_nil_or_concat l1 with rfl | ⟨l', a, rfl⟩
  · simp only [List.map_nil] at h1; exact absurd h1.symm hq
  rw [List.concat_eq_append] at *
  obtain ⟨o, ho⟩ := Option.isSome_iff_exists.1 (hs (l' ++ [a]) l2 rfl (by simp))
  have := found_mem (w := w) (a := a) (l := l2 ++ r) (o := o) l' [] (fun b hb => hc b (by simp [hb]))
    (fun m k hm hne => by simpa using hs m (k ++ a :: l2) (by simp [hm]) hne) (by simpa using ho)
  refine ⟨⟨q, o, a, (l2 ++ r).head?⟩, ?_, rfl, ?_, l' ++ [a], l2, rfl, h1, h2, rfl⟩
  · rw [List.nil_append, h1] at this
    simpa using this
  · rw [← h1]; exact ho

/-- A cell that reads `x.a[1]` is ready when that has changed, or something in it, or when one of the objects on the way has been changed itself. -/
theorem ready_iff (w : World) (ctr : Int) (e : Exp) (q : List Val) (hw : way e = some q) (hn : Known w e) :
    ready w true ctr e = true ↔ ctr < w.deep q ∨ Spec.NewerBefore w ctr q := by
  obtain ⟨l, h1, h2, h3⟩ := visit_way hw
  have hk := known_prefix hw h1 hn
  have hch : Ref.chain none e = l := by simp [Ref.chain, h1]
  have hlast : ∀ f : Found, f.next = none → stamp w f = w.deep f.way := by
    intro f hf
    simp [stamp, isDeep, hf]
  simp only [ready, live, hch, Bool.true_or, List.filter_true, List.any_eq_true, decide_eq_true_eq]
  constructor
  · rintro ⟨f, hf, hst⟩
    obtain ⟨l1, l2, rfl, hw', _, hnx⟩ := found_inv hf
    cases l2 with
    | nil =>
      refine .inl ?_
      rw [hlast f hnx, hw'] at hst
      rw [← h2]
      simpa using hst
    | cons n l2 =>
      refine .inr ⟨f.way, (n :: l2).map (·.value), by rw [hw']; simp, by simp, by rw [hw', ← h2]; simp, ?_⟩
      exact (newer_iff hnx (h3 n (by simp))).1 hst
  · have hqne : ∀ {q' k : List Val}, q = q' ++ k → q' ≠ [] →
        ∃ f ∈ found w [] l, f.way = q' ∧ ∃ l1 l2, l = l1 ++ l2 ∧ l2.map (·.value) = k ∧ f.next = l2.head? := by
      intro q' k hqk hne
      obtain ⟨f, f1, f2, _, l1, l2, f3, _, f5, f6⟩ := mem_found (r := []) h3 hk hne (h2.trans hqk)
      rw [List.append_nil] at f1 f6
      exact ⟨f, f1, f2, l1, l2, f3, f5, f6⟩
    rintro (h | ⟨q', k, hne, hkne, hqk, h⟩)
    · have hne : q ≠ [] := by
        intro h0
        subst h0
        obtain ⟨f, hf, hfw, _⟩ := found_part (l := []) hw h1 hn
        obtain ⟨l1, l2, _, hw', _⟩ := found_inv hf
        rw [hfw] at hw'
        simp at hw'
      obtain ⟨f, f1, f2, l1, l2, _, f5, f6⟩ := hqne (k := []) (by simp) hne
      simp only [List.map_eq_nil_iff] at f5
      subst f5
      exact ⟨f, f1, by rw [hlast f f6, f2]; exact h⟩
    · obtain ⟨f, f1, f2, l1, l2, f3, f5, f6⟩ := hqne hqk hne
      cases l2 with
      | nil => simp at f5; exact absurd f5.symm (by simpa using hkne)
      | cons n l2 =>
        refine ⟨f, f1, (newer_iff f6 (h3 n (by rw [f3]; simp))).2 ?_⟩
        rw [f2]; exact h

/-- `x.data['k'][1]`: when `x.data['k']` has been extended, for example. -/
example : ready { seen with shallow := fun q => if q.length = 3 then 7 else 0, deep := fun q => if q.length ≤ 3 then 7 else 0 } true 5 (access 1) = true := by decide

/-- But not when another element of `x.data['k']` has been changed. -/
example : ready { seen with shallow := fun _ => 0, deep := fun q => if q.length ≤ 3 then 7 else 0 } true 5 (access 1) = false := by decide

/-- A cell that calls a method of `x.a[1]` is ready when that has changed, or something in it, or one of the objects on the way. If the method is known to change the object, and the read is not
marked, changes to what is in it do not matter. -/
theorem call_ready_iff (w : World) (ctr : Int) (e : Exp) (m : Nat) (q : List Val) (o : Obj) (hw : way e = some q) (hn : Known w e) (ho : w.sym q = some o)
    (hm : w.sym (q ++ [.one (.str m)]) = none) :
    ready w true ctr (.call (.attr e m)) = true ↔ (¬ (w.mutates o (.one (.str m)) = true ∧ w.hot q = false) ∧ ctr < w.deep q) ∨
      (w.mutates o (.one (.str m)) = true ∧ w.hot q = false ∧ ctr < w.shallow q) ∨ Spec.NewerBefore w ctr q := by
  obtain ⟨l, h1, h2, h3⟩ := visit_way hw
  have hk := known_prefix hw h1 hn
  have hch : Ref.chain none (.call (.attr e m)) = l ++ [{ value := .one (.str m), callpoint := true }] := by
    simp [Ref.chain, Ref.visit, h1]
  have hlast : ∀ f : Found, f.way = q → f.obj = o → f.next = some { value := .one (.str m), callpoint := true } →
      (stamp w f > ctr ↔ (¬ (w.mutates o (.one (.str m)) = true ∧ w.hot q = false) ∧ ctr < w.deep q) ∨ (w.mutates o (.one (.str m)) = true ∧ w.hot q = false ∧ ctr < w.shallow q)) := by
    intro f fw fo fn
    simp only [stamp, isDeep, mutating, fw, fo, fn]
    cases w.hot q <;> cases w.mutates o (.one (.str m)) <;> simp
  have hne : q ≠ [] := by
    intro h0
    subst h0
    obtain ⟨f, hf, hfw, _⟩ := found_part (l := []) hw h1 hn
    obtain ⟨l1, l2, _, hw', _⟩ := found_inv hf
    rw [hfw] at hw'
    simp at hw'
  simp only [ready, live, hch, Bool.true_or, List.filter_true, List.any_eq_true, decide_eq_true_eq]
  rw [← or_assoc]
  constructor
  · rintro ⟨f, hf, hst⟩
    obtain ⟨l1, l2, hl, hw', ho', hnx⟩ := found_inv hf
    rcases List.eq_nil_or_concat l2 with rfl | ⟨l3, b, rfl⟩
    · exfalso
      have : l1 = l ∧ f.atom = { value := .one (.str m), callpoint := true } := by
        have := List.append_inj' hl (by simp)
        exact ⟨this.1.symm, by simpa using this.2.symm⟩
      rw [hw', this.1, this.2] at ho'
      simp only [List.nil_append, List.map_append, h2, List.map_cons, List.map_nil] at ho'
      rw [hm] at ho'
      cases ho'
    · rw [List.concat_eq_append] at hl hnx
      have hl' : l = l1 ++ f.atom :: l3 ∧ b = { value := .one (.str m), callpoint := true } := by
        have h := List.append_inj' (s₁ := l) (s₂ := l1 ++ f.atom :: l3) (t₁ := [{ value := .one (.str m), callpoint := true }]) (t₂ := [b]) (by rw [hl]; simp) (by simp)
        exact ⟨h.1, by simpa using h.2.symm⟩
      obtain ⟨rfl, rfl⟩ := hl'
      cases l3 with
      | nil =>
        have fw : f.way = q := by rw [hw', ← h2]; simp
        refine .inl ((hlast f fw ?_ hnx).1 hst)
        rw [fw, ho] at ho'
        exact (Option.some.inj ho').symm
      | cons n l3 =>
        refine .inr ⟨f.way, (n :: l3).map (·.value), by rw [hw']; simp, by simp, by rw [hw', ← h2]; simp, ?_⟩
        exact (newer_iff hnx (h3 n (by simp))).1 hst
  · rintro (h | ⟨q', k, hne', hkne, hqk, h⟩)
    · obtain ⟨f, f1, f2, fo, l1, l2, _, f4, f5, f6⟩ := mem_found (k := []) (r := [{ value := .one (.str m), callpoint := true }]) h3 hk hne (h2.trans (by simp))
      simp only [List.map_eq_nil_iff] at f5
      subst f5
      exact ⟨f, f1, (hlast f f2 (Option.some.inj (fo.symm.trans ho)) f6).2 h⟩
    · obtain ⟨f, f1, f2, _, l1, l2, f3, f4, f5, f6⟩ := mem_found (r := [{ value := .one (.str m), callpoint := true }]) h3 hk hne' (h2.trans hqk)
      cases l2 with
      | nil => simp at f5; exact absurd f5.symm (by simpa using hkne)
      | cons n l2 =>
        refine ⟨f, f1, (newer_iff f6 (h3 n (by rw [f3]; simp))).2 ?_⟩
        rw [f2]; exact h

/-- `x.data.keys()`, when something in `x.data` has changed: ready, but not if it is the method 5 that changes `x.data`. -/
example : ready { seen with shallow := fun _ => 0, deep := fun q => if q.length ≤ 2 then 7 else 0 } true 5 (.call (.attr (.attr (.name 0) 3) 6)) = true ∧
    ready { seen with shallow := fun _ => 0, deep := fun q => if q.length ≤ 2 then 7 else 0 } true 5 (.call (.attr (.attr (.name 0) 3) 5)) = false := by decide

/-- A function that is called counts as read, whatever is asked of the result. -/
theorem called (w : World) (allow : Bool) (f a : Nat) (cls : List (Nat × Option Obj)) (attrs : List (Nat × Obj)) (items : List (Val × Obj))
    (h : w.sym [.one (.str f)] = some (.inst cls attrs items)) : ∃ g ∈ live w allow (.attr (.call (.name f)) a), g.way = [.one (.str f)] := by
  refine ⟨⟨[.one (.str f)], .inst cls attrs items, { value := .one (.str f), callpoint := true }, some { value := .one (.str a) }⟩, ?_, rfl⟩
  simp [live, Ref.chain, Ref.visit, found, h, fails, misses]

/-- `f().name`, although functions have no attribute `name`. -/
example : (live { seen with sym := fun q => if q = [.one (.str 1)] then some num else none } false (.attr (.call (.name 1)) 8)).map (·.way) = [[.one (.str 1)]] := by decide

/-- `m['12']` where `m` is a mapping that is not a dict: does not count as read either. -/
theorem digits_lost : (Spec.value { env with var := fun _ => some (.inst [] [] [(.one (.digits 12), num)]) } (.sub (.name 0) (.const (.digits 12)))).isSome = true ∧
    live { seen with sym := fun q => if q = [.one (.str 0)] then some (.inst [] [] [(.one (.digits 12), num)]) else none } false (.sub (.name 0) (.const (.digits 12))) = [] :=
  ⟨rfl, rfl⟩

end Verif.Fails
