import Verif.Fails.Spec

/-! Chains of accesses, and the symbols found for them. -/

namespace Verif.Fails

open Ref (Const Index Exp Val Atom)
open Spec (way key value Before Next)

/-- The chain of an access that is spelled out names the way. -/
theorem visit_way : ∀ {e : Exp} {q : List Val}, way e = some q →
    ∃ l : List Atom, Ref.visit none e = some l ∧ l.map (·.value) = q ∧ ∀ a ∈ l, a.callpoint = false
  | .name x, q, h => by
    simp only [way, Option.some.injEq] at h; subst h
    exact ⟨_, rfl, rfl, by simp⟩
  | .attr e a, q, h => by
    simp only [way, Option.map_eq_some_iff] at h
    obtain ⟨p, hp, rfl⟩ := h
    obtain ⟨l, h1, h2, h3⟩ := visit_way hp
    refine ⟨l ++ [{ value := .one (.str a) }], by simp [Ref.visit, h1], by simp [h2], ?_⟩
    intro b hb; rcases List.mem_append.1 hb with hb | hb
    · exact h3 b hb
    · rw [List.mem_singleton.1 hb]
  | .sub e i, q, h => by
    simp only [way, Option.bind_eq_some_iff, Option.map_eq_some_iff] at h
    obtain ⟨p, hp, v, hv, rfl⟩ := h
    obtain ⟨l, h1, h2, h3⟩ := visit_way hp
    have hs : Ref.subAtoms none i = [{ value := v, subscript := true }] := by
      cases i with
      | const c => simp only [key, Option.some.injEq] at hv; subst hv; rfl
      | neg c => cases c <;> simp only [key, Option.some.injEq, reduceCtorEq] at hv; subst hv; rfl
      | name x => simp [key] at hv
      | negName x => simp [key] at hv
      | tuple cs => simp only [key, Option.some.injEq] at hv; subst hv; rfl
      | other => simp [key] at hv
    refine ⟨l ++ [{ value := v, subscript := true }], by simp [Ref.visit, h1, hs], by simp [h2], ?_⟩
    intro b hb; rcases List.mem_append.1 hb with hb | hb
    · exact h3 b hb
    · rw [List.mem_singleton.1 hb]
  | .call _, _, h => by simp [way] at h
  | .lit, _, h => by simp [way] at h
  | .other, _, h => by simp [way] at h

/-- A step adds one atom. -/
theorem visit_next {p e : Exp} {q : List Val} (hn : Next p e) (he : way e = some q) : ∃ qp v lp n, way p = some qp ∧ q = qp ++ [v] ∧
    Ref.visit none p = some lp ∧ Ref.visit none e = some (lp ++ [n]) ∧ n.value = v ∧ n.callpoint = false ∧ lp.map (·.value) = qp := by
  obtain ⟨l, h1, h2, h3⟩ := visit_way he
  have key : ∃ qp v lp n, way p = some qp ∧ q = qp ++ [v] ∧ Ref.visit none p = some lp ∧ lp.map (·.value) = qp ∧ Ref.visit none e = some (lp ++ n) := by
    rcases hn with ⟨a, rfl⟩ | ⟨i, rfl⟩
    · simp only [way, Option.map_eq_some_iff] at he
      obtain ⟨qp, hp, rfl⟩ := he
      obtain ⟨lp, k1, k2, _⟩ := visit_way hp
      exact ⟨qp, _, lp, [{ value := .one (.str a) }], hp, rfl, k1, k2, by simp [Ref.visit, k1]⟩
    · simp only [way, Option.bind_eq_some_iff, Option.map_eq_some_iff] at he
      obtain ⟨qp, hp, v, hv, rfl⟩ := he
      obtain ⟨lp, k1, k2, _⟩ := visit_way hp
      exact ⟨qp, v, lp, Ref.subAtoms none i, hp, rfl, k1, k2, by simp [Ref.visit, k1]⟩
  obtain ⟨qp, v, lp, n, a1, a2, a3, a4, a5⟩ := key
  rw [a5] at h1; injection h1 with h1; subst h1
  rw [List.map_append, a4, a2] at h2
  have h4 := List.append_cancel_left h2
  match n, h4 with
  | [n], h4 =>
    simp only [List.map_cons, List.map_nil, List.cons.injEq, and_true] at h4
    exact ⟨qp, v, lp, n, a1, a2, a3, a5, h4, h3 n (by simp), a4⟩

/-- What comes after a part of an access. -/
theorem before_next {p : Exp} : ∀ {e : Exp} {q : List Val}, Before p e → way e = some q →
    ∃ e' q' lp n l, Next p e' ∧ (e' = e ∨ Before e' e) ∧ way e' = some q' ∧ Ref.visit none p = some lp ∧ Ref.visit none e' = some (lp ++ [n]) ∧
      Ref.visit none e = some (lp ++ n :: l)
  | .attr e a, q, hb, he => by
    obtain ⟨qp, v, lp, n, w1, _, v1, v2, _⟩ := visit_next (.inl ⟨a, rfl⟩) he
    rcases hb with rfl | hb
    · exact ⟨_, q, lp, n, [], .inl ⟨a, rfl⟩, .inl rfl, he, v1, v2, v2⟩
    · obtain ⟨e', q', lp', n', l', h1, h2, h3, h4, h5, h6⟩ := before_next hb w1
      rw [h6] at v1; injection v1 with v1; subst v1
      refine ⟨e', q', lp', n', l' ++ [n], h1, .inr ?_, h3, h4, h5, by simpa using v2⟩
      exact h2.imp id id
  | .sub e i, q, hb, he => by
    obtain ⟨qp, v, lp, n, w1, _, v1, v2, _⟩ := visit_next (.inr ⟨i, rfl⟩) he
    rcases hb with rfl | hb
    · exact ⟨_, q, lp, n, [], .inr ⟨i, rfl⟩, .inl rfl, he, v1, v2, v2⟩
    · obtain ⟨e', q', lp', n', l', h1, h2, h3, h4, h5, h6⟩ := before_next hb w1
      rw [h6] at v1; injection v1 with v1; subst v1
      refine ⟨e', q', lp', n', l' ++ [n], h1, .inr ?_, h3, h4, h5, by simpa using v2⟩
      exact h2.imp id id
  | .name _, _, hb, _ => hb.elim
  | .call _, _, hb, _ => hb.elim
  | .lit, _, hb, _ => hb.elim
  | .other, _, hb, _ => hb.elim

/-- Parts of what is spelled out are spelled out. -/
theorem before_way {p : Exp} : ∀ {e : Exp} {q : List Val}, Before p e → way e = some q → ∃ qp, way p = some qp
  | .attr e a, q, hb, he => by
    obtain ⟨qp, _, _, _, w1, _⟩ := visit_next (.inl ⟨a, rfl⟩) he
    rcases hb with rfl | hb
    · exact ⟨_, w1⟩
    · exact before_way hb w1
  | .sub e i, q, hb, he => by
    obtain ⟨qp, _, _, _, w1, _⟩ := visit_next (.inr ⟨i, rfl⟩) he
    rcases hb with rfl | hb
    · exact ⟨_, w1⟩
    · exact before_way hb w1
  | .name _, _, hb, _ => hb.elim
  | .call _, _, hb, _ => hb.elim
  | .lit, _, hb, _ => hb.elim
  | .other, _, hb, _ => hb.elim

/-- If an access does not raise, nothing on the way does. -/
theorem before_value {r : Spec.Env} {p : Exp} : ∀ {e : Exp}, Before p e → (value r e).isSome → (value r p).isSome
  | .attr e a, hb, he => by
    have h1 : (value r e).isSome := by
      cases h : value r e with
      | none => simp [value, h] at he
      | some _ => rfl
    rcases hb with rfl | hb
    · exact h1
    · exact before_value hb h1
  | .sub e i, hb, he => by
    have h1 : (value r e).isSome := by
      cases h : value r e with
      | none => simp [value, h] at he
      | some _ => rfl
    rcases hb with rfl | hb
    · exact h1
    · exact before_value hb h1
  | .name _, hb, _ => hb.elim
  | .call _, hb, _ => hb.elim
  | .lit, hb, _ => hb.elim
  | .other, hb, _ => hb.elim

/-- The symbol at the end of a chain without calls is found if all before it are. -/
theorem found_mem {w : World} {a : Atom} {l : List Atom} {o : Obj} : ∀ (l' : List Atom) (p : List Val), (∀ b ∈ l', b.callpoint = false) →
    (∀ m k, l' = m ++ k → m ≠ [] → (w.sym (p ++ m.map (·.value))).isSome) → w.sym (p ++ (l' ++ [a]).map (·.value)) = some o →
    ⟨p ++ (l' ++ [a]).map (·.value), o, a, l.head?⟩ ∈ found w p (l' ++ a :: l)
  | [], p, _, _, h => by
    simp only [List.nil_append, List.map_cons, List.map_nil] at h ⊢
    simp [found, h]
  | b :: l', p, hc, hs, h => by
    obtain ⟨o', ho⟩ := Option.isSome_iff_exists.1 (hs [b] l' rfl (by simp))
    have hb : b.callpoint = false := hc b (by simp)
    simp only [List.map_cons, List.map_nil] at ho
    simp only [List.cons_append, found, ho, hb, Bool.false_eq_true, if_false]
    refine List.mem_cons_of_mem _ ?_
    have := found_mem (w := w) (a := a) (l := l) (o := o) l' (p ++ [b.value]) (fun c hc' => hc c (List.mem_cons_of_mem _ hc'))
      (fun m k hm hne => by
        have := hs (b :: m) k (by rw [hm]; rfl) (by simp)
        simpa using this) (by simpa using h)
    simpa using this

/-- What is found is on the way. -/
theorem found_inv {w : World} {f : Found} : ∀ {l : List Atom} {p : List Val}, f ∈ found w p l →
    ∃ l1 l2, l = l1 ++ f.atom :: l2 ∧ f.way = p ++ (l1 ++ [f.atom]).map (·.value) ∧ w.sym f.way = some f.obj ∧ f.next = l2.head?
  | [], _, h => by simp [found] at h
  | a :: l, p, h => by
    rw [found] at h
    cases ho : w.sym (p ++ [a.value]) with
    | none => simp [ho] at h
    | some o =>
      simp only [ho] at h
      rcases List.mem_cons.1 h with rfl | h
      · exact ⟨[], l, rfl, by simp, ho, rfl⟩
      · by_cases hc : a.callpoint = true
        · simp [hc] at h
        · simp only [hc] at h
          obtain ⟨l1, l2, h1, h2, h3, h4⟩ := found_inv h
          exact ⟨a :: l1, l2, by rw [h1]; rfl, by rw [h2]; simp, h3, h4⟩

/-- The ways of the parts of an access are the beginnings of its way. -/
theorem known_prefix {w : World} : ∀ {e : Exp} {q : List Val} {l : List Atom}, way e = some q → Ref.visit none e = some l → Spec.Known w e →
    ∀ m k, l = m ++ k → m ≠ [] → (w.sym (m.map (·.value))).isSome
  | .name x, q, l, he, hl, hk, m, k, hm, hne => by
    simp only [Ref.visit, Option.some.injEq] at hl
    subst hl
    match m, hm, hne with
    | [a], hm, _ =>
      simp only [List.cons_append, List.nil_append, List.cons.injEq] at hm
      have := hk _ (.inl rfl) [.one (.str x)] rfl
      rw [← hm.1]; exact this
    | a :: b :: m, hm, _ => simp at hm
  | .attr e a, q, l, he, hl, hk, m, k, hm, hne => by
    obtain ⟨qp, v, lp, n, w1, hq, v1, v2, hv, _, hlp⟩ := visit_next (.inl ⟨a, rfl⟩) he
    rw [v2] at hl; injection hl with hl; subst hl
    rcases List.eq_nil_or_concat k with rfl | ⟨k', b, rfl⟩
    · have := hk _ (.inl rfl) q he
      rw [List.append_nil] at hm
      rw [← hm, List.map_append, hlp]; simpa [hv, ← hq] using this
    · rw [List.concat_eq_append, ← List.append_assoc] at hm
      have := (List.append_inj' hm rfl).1
      exact known_prefix w1 v1 (fun p hp => hk p (.inr hp)) m k' this hne
  | .sub e i, q, l, he, hl, hk, m, k, hm, hne => by
    obtain ⟨qp, v, lp, n, w1, hq, v1, v2, hv, _, hlp⟩ := visit_next (.inr ⟨i, rfl⟩) he
    rw [v2] at hl; injection hl with hl; subst hl
    rcases List.eq_nil_or_concat k with rfl | ⟨k', b, rfl⟩
    · have := hk _ (.inl rfl) q he
      rw [List.append_nil] at hm
      rw [← hm, List.map_append, hlp]; simpa [hv, ← hq] using this
    · rw [List.concat_eq_append, ← List.append_assoc] at hm
      have := (List.append_inj' hm rfl).1
      exact known_prefix w1 v1 (fun p hp => hk p (.inr hp)) m k' this hne
  | .call _, _, _, he, _, _, _, _, _, _ => by simp [way] at he
  | .lit, _, _, he, _, _, _, _, _, _ => by simp [way] at he
  | .other, _, _, he, _, _, _, _, _, _ => by simp [way] at he

/-- The symbol of an access that a chain starts with is found. -/
theorem found_part {w : World} {p : Exp} {q : List Val} {lp l : List Atom} (hp : way p = some q) (hv : Ref.visit none p = some lp) (hk : Spec.Known w p) :
    ∃ f ∈ found w [] (lp ++ l), f.way = q ∧ w.sym q = some f.obj ∧ f.next = l.head? ∧ f.atom.callpoint = false := by
  obtain ⟨l0, h1, h2, h3⟩ := visit_way hp
  rw [hv] at h1; injection h1 with h1; subst h1
  rcases List.eq_nil_or_concat lp with rfl | ⟨l', a, rfl⟩
  · exfalso
    cases p with
    | name x => simp [Ref.visit] at hv
    | attr e a => simp only [Ref.visit, Option.map_eq_some_iff] at hv; obtain ⟨_, _, hv⟩ := hv; simp at hv
    | sub e i =>
      obtain ⟨_, _, _, _, _, _, _, v2, _⟩ := visit_next (.inr ⟨i, rfl⟩) hp
      rw [v2] at hv; injection hv with hv; simp at hv
    | call f => simp [way] at hp
    | lit => simp [way] at hp
    | other => simp [way] at hp
  · rw [List.concat_eq_append] at *
    obtain ⟨o, ho⟩ := Option.isSome_iff_exists.1 (hk p (.inl rfl) q hp)
    refine ⟨⟨q, o, a, l.head?⟩, ?_, rfl, ho, rfl, h3 a (by simp)⟩
    have := found_mem (w := w) (a := a) (l := l) (o := o) l' [] (fun b hb => h3 b (by simp [hb]))
      (fun m k hm hne => by
        have := known_prefix hp hv hk m (k ++ [a]) (by rw [hm]; simp) hne
        simpa using this) (by simpa [← h2] using ho)
    simpa [← h2] using this

end Verif.Fails
