import Verif.Place.Spec

/-! # Lemmas about assignments to parts of objects -/

namespace Verif.Place
open Verif Verif.Chain Verif.Place.Spec

set_option linter.unusedSectionVars false

variable {O : Type} [DecidableEq O]

theorem put_same {A B : Type} [DecidableEq A] (f : A → B) (a : A) (b : B) : put f a b a = b := by simp [put]

theorem put_ne {A B : Type} [DecidableEq A] (f : A → B) {a x : A} (b : B) (h : x ≠ a) : put f a b x = f x := by simp [put, h]

theorem isSub_eq {k k' : Key} : isSub k' = isSub k ↔ Alike k' k := by
  cases k <;> cases k' <;> simp [isSub, Alike]

theorem has_iff {s : St O} {o : O} {k : Key} {v : O} :
    (owns s o (isSub k) v || classOwns s o v) = true ↔ Has s o k v := by
  unfold owns classOwns Has
  rw [Bool.or_eq_true]
  constructor
  · rintro (h | h)
    · left
      obtain ⟨⟨k', a⟩, h1, h2⟩ := List.any_eq_true.1 h
      have h2 := of_decide_eq_true h2
      exact ⟨k', a, h1, isSub_eq.1 h2.1, h2.2⟩
    · right
      cases hb : s.base o with
      | none => rw [hb] at h; simp at h
      | some c =>
        rw [hb] at h
        obtain ⟨⟨k', a⟩, h1, h2⟩ := List.any_eq_true.1 h
        exact ⟨c, rfl, k', a, h1, of_decide_eq_true h2⟩
  · rintro (⟨k', a, h1, h2, h3⟩ | ⟨c, hb, k', a, h1, h2⟩)
    · left
      exact List.any_eq_true.2 ⟨(k', a), h1, decide_eq_true ⟨isSub_eq.2 h2, h3⟩⟩
    · right
      rw [hb]
      exact List.any_eq_true.2 ⟨(k', a), h1, decide_eq_true h2⟩

omit [DecidableEq O] in
theorem Spec.Outside.above {par : O → Option O} {o p : O} (h : Outside par o p) : Above par o p := by
  obtain ⟨q, h1, h2⟩ := h
  exact .up h1 h2

omit [DecidableEq O] in
theorem Spec.Above.cases' {par : O → Option O} {o p : O} (h : Above par o p) : o = p ∨ Outside par o p := by
  cases h with
  | refl => exact .inl rfl
  | up h1 h2 => exact .inr ⟨_, h1, h2⟩

theorem earliest_spec {s : St O} {k : Key} {v : O} : ∀ {n : Nat} {o : O} {r : Option O}, earliest s (isSub k) v n o = .ok r →
    match r with
    | some r => Outermost s o k v r
    | none => ∀ p, Above s.parent o p → ¬ Has s p k v
  | 0, o, r, h => by simp [earliest] at h
  | n + 1, o, r, h => by
    rw [earliest] at h
    cases hp : s.parent o with
    | none =>
      rw [hp] at h
      have h := Except.ok.inj h
      have hout : ∀ p, ¬ Outside s.parent o p := by
        rintro p ⟨q, hq, -⟩; rw [hp] at hq; exact nomatch hq
      by_cases ho : Has s o k v
      · rw [if_pos (has_iff.2 ho)] at h
        subst h
        exact ⟨.refl _, ho, fun p hp' => absurd hp' (hout p)⟩
      · rw [if_neg (fun hh => ho (has_iff.1 hh))] at h
        subst h
        intro p hp'
        rcases hp'.cases' with rfl | hp'
        · exact ho
        · exact absurd hp' (hout p)
    | some q =>
      rw [hp] at h
      simp only at h
      cases he : earliest s (isSub k) v n q with
      | error e => rw [he] at h; exact nomatch h
      | ok r' =>
        rw [he] at h
        have ih := earliest_spec he
        cases r' with
        | some r' =>
          have h := Except.ok.inj h
          subst h
          exact ⟨.up hp ih.1, ih.2⟩
        | none =>
          have h := Except.ok.inj h
          have hno : ∀ p, Outside s.parent o p → ¬ Has s p k v := by
            rintro p ⟨q', hq, hq'⟩
            rw [hp] at hq
            cases hq
            exact ih p hq'
          by_cases ho : Has s o k v
          · rw [if_pos (has_iff.2 ho)] at h
            subst h
            exact ⟨.refl _, ho, hno⟩
          · rw [if_neg (fun hh => ho (has_iff.1 hh))] at h
            subst h
            intro p hp'
            rcases hp'.cases' with rfl | hp'
            · exact ho
            · exact hno p hp'

theorem earliest_ok {s : St O} {b : Bool} {v : O} {n : Nat} {o : O} (h : Ends s.parent o n) : ∃ r, earliest s b v n o = .ok r := by
  induction h with
  | last h => rw [earliest, h]; exact ⟨_, rfl⟩
  | up h _ ih =>
    obtain ⟨r, hr⟩ := ih
    rw [earliest, h]
    simp only [hr]
    cases r <;> exact ⟨_, rfl⟩

omit [DecidableEq O] in
theorem path_ok {s : St O} {n : Nat} {o : O} (h : Ends s.parent o n) : ∃ p, path s n o = .ok p := by
  induction h with
  | last h => rw [path, h]; exact ⟨_, rfl⟩
  | up h _ ih =>
    obtain ⟨r, hr⟩ := ih
    rw [path, h]
    simp only [hr]
    exact ⟨_, rfl⟩

theorem earliest_cycle {s : St O} {b : Bool} {v : O} : ∀ (n : Nat) (o : O), (∃ p, Above s.parent o p ∧ Outside s.parent p p) →
    earliest s b v n o = .error .fuel
  | 0, _, _ => rfl
  | n + 1, o, ⟨p, h1, h2⟩ => by
    have : ∃ q, s.parent o = some q ∧ ∃ p, Above s.parent q p ∧ Outside s.parent p p := by
      rcases h1.cases' with rfl | ⟨q, hq, hq'⟩
      · obtain ⟨q, hq, hq'⟩ := h2
        exact ⟨q, hq, o, hq', q, hq, hq'⟩
      · exact ⟨q, hq, p, hq', h2⟩
    obtain ⟨q, hq, hq'⟩ := this
    rw [earliest, hq]
    simp only [earliest_cycle n q hq']

/-! ## What changes -/

theorem value_eq {w : World O} {off : Bool} {rhs : O} {l : Leaf O} {v : O} (ha : Announced w off rhs l)
    (h : value w off rhs l.o l.k = .ok v) : w.get l.o l.k = some v := by
  unfold value at h
  split at h
  · rename_i hc
    cases h
    rcases ha hc.1 with ⟨h1, h2⟩ | h1
    · rcases hc.2 with h | h
      · rw [h1] at h; exact nomatch h
      · exact absurd h2 h
    · exact h1
  · cases hg : w.get l.o l.k with
    | none => rw [hg] at h; exact nomatch h
    | some v' => rw [hg] at h; cases h; rfl

theorem place_spec {w : World O} {s : St O} {n : Nat} {o : O} {k : Key} {v r : O} (h : place w s n o k v = .ok r) :
    (v = w.nil ∧ r = o) ∨ (v ≠ w.nil ∧ (Outermost s o k v r ∨ (r = o ∧ ∀ p, Above s.parent o p → ¬ Has s p k v))) := by
  unfold place at h
  split at h
  · rename_i hv; exact .inl ⟨hv, (Except.ok.inj h).symm⟩
  · rename_i hv
    right
    refine ⟨hv, ?_⟩
    cases he : earliest s (isSub k) v n o with
    | error e => rw [he] at h; exact nomatch h
    | ok r' =>
      rw [he] at h
      have h := Except.ok.inj h
      have hs := earliest_spec he
      cases r' with
      | some r' => left; cases h; exact hs
      | none => right; exact ⟨h.symm, hs⟩

theorem place_lone {w : World O} {s : St O} {n : Nat} {o : O} {k : Key} {v r : O} (hl : v = w.nil ∨ Lone s o k v)
    (h : place w s n o k v = .ok r) : r = o := by
  rcases place_spec h with h | ⟨hv, h | h⟩
  · exact h.2
  · rcases hl with hl | hl
    · exact absurd hl hv
    · rcases h.1.cases' with h' | h'
      · exact h'.symm
      · exact absurd h.2.1 (hl r h')
  · exact h.1

theorem place_outermost {w : World O} {s : St O} {n : Nat} {o : O} {k : Key} {v r r' : O} (hv : v ≠ w.nil)
    (ho : Outermost s o k v r) (h : place w s n o k v = .ok r') : r' = r := by
  have above_lin : ∀ {o p q : O}, Above s.parent o p → Above s.parent o q → Above s.parent p q ∨ Above s.parent q p := by
    intro o p q h1 h2
    induction h1 with
    | refl => exact .inl h2
    | up hq h1 ih =>
      rcases h2.cases' with rfl | ⟨q', hq', h2'⟩
      · exact .inr (.up hq h1)
      · rw [hq] at hq'; cases hq'; exact ih h2'
  rcases place_spec h with h | ⟨-, h | h⟩
  · exact absurd h.1 hv
  · rcases above_lin ho.1 h.1 with h' | h'
    · rcases h'.cases' with rfl | h'
      · rfl
      · exact absurd h.2.1 (ho.2.2 _ h')
    · rcases h'.cases' with rfl | h'
      · rfl
      · exact absurd ho.2.1 (h.2.2 _ h')
  · exact absurd ho.2.1 (h.2 r ho.1)

theorem rebind_cases {w : World O} {s s' : St O} {n a : Nat} {o : O} {k : Key} {v : O} (h : rebind w s n a o k v = .ok s') :
    s' = { s with obj := put s.obj a v } ∨
    (s.obj a ≠ v ∧ s.made (s.obj a) = true ∧ s.obj a ≠ o ∧ s' = renew w { s with obj := put s.obj a v } (s.obj a) v) := by
  unfold rebind at h
  simp only at h
  split at h
  · exact .inl (Except.ok.inj h).symm
  · rename_i hc
    split at h
    · rename_i hm
      cases hp : path s n (s.obj a) with
      | error e => rw [hp] at h; exact nomatch h
      | ok p =>
        rw [hp] at h
        simp only at h
        cases hq : path s n o with
        | error e => rw [hq] at h; exact nomatch h
        | ok q =>
          rw [hq] at h
          have h := Except.ok.inj h
          split at h
          · rename_i hpq
            right
            refine ⟨hc, hm, ?_, h.symm⟩
            intro ho
            rw [ho, hq] at hp
            cases hp
            have := congrArg List.length hpq
            simp at this
          · exact .inl h.symm
    · exact .inl (Except.ok.inj h).symm

/-! ## Frames -/

structure Frame (s s' : St O) (o v : O) : Prop where
  parent : ∀ p, p ≠ v → s'.parent p = s.parent p
  base : ∀ p, p ≠ v → s'.base p = s.base p
  tab : ∀ p, p ≠ o → p ≠ v → ∀ e, e ∈ s'.tab p → e ∈ s.tab p ∧ s'.obj e.2 = s.obj e.2
  made : ∀ p, s.made p = true → s'.made p = true

omit [DecidableEq O] in
theorem above_back {par par' : O → Option O} {v : O} (hp : ∀ p, p ≠ v → par' p = par p) {o p : O} (h : Above par' o p)
    (hv : ¬ Above par o v) : Above par o p := by
  induction h with
  | refl => exact .refl _
  | @up o q p h1 _ ih =>
    have ho : o ≠ v := fun e => hv (e ▸ .refl _)
    rw [hp o ho] at h1
    exact .up h1 (ih fun h => hv (.up h1 h))

omit [DecidableEq O] in
theorem outside_back {par par' : O → Option O} {v : O} (hp : ∀ p, p ≠ v → par' p = par p) {o p : O} (h : Outside par' o p)
    (ho : v ≠ o) (hv : ¬ Outside par o v) : Outside par o p := by
  obtain ⟨q, h1, h2⟩ := h
  rw [hp o (Ne.symm ho)] at h1
  exact ⟨q, h1, above_back hp h2 fun h => hv ⟨q, h1, h⟩⟩

omit [DecidableEq O] in
theorem seen_of_outside {s : St O} {o p : O} (h : Outside s.parent o p) : Seen s o p := ⟨p, h, .inl rfl⟩

omit [DecidableEq O] in
theorem Frame.seen {s s' : St O} {o v : O} (hf : Frame s s' o v) {o' q : O} (h : Seen s' o' q) (h1 : v ≠ o')
    (h2 : ¬ Seen s o' v) : Seen s o' q := by
  obtain ⟨p, hp, hq⟩ := h
  have hp' := outside_back hf.parent hp h1 fun h => h2 (seen_of_outside h)
  refine ⟨p, hp', ?_⟩
  rcases hq with hq | hq
  · exact .inl hq
  · refine .inr ?_
    rw [← hq, hf.base p]
    rintro rfl
    exact h2 (seen_of_outside hp')

omit [DecidableEq O] in
theorem Frame.lone {s s' : St O} {o v : O} (hf : Frame s s' o v) {o' : O} {k : Key} {u : O} (h : Lone s o' k u) (h1 : v ≠ o')
    (h2 : ¬ Seen s o' v) (h3 : ¬ Seen s o' o) : Lone s' o' k u := by
  intro p hp hh
  have hp' := outside_back hf.parent hp h1 fun h => h2 (seen_of_outside h)
  have hpv : p ≠ v := by rintro rfl; exact h2 (seen_of_outside hp')
  have hpo : p ≠ o := by rintro rfl; exact h3 (seen_of_outside hp')
  apply h p hp'
  rcases hh with ⟨k', a, hm, hk, ho⟩ | ⟨c, hb, k', a, hm, ho⟩
  · have := hf.tab p hpo hpv _ hm
    exact .inl ⟨k', a, this.1, hk, by rw [← this.2]; exact ho⟩
  · rw [hf.base p hpv] at hb
    have hcv : c ≠ v := by rintro rfl; exact h2 ⟨p, hp', .inr hb⟩
    have hco : c ≠ o := by rintro rfl; exact h3 ⟨p, hp', .inr hb⟩
    have := hf.tab c hco hcv _ hm
    exact .inr ⟨c, hb, k', a, this.1, by rw [← this.2]; exact ho⟩

/-- What an entry in the tables does. -/
structure Entered (w : World O) (s s' : St O) (o : O) (k : Key) (v : O) : Prop where
  wf : Wf s'
  frame : Frame s s' o v
  here : ∃ a, (k, a) ∈ s'.tab o ∧ s'.obj a = v
  acc : ∀ o' k' a', (k', a') ∈ s'.tab o' → (o' = o ∧ k' = k ∧ s'.obj a' = v) ∨ w.get o' k' = some (s'.obj a') ∨
    ((k', a') ∈ s.tab o' ∧ s'.obj a' = s.obj a')
  kept : ∀ o' k' a', (k', a') ∈ s.tab o' → (o' ≠ o ∨ k' ≠ k) → (∀ a, (k, a) ∈ s.tab o → s.obj a ≠ o') →
    (k', a') ∈ s'.tab o' ∧ s'.obj a' = s.obj a' ∧ s'.deps a' = s.deps a'

theorem mem_set {l : List (Key × Nat)} {k : Key} {a : Nat} {e : Key × Nat} (hl : (Assoc.keys l).Nodup) :
    e ∈ Assoc.set l k a ↔ e = (k, a) ∨ (e ∈ l ∧ e.1 ≠ k) := by
  obtain ⟨k', a'⟩ := e
  rw [← Assoc.get_eq_some_iff (Assoc.nodup_set hl k a), Assoc.get_set]
  split
  · rename_i h; subst h
    simp [eq_comm]
  · rename_i h
    rw [Assoc.get_eq_some_iff hl]
    simp [h]

theorem create_entered {w : World O} {s : St O} (hw : Wf s) {o : O} {k : Key} {v : O} {ds : List Nat} (ho : s.made o = true)
    (hk : Assoc.get (s.tab o) k = none) : Entered w s (create w s o k v ds) o k v := by
  have hmem : ∀ o' e, e ∈ (create w s o k v ds).tab o' → (o' = o ∧ e = (k, s.next)) ∨ (e ∈ s.tab o' ∧ e.2 ≠ s.next) := by
    intro o' e he
    have hold : ∀ o' e, e ∈ s.tab o' → e.2 ≠ s.next := fun o' e he => Nat.ne_of_lt (hw.fresh o' e.1 e.2 he)
    by_cases h : o' = o
    · subst h
      simp only [create, put_same] at he
      rcases (mem_set (hw.keys _)).1 he with h | h
      · exact .inl ⟨rfl, h⟩
      · exact .inr ⟨h.1, hold _ _ h.1⟩
    · simp only [create, put_ne _ _ h] at he
      exact .inr ⟨he, hold _ _ he⟩
  have hobj : ∀ a, a ≠ s.next → (create w s o k v ds).obj a = s.obj a := fun a h => put_ne _ _ h
  have hno : ∀ a, (k, a) ∉ s.tab o := by
    intro a h
    have := Assoc.get_eq_none_iff.1 hk
    exact this (List.mem_map.2 ⟨_, h, rfl⟩)
  refine ⟨⟨?_, ?_, ?_, ?_⟩, ⟨fun _ _ => rfl, fun _ _ => rfl, ?_, fun _ h => h⟩, ?_, ?_, ?_⟩
  · intro o'
    by_cases h : o' = o
    · subst h; simp only [create, put_same]; exact Assoc.nodup_set (hw.keys _) _ _
    · simp only [create, put_ne _ _ h]; exact hw.keys _
  · intro o1 o2 k1 k2 a h1 h2
    rcases hmem _ _ h1 with h1 | h1 <;> rcases hmem _ _ h2 with h2 | h2
    · have e1 := Prod.mk.inj h1.2
      have e2 := Prod.mk.inj h2.2
      exact ⟨h1.1.trans h2.1.symm, e1.1.trans e2.1.symm⟩
    · exact absurd (Prod.mk.inj h1.2).2 h2.2
    · exact absurd (Prod.mk.inj h2.2).2 h1.2
    · exact hw.once _ _ _ _ _ h1.1 h2.1
  · intro o' k' a h
    rcases hmem _ _ h with h | h
    · have := (Prod.mk.inj h.2).2
      subst this
      exact Nat.lt_succ_self _
    · exact Nat.lt_succ_of_lt (hw.fresh _ _ _ h.1)
  · intro o' h
    have hne : o' ≠ o := by rintro rfl; exact absurd (ho.symm.trans h) (by simp)
    simp only [create, put_ne _ _ hne]
    exact hw.unmade _ h
  · intro p hp _ e he
    rcases hmem _ _ he with h | h
    · exact absurd h.1 hp
    · exact ⟨h.1, hobj _ h.2⟩
  · refine ⟨s.next, ?_, put_same _ _ _⟩
    simp only [create, put_same]
    exact (mem_set (hw.keys _)).2 (.inl rfl)
  · intro o' k' a' h
    rcases hmem _ _ h with h | h
    · obtain ⟨h1, h2⟩ := h
      cases h2
      exact .inl ⟨h1, rfl, put_same _ _ _⟩
    · exact .inr (.inr ⟨h.1, hobj _ h.2⟩)
  · intro o' k' a' h _ _
    have hne : a' ≠ s.next := Nat.ne_of_lt (hw.fresh _ _ _ h)
    refine ⟨?_, hobj _ hne, put_ne _ _ hne⟩
    by_cases ho' : o' = o
    · subst ho'
      simp only [create, put_same]
      refine (mem_set (hw.keys _)).2 (.inr ⟨h, ?_⟩)
      rintro rfl
      exact hno _ h
    · simp only [create, put_ne _ _ ho']
      exact h

theorem plain_entered {w : World O} {s : St O} (hw : Wf s) {o : O} {k : Key} {v : O} {a : Nat} (ha : (k, a) ∈ s.tab o) :
    Entered w s { s with obj := put s.obj a v } o k v := by
  have hne : ∀ o' k' a', (k', a') ∈ s.tab o' → (o' ≠ o ∨ k' ≠ k) → a' ≠ a := by
    rintro o' k' a' h hn rfl
    have := hw.once _ _ _ _ _ h ha
    rcases hn with hn | hn
    · exact hn this.1
    · exact hn this.2
  refine ⟨⟨hw.keys, hw.once, hw.fresh, hw.unmade⟩, ⟨fun _ _ => rfl, fun _ _ => rfl, ?_, fun _ h => h⟩, ⟨a, ha, put_same _ _ _⟩, ?_, ?_⟩
  · intro p hp _ e he
    exact ⟨he, put_ne _ _ (hne _ e.1 e.2 he (.inl hp))⟩
  · intro o' k' a' h
    by_cases hc : a' = a
    · subst hc
      have := hw.once _ _ _ _ _ h ha
      exact .inl ⟨this.1, this.2, put_same _ _ _⟩
    · exact .inr (.inr ⟨h, put_ne _ _ hc⟩)
  · intro o' k' a' h hn _
    exact ⟨h, put_ne _ _ (hne _ _ _ h hn), rfl⟩

theorem Entered.moved {w : World O} {s s' : St O} {o : O} {k : Key} {v : O} (he : Entered w s s' o k v) (p : Option O) (x : Key) :
    Entered w s { s' with parent := put s'.parent v p, nm := put s'.nm v x } o k v := by
  obtain ⟨h1, h2, h3, h4, h5⟩ := he
  exact ⟨⟨h1.keys, h1.once, h1.fresh, h1.unmade⟩, ⟨fun p hp => (put_ne _ _ hp).trans (h2.parent p hp), h2.base, h2.tab, h2.made⟩, h3, h4, h5⟩

theorem mem_shared {w : World O} {s : St O} {c v : O} {e : Key × Nat} :
    e ∈ shared w s c v ↔ e ∈ s.tab c ∧ (w.get v e.1).isSome = true := by
  simp [shared]

theorem transfer_entered {w : World O} {s : St O} (hw : Wf s) {o : O} {k : Key} {v : O} {a : Nat} (ha : (k, a) ∈ s.tab o)
    (hcv : s.obj a ≠ v) (hco : s.obj a ≠ o) (hv : s.made v = false) :
    Entered w s (transfer w { s with obj := put s.obj a v } (s.obj a) v) o k v := by
  generalize hs1 : ({ s with obj := put s.obj a v } : St O) = s1
  have htab1 : s1.tab = s.tab := by rw [← hs1]
  have hobj1 : s1.obj = put s.obj a v := by rw [← hs1]
  have he1 : Entered w s s1 o k v := hs1 ▸ plain_entered hw ha
  have hw1 := he1.wf
  generalize hc : s.obj a = c at hcv hco ⊢
  have hmade1 : s1.made = s.made := by rw [← hs1]
  have hvt : s1.tab v = [] := hw1.unmade v (by rw [hmade1]; exact hv)
  have hov : o ≠ v := by
    rintro rfl
    rw [htab1] at hvt
    rw [hvt] at ha
    exact nomatch ha
  -- the objects
  have hsh : ∀ e, e ∈ shared w s1 c v → some ((transfer w s1 c v).obj e.2) = w.get v e.1 := by
    intro e he
    have hm := mem_shared.1 he
    simp only [transfer]
    cases hf : (shared w s1 c v).find? (fun e' => e'.2 = e.2) with
    | none =>
      have := List.find?_eq_none.1 hf e he
      simp at this
    | some e' =>
      have h1 := List.mem_of_find?_eq_some hf
      have h2 : e'.2 = e.2 := by simpa using List.find?_some hf
      have h3 := mem_shared.1 h1
      have h4 := hw1.once c c e'.1 e.1 e.2 (by rw [← h2]; exact h3.1) hm.1
      simp only
      rw [h4.2]
      obtain ⟨u, hu⟩ := Option.isSome_iff_exists.1 hm.2
      rw [hu]
      rfl
  have hun : ∀ o' e, e ∈ s1.tab o' → (o' ≠ c ∨ (w.get v e.1).isNone = true) → (transfer w s1 c v).obj e.2 = s1.obj e.2 := by
    intro o' e he hn
    simp only [transfer]
    cases hf : (shared w s1 c v).find? (fun e' => e'.2 = e.2) with
    | none => rfl
    | some e' =>
      exfalso
      have h1 := List.mem_of_find?_eq_some hf
      have h2 : e'.2 = e.2 := by simpa using List.find?_some hf
      have h3 := mem_shared.1 h1
      have h4 := hw1.once c o' e'.1 e.1 e.2 (by rw [← h2]; exact h3.1) he
      rcases hn with hn | hn
      · exact hn h4.1.symm
      · rw [← h4.2] at hn
        have := h3.2
        cases hg : w.get v e'.1 <;> simp [hg] at hn this
  have hmem : ∀ o' e, e ∈ (transfer w s1 c v).tab o' ↔
      (o' = v ∧ e ∈ shared w s1 c v) ∨ (o' ≠ v ∧ e ∈ s1.tab o' ∧ (o' ≠ c ∨ (w.get v e.1).isNone = true)) := by
    intro o' e
    by_cases h1 : o' = v
    · subst h1
      simp [transfer, put_same]
    · by_cases h2 : o' = c
      · subst h2
        simp [transfer, put_same, put_ne _ _ h1, h1]
      · simp [transfer, put_ne _ _ h1, put_ne _ _ h2, h1, h2]
  refine ⟨⟨?_, ?_, ?_, ?_⟩, ⟨?_, ?_, ?_, ?_⟩, ?_, ?_, ?_⟩
  · intro o'
    by_cases h1 : o' = v
    · subst h1
      simp only [transfer, put_same, shared, Assoc.keys]
      exact (hw1.keys c).sublist (List.Sublist.map _ List.filter_sublist)
    · by_cases h2 : o' = c
      · subst h2
        simp only [transfer, put_ne _ _ h1, put_same, Assoc.keys]
        exact (hw1.keys _).sublist (List.Sublist.map _ List.filter_sublist)
      · simp only [transfer, put_ne _ _ h1, put_ne _ _ h2]
        exact hw1.keys _
  · intro o1 o2 k1 k2 b h1 h2
    rcases (hmem _ _).1 h1 with ⟨e1, h1⟩ | ⟨n1, h1, x1⟩ <;> rcases (hmem _ _).1 h2 with ⟨e2, h2⟩ | ⟨n2, h2, x2⟩
    · exact ⟨e1.trans e2.symm, (hw1.once _ _ _ _ _ (mem_shared.1 h1).1 (mem_shared.1 h2).1).2⟩
    · exfalso
      have h1 := mem_shared.1 h1
      have := hw1.once _ _ _ _ _ h1.1 h2
      rcases x2 with x2 | x2
      · exact x2 this.1.symm
      · rw [← this.2] at x2
        have h1 := h1.2
        cases hg : w.get v k1 <;> simp [hg] at x2 h1
    · exfalso
      have h2 := mem_shared.1 h2
      have := hw1.once _ _ _ _ _ h2.1 h1
      rcases x1 with x1 | x1
      · exact x1 this.1.symm
      · rw [← this.2] at x1
        have h2 := h2.2
        cases hg : w.get v k2 <;> simp [hg] at x1 h2
    · exact hw1.once _ _ _ _ _ h1 h2
  · intro o' k' b h
    rcases (hmem _ _).1 h with ⟨_, h⟩ | ⟨_, h, _⟩
    · exact hw1.fresh _ _ _ (mem_shared.1 h).1
    · exact hw1.fresh _ _ _ h
  · intro o' h
    by_cases h1 : o' = v
    · subst h1; simp [transfer, put_same] at h
    · have h : s1.made o' = false := by simpa [transfer, put_ne _ _ h1] using h
      have := hw1.unmade _ h
      apply List.eq_nil_iff_forall_not_mem.2
      intro e he
      rcases (hmem _ _).1 he with ⟨h2, _⟩ | ⟨_, h2, _⟩
      · exact h1 h2
      · rw [this] at h2; exact nomatch h2
  · intro p hp
    simp only [transfer, put_ne _ _ hp]
    exact he1.frame.parent p hp
  · intro p hp
    simp only [transfer, put_ne _ _ hp]
    exact he1.frame.base p hp
  · intro p hpo hpv e he
    rcases (hmem _ _).1 he with ⟨h2, _⟩ | ⟨_, h2, h3⟩
    · exact absurd h2 hpv
    · have := he1.frame.tab p hpo hpv e h2
      exact ⟨this.1, (hun p e h2 h3).trans this.2⟩
  · intro p hp
    by_cases h1 : p = v
    · subst h1; simp [transfer, put_same]
    · simp only [transfer, put_ne _ _ h1]; exact he1.frame.made p hp
  · have h1 : (k, a) ∈ s1.tab o := by rw [htab1]; exact ha
    refine ⟨a, (hmem _ _).2 (.inr ⟨hov, h1, .inl (Ne.symm hco)⟩), ?_⟩
    rw [hun o (k, a) h1 (.inl (Ne.symm hco)), hobj1]
    exact put_same _ _ _
  · intro o' k' b h
    rcases (hmem _ _).1 h with ⟨h1, h2⟩ | ⟨_, h2, h3⟩
    · subst h1
      exact .inr (.inl (hsh _ h2).symm)
    · rw [hun o' (k', b) h2 h3]
      exact he1.acc _ _ _ h2
  · intro o' k' b h hn hc'
    have h1 := he1.kept o' k' b h hn hc'
    have hoc : o' ≠ c := by rintro rfl; exact hc' a ha hc
    have hov' : o' ≠ v := by
      rintro rfl
      rw [htab1] at hvt
      rw [hvt] at h
      exact nomatch h
    refine ⟨(hmem _ _).2 (.inr ⟨hov', h1.1, .inl hoc⟩), ?_, ?_⟩
    · rw [hun o' (k', b) h1.1 (.inl hoc)]
      exact h1.2.1
    · exact h1.2.2

theorem Entered.redep {w : World O} {s s' : St O} {o : O} {k : Key} {v : O} (hw : Wf s) (he : Entered w s s' o k v) {a : Nat} (ha : (k, a) ∈ s.tab o)
    (ds : List Nat) (over : Bool) : Entered w s (redep s' a ds over) o k v := by
  obtain ⟨h1, h2, h3, h4, h5⟩ := he
  refine ⟨⟨h1.keys, h1.once, h1.fresh, h1.unmade⟩, ⟨h2.parent, h2.base, h2.tab, h2.made⟩, h3, h4, ?_⟩
  intro o' k' a' h hn hc
  have := h5 o' k' a' h hn hc
  refine ⟨this.1, this.2.1, ?_⟩
  have hne : a' ≠ a := by
    rintro rfl
    have := hw.once _ _ _ _ _ h ha
    rcases hn with hn | hn
    · exact hn this.1
    · exact hn this.2
  simp only [Place.redep, put_ne _ _ hne]
  exact this.2.2

theorem upsert_entered {w : World O} {s s' : St O} (hw : Wf s) {n : Nat} {o : O} {k : Key} {v : O} {ds : List Nat} {over : Bool}
    (ho : s.made o = true) (h : upsert w s n o k v ds over = .ok s') : Entered w s s' o k v := by
  unfold upsert at h
  cases hg : Assoc.get (s.tab o) k with
  | none =>
    rw [hg] at h
    cases h
    exact create_entered hw ho hg
  | some a =>
    rw [hg] at h
    simp only at h
    have ha := Assoc.mem_of_get hg
    cases hr : rebind w s n a o k v with
    | error e => rw [hr] at h; exact nomatch h
    | ok s1 =>
      rw [hr] at h
      cases h
      apply Entered.redep hw _ ha
      rcases rebind_cases hr with rfl | ⟨h1, h2, h3, rfl⟩
      · exact plain_entered hw ha
      · unfold renew
        by_cases hm : s.made v = true
        · rw [if_pos hm]
          exact (plain_entered hw ha).moved _ _
        · rw [if_neg hm]
          exact transfer_entered hw ha h1 h3 (by simpa using hm)

end Verif.Place
