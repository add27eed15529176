import Verif.Age.Model
import Mathlib.Order.Lattice

/-! # Lemmas about versions -/

namespace Verif.Age

variable {S O T : Type} [DecidableEq S] [DecidableEq O] [LinearOrder T]
variable {H : Heap S O} {now : T}

/-- Symbols that `refresh` with descendents goes down to from `s`. -/
inductive Below (H : Heap S O) (obj : S → O) (s : S) : S → Prop where
  | base {m : S} : H.hasNs (obj s) = true → m ∈ H.own (obj s) → Below H obj s m
  | step {x m : S} : Below H obj s x → H.rest x = true → H.hasNs (obj x) = true → m ∈ H.own (obj x) → Below H obj s m

/-! ## `bump` -/

theorem bump_ts (s q : S) (st : St S O T) : (bump H now s st).ts q = if q = s then now else st.ts q := rfl

theorem bump_md (s : S) (o : O) (st : St S O T) : (bump H now s st).md o = if H.holder s = some o then max (st.md o) now else st.md o := rfl

theorem bump_obj (s : S) (st : St S O T) : (bump H now s st).obj = st.obj := rfl

theorem bump_aliases (s : S) (st : St S O T) : (bump H now s st).aliases = st.aliases := rfl

/-- What updates of versions leave alone, and that versions only grow. -/
structure Grow (H : Heap S O) (now : T) (R : S → Prop) (st st' : St S O T) : Prop where
  obj : st'.obj = st.obj
  aliases : st'.aliases = st.aliases
  ts : ∀ q, st'.ts q = st.ts q ∨ (st'.ts q = now ∧ R q)
  md : ∀ o, st'.md o = st.md o ∨ (st'.md o = max (st.md o) now ∧ ∃ q, R q ∧ H.holder q = some o)
  held : ∀ q o, H.holder q = some o → (st.ts q ≤ st.md o → st'.ts q ≤ st'.md o)

theorem Grow.mdle {R : S → Prop} {st st' : St S O T} (h : Grow H now R st st') (o : O) : st.md o ≤ st'.md o := by
  rcases h.md o with e | ⟨e, _⟩
  · rw [e]
  · rw [e]; exact le_max_left _ _

theorem Grow.refl (R : S → Prop) (st : St S O T) : Grow H now R st st where
  obj := rfl
  aliases := rfl
  ts _ := .inl rfl
  md _ := .inl rfl
  held _ _ _ h := h

theorem Grow.trans {R : S → Prop} {a b c : St S O T} (h : Grow H now R a b) (h' : Grow H now R b c) : Grow H now R a c where
  obj := h'.obj.trans h.obj
  aliases := h'.aliases.trans h.aliases
  ts q := by
    rcases h'.ts q with e | e
    · rw [e]; exact h.ts q
    · exact .inr e
  md o := by
    rcases h'.md o with e | ⟨e, r⟩
    · rw [e]; exact h.md o
    · rcases h.md o with e' | ⟨e', _⟩
      · rw [e, e']; exact .inr ⟨rfl, r⟩
      · rw [e, e']; exact .inr ⟨by rw [max_assoc, max_self], r⟩
  held q o ho hle := h'.held q o ho (h.held q o ho hle)

theorem Grow.now_stays {R : S → Prop} {st st' : St S O T} (h : Grow H now R st st') {q : S} (hq : st.ts q = now) : st'.ts q = now := by
  rcases h.ts q with e | ⟨e, _⟩
  · rw [e, hq]
  · exact e

theorem bump_grow {R : S → Prop} {s : S} (hs : R s) (st : St S O T) : Grow H now R st (bump H now s st) where
  obj := rfl
  aliases := rfl
  ts q := by
    rw [bump_ts]
    by_cases h : q = s
    · subst h; rw [if_pos rfl]; exact .inr ⟨rfl, hs⟩
    · rw [if_neg h]; exact .inl rfl
  md o := by
    rw [bump_md]
    by_cases h : H.holder s = some o
    · rw [if_pos h]; exact .inr ⟨rfl, s, hs, h⟩
    · rw [if_neg h]; exact .inl rfl
  held q o ho hle := by
    rw [bump_ts, bump_md]
    by_cases h : q = s
    · subst h; rw [if_pos rfl, if_pos ho]; exact le_max_right _ _
    · rw [if_neg h]
      by_cases h2 : H.holder s = some o
      · rw [if_pos h2]; exact le_trans hle (le_max_left _ _)
      · rw [if_neg h2]; exact hle

/-! ## `refresh` -/

/-- What `refresh` does, from a set of symbols seen before. -/
structure RPost (H : Heap S O) (now : T) (R : S → Prop) (x x' : St S O T × List S) : Prop where
  grow : Grow H now R x.1 x'.1
  mono : x.2 ⊆ x'.2
  seen : (∀ q ∈ x.2, x.1.ts q = now) → ∀ q ∈ x'.2, x'.1.ts q = now
  closed : ∀ q ∈ x'.2, q ∉ x.2 → H.hasNs (x.1.obj q) = true → ∀ m ∈ H.own (x.1.obj q), x'.1.ts m = now ∧ (H.rest m = true → m ∈ x'.2)

theorem RPost.refl (R : S → Prop) (x : St S O T × List S) : RPost H now R x x where
  grow := .refl _ _
  mono := fun _ h => h
  seen h := h
  closed q h h' := absurd h h'

theorem RPost.trans {R : S → Prop} {a b c : St S O T × List S} (h : RPost H now R a b) (h' : RPost H now R b c) : RPost H now R a c where
  grow := h.grow.trans h'.grow
  mono := fun _ hq => h'.mono (h.mono hq)
  seen hq := h'.seen (h.seen hq)
  closed q hq hn hns m hm := by
    by_cases hb : q ∈ b.2
    · obtain ⟨h1, h2⟩ := h.closed q hb hn hns m hm
      exact ⟨h'.grow.now_stays h1, fun hr => h'.mono (h2 hr)⟩
    · rw [← h.grow.obj] at hns hm
      exact h'.closed q hq hb hns m hm

theorem fold_rpost {R : S → Prop} {f : St S O T × List S → S → Except Err (St S O T × List S)} : ∀ (l : List S) (x x' : St S O T × List S),
    (∀ m ∈ l, R m) → (∀ q ∈ x.2, x.1.ts q = now) →
    (∀ m ∈ l, ∀ y y', y.1.obj = x.1.obj → (∀ q ∈ y.2, y.1.ts q = now) → f y m = .ok y' →
      RPost H now R y y' ∧ y'.1.ts m = now ∧ (H.rest m = true → m ∈ y'.2)) →
    l.foldlM f x = .ok x' → RPost H now R x x' ∧ ∀ m ∈ l, x'.1.ts m = now ∧ (H.rest m = true → m ∈ x'.2) := by
  intro l
  induction l with
  | nil =>
    intro x x' _ _ _ h
    simp only [List.foldlM_nil, pure, Except.pure, Except.ok.injEq] at h
    subst h
    exact ⟨.refl _ _, by simp⟩
  | cons a l ih =>
    intro x x' hR hx hf h
    rw [List.foldlM_cons] at h
    cases hfa : f x a with
    | error e => rw [hfa] at h; simp [bind, Except.bind] at h
    | ok y =>
      rw [hfa] at h
      simp only [bind, Except.bind] at h
      obtain ⟨h1, h2, h3⟩ := hf a (by simp) x y rfl hx hfa
      obtain ⟨h4, h5⟩ := ih y x' (fun m hm => hR m (by simp [hm])) (h1.seen hx)
        (fun m hm z z' hz => hf m (by simp [hm]) z z' (hz.trans h1.grow.obj)) h
      refine ⟨h1.trans h4, fun m hm => ?_⟩
      rcases List.mem_cons.1 hm with rfl | hm
      · exact ⟨h4.grow.now_stays h2, fun hr => h4.mono (h3 hr)⟩
      · exact h5 m hm

theorem refresh_post {R D : S → Prop} (obj : S → O) (hD : ∀ m, H.rest m = true → D m)
    (hR : ∀ x m, R x → D x → H.hasNs (obj x) = true → m ∈ H.own (obj x) → R m) :
    ∀ (n : Nat) (desc : Bool) (s : S) (x x' : St S O T × List S), R s → (desc = true → D s) → x.1.obj = obj → (∀ q ∈ x.2, x.1.ts q = now) →
      refresh H now n desc s x = .ok x' → RPost H now R x x' ∧ x'.1.ts s = now ∧ (desc = true → s ∈ x'.2) := by
  intro n
  induction n with
  | zero => intro desc s x x' _ _ _ _ h; simp [refresh] at h
  | succ n ih =>
    intro desc s x x' hs hds ho hx h
    unfold refresh at h
    by_cases hm : s ∈ x.2
    · rw [if_pos hm] at h
      cases h
      exact ⟨.refl _ _, hx s hm, fun _ => hm⟩
    · rw [if_neg hm] at h
      cases desc with
      | false =>
        simp only [Bool.false_eq_true, if_false, Except.ok.injEq] at h
        subst h
        refine ⟨⟨bump_grow hs _, fun _ h => h, fun _ q hq => ?_, fun q hq hn => absurd hq hn⟩, ?_, by simp⟩
        · exact (bump_grow hs x.1).now_stays (hx q hq)
        · show (bump H now s x.1).ts s = now
          rw [bump_ts, if_pos rfl]
      | true =>
        simp only [if_true] at h
        have hg := bump_grow (H := H) (now := now) hs x.1
        have hseen : ∀ q ∈ x.2 ++ [s], (bump H now s x.1).ts q = now := by
          intro q hq
          rcases List.mem_append.1 hq with hq | hq
          · exact hg.now_stays (hx q hq)
          · simp only [List.mem_singleton] at hq
            subst hq
            rw [bump_ts, if_pos rfl]
        by_cases hns : H.hasNs (x.1.obj s) = true
        · rw [if_pos hns] at h
          obtain ⟨h1, h2⟩ := fold_rpost (R := R) (H := H) (now := now) (H.own (x.1.obj s)) _ x'
            (fun m hm => hR s m hs (hds rfl) (ho ▸ hns) (ho ▸ hm)) hseen (fun m hm y y' hy hys hyy => by
              obtain ⟨g1, g2, g3⟩ := ih (H.rest m) m y y' (hR s m hs (hds rfl) (ho ▸ hns) (ho ▸ hm)) (hD m) (by rw [hy]; exact ho) hys hyy
              exact ⟨g1, g2, g3⟩) h
          refine ⟨⟨hg.trans h1.grow, fun q hq => h1.mono (by simp [hq]), fun _ => h1.seen hseen, ?_⟩, ?_, fun _ => h1.mono (by simp)⟩
          · intro q hq hn hqs m hmo
            by_cases hqe : q = s
            · subst hqe; exact h2 m hmo
            · exact h1.closed q hq (by simp [hn, hqe]) hqs m hmo
          · exact h1.seen hseen s (h1.mono (by simp))
        · rw [if_neg hns] at h
          cases h
          refine ⟨⟨hg, fun q hq => by simp [hq], fun _ => hseen, ?_⟩, hseen s (by simp), fun _ => by simp⟩
          intro q hq hn hqs
          have : q = s := by simpa [hn] using hq
          subst this
          exact absurd hqs hns

/-! ## `collect` -/

/-- The container that `collect` stamps on behalf of a symbol. -/
def upOf (H : Heap S O) (s : S) : Option O := if H.isModule s then none else H.holder s

/-- What `collect` does. -/
structure CPost (H : Heap S O) (now : T) (desc : Bool) (R : S → Prop) (x x' : St S O T × List S) : Prop where
  obj : x'.1.obj = x.1.obj
  aliases : x'.1.aliases = x.1.aliases
  ts : x'.1.ts = x.1.ts
  mono : x.2 ⊆ x'.2
  seen : ∀ q ∈ x'.2, q ∈ x.2 ∨ (R q ∧ H.isImport q = false)
  md : ∀ o, x'.1.md o = x.1.md o ∨ (x'.1.md o = now ∧ ∃ q ∈ x'.2, R q ∧ upOf H q = some o)
  stamped : (∀ q ∈ x.2, ∀ o, upOf H q = some o → x.1.md o = now) → ∀ q ∈ x'.2, ∀ o, upOf H q = some o → x'.1.md o = now
  closed : ∀ q ∈ x'.2, q ∉ x.2 → ∀ o, upOf H q = some o → ∀ a ∈ x.1.aliases o, H.isImport a = false → a ∈ x'.2
  down : desc = true → ∀ q ∈ x'.2, q ∉ x.2 → H.hasNs (x.1.obj q) = true → ∀ a ∈ H.members (x.1.obj q), H.isImport a = false → a ∈ x'.2

theorem CPost.refl (desc : Bool) (R : S → Prop) (x : St S O T × List S) : CPost H now desc R x x where
  obj := rfl
  aliases := rfl
  ts := rfl
  mono := fun _ h => h
  seen q h := .inl h
  md o := .inl rfl
  stamped h := h
  closed q h h' := absurd h h'
  down _ q h h' := absurd h h'

theorem CPost.trans {desc : Bool} {R : S → Prop} {a b c : St S O T × List S} (h : CPost H now desc R a b) (h' : CPost H now desc R b c) :
    CPost H now desc R a c where
  obj := h'.obj.trans h.obj
  aliases := h'.aliases.trans h.aliases
  ts := h'.ts.trans h.ts
  mono := fun _ hq => h'.mono (h.mono hq)
  seen q hq := by
    rcases h'.seen q hq with hq | hq
    · exact h.seen q hq
    · exact .inr hq
  md o := by
    rcases h'.md o with e | e
    · rw [e]
      rcases h.md o with e' | ⟨e', q, hq, r⟩
      · exact .inl e'
      · exact .inr ⟨e', q, h'.mono hq, r⟩
    · exact .inr e
  stamped hq := h'.stamped (h.stamped hq)
  closed q hq hn o ho x hx hi := by
    by_cases hb : q ∈ b.2
    · exact h'.mono (h.closed q hb hn o ho x hx hi)
    · rw [← h.aliases] at hx
      exact h'.closed q hq hb o ho x hx hi
  down hd q hq hn hns x hx hi := by
    by_cases hb : q ∈ b.2
    · exact h'.mono (h.down hd q hb hn hns x hx hi)
    · rw [← h.obj] at hns hx
      exact h'.down hd q hq hb hns x hx hi

theorem fold_cpost {desc : Bool} {R : S → Prop} {f : St S O T × List S → S → Except Err (St S O T × List S)} :
    ∀ (l : List S) (x x' : St S O T × List S),
    (∀ m ∈ l, ∀ y y', y.1.obj = x.1.obj → y.1.aliases = x.1.aliases → f y m = .ok y' → CPost H now desc R y y' ∧ (H.isImport m = false → m ∈ y'.2)) →
    l.foldlM f x = .ok x' → CPost H now desc R x x' ∧ ∀ m ∈ l, H.isImport m = false → m ∈ x'.2 := by
  intro l
  induction l with
  | nil =>
    intro x x' _ h
    simp only [List.foldlM_nil, pure, Except.pure, Except.ok.injEq] at h
    subst h
    exact ⟨.refl _ _ _, by simp⟩
  | cons a l ih =>
    intro x x' hf h
    rw [List.foldlM_cons] at h
    cases hfa : f x a with
    | error e => rw [hfa] at h; simp [bind, Except.bind] at h
    | ok y =>
      rw [hfa] at h
      simp only [bind, Except.bind] at h
      obtain ⟨h1, h2⟩ := hf a (by simp) x y rfl rfl hfa
      obtain ⟨h4, h5⟩ := ih y x' (fun m hm z z' hz hz' => hf m (by simp [hm]) z z' (hz.trans h1.obj) (hz'.trans h1.aliases)) h
      refine ⟨h1.trans h4, fun m hm hi => ?_⟩
      rcases List.mem_cons.1 hm with rfl | hm
      · exact h4.mono (h2 hi)
      · exact h5 m hm hi

theorem collect_post {desc : Bool} {R : S → Prop} (obj : S → O) (al : O → List S)
    (hup : ∀ q o a, R q → H.isImport q = false → upOf H q = some o → a ∈ al o → R a)
    (hdown : desc = true → ∀ q a, R q → H.isImport q = false → H.hasNs (obj q) = true → a ∈ H.members (obj q) → R a) :
    ∀ (n : Nat) (s : S) (x x' : St S O T × List S), R s → x.1.obj = obj → x.1.aliases = al →
      collect H now desc n s x = .ok x' → CPost H now desc R x x' ∧ (H.isImport s = false → s ∈ x'.2) := by
  intro n
  induction n with
  | zero => intro s x x' _ _ _ h; simp [collect] at h
  | succ n ih =>
    intro s x x' hs ho ha h
    unfold collect at h
    by_cases hi : H.isImport s = true
    · simp only [hi, Bool.true_or, if_true, Except.ok.injEq] at h
      subst h
      exact ⟨.refl _ _ _, fun h => by simp [hi] at h⟩
    by_cases hm : s ∈ x.2
    · simp only [hm, decide_true, Bool.or_true, if_true, Except.ok.injEq] at h
      subst h
      exact ⟨.refl _ _ _, fun _ => hm⟩
    have hi' : H.isImport s = false := by simpa using hi
    simp only [hi', hm, decide_false, Bool.or_false, Bool.false_eq_true, if_false] at h
    -- the first half
    have hfirst : ∀ x1, climb H now (fun x a => collect H now desc n a x) s x = .ok x1 →
        x1.1.obj = x.1.obj ∧ x1.1.aliases = x.1.aliases ∧ x1.1.ts = x.1.ts ∧ x.2 ⊆ x1.2 ∧ s ∈ x1.2 ∧
        (∀ q ∈ x1.2, q ∈ x.2 ∨ (R q ∧ H.isImport q = false)) ∧
        (∀ o, x1.1.md o = x.1.md o ∨ (x1.1.md o = now ∧ ∃ q ∈ x1.2, R q ∧ upOf H q = some o)) ∧
        ((∀ q ∈ x.2, ∀ o, upOf H q = some o → x.1.md o = now) → ∀ q ∈ x1.2, ∀ o, upOf H q = some o → x1.1.md o = now) ∧
        (∀ q ∈ x1.2, q ∉ x.2 → ∀ o, upOf H q = some o → ∀ a ∈ x.1.aliases o, H.isImport a = false → a ∈ x1.2) ∧
        (desc = true → ∀ q ∈ x1.2, q ∉ x.2 → q ≠ s → H.hasNs (x.1.obj q) = true → ∀ a ∈ H.members (x.1.obj q), H.isImport a = false → a ∈ x1.2) := by
      intro x1 hx1
      unfold climb at hx1
      cases hu : (if H.isModule s then none else H.holder s) with
      | none =>
        rw [hu] at hx1
        cases hx1
        have hu' : upOf H s = none := hu
        refine ⟨rfl, rfl, rfl, fun q hq => by simp [hq], by simp, ?_, fun o => .inl rfl, ?_, ?_, ?_⟩
        · intro q hq
          rcases List.mem_append.1 hq with hq | hq
          · exact .inl hq
          · simp only [List.mem_singleton] at hq; subst hq; exact .inr ⟨hs, hi'⟩
        · intro hx q hq o hqo
          rcases List.mem_append.1 hq with hq | hq
          · exact hx q hq o hqo
          · simp only [List.mem_singleton] at hq; subst hq; rw [hu'] at hqo; cases hqo
        · intro q hq hn o hqo
          rcases List.mem_append.1 hq with hq | hq
          · exact absurd hq hn
          · simp only [List.mem_singleton] at hq; subst hq; rw [hu'] at hqo; cases hqo
        · intro _ q hq hn hne
          rcases List.mem_append.1 hq with hq | hq
          · exact absurd hq hn
          · simp only [List.mem_singleton] at hq; exact absurd hq hne
      | some o1 =>
        rw [hu] at hx1
        have hu' : upOf H s = some o1 := hu
        have hf := fold_cpost (H := H) (now := now) (desc := desc) (R := R) (x.1.aliases o1) (stamp now o1 x.1, x.2 ++ [s]) x1
          (fun m hm y y' hy hy' hyy => ih m y y' (hup s o1 m hs hi' hu' (ha ▸ hm)) (by rw [hy]; exact ho) (by rw [hy']; exact ha) hyy) hx1
        obtain ⟨h1, h2⟩ := hf
        have hsin : s ∈ x1.2 := h1.mono (by simp)
        refine ⟨h1.obj, h1.aliases, h1.ts, fun q hq => h1.mono (by simp [hq]), hsin, ?_, ?_, ?_, ?_, ?_⟩
        · intro q hq
          rcases h1.seen q hq with hq | hq
          · rcases List.mem_append.1 hq with hq | hq
            · exact .inl hq
            · simp only [List.mem_singleton] at hq; subst hq; exact .inr ⟨hs, hi'⟩
          · exact .inr hq
        · intro o
          rcases h1.md o with e | e
          · by_cases ho1 : o = o1
            · subst ho1
              refine .inr ⟨?_, s, hsin, hs, hu'⟩
              rw [e]; show (if o = o then now else _) = now; rw [if_pos rfl]
            · left
              rw [e]; show (if o = o1 then now else _) = _; rw [if_neg ho1]
          · exact .inr e
        · intro hx
          apply h1.stamped
          intro q hq o hqo
          show (if o = o1 then now else x.1.md o) = now
          by_cases ho1 : o = o1
          · rw [if_pos ho1]
          · rw [if_neg ho1]
            rcases List.mem_append.1 hq with hq | hq
            · exact hx q hq o hqo
            · simp only [List.mem_singleton] at hq
              subst hq
              rw [hu'] at hqo
              cases hqo
              exact absurd rfl ho1
        · intro q hq hn o hqo a haa hia
          by_cases hqs : q = s
          · subst hqs
            rw [hu'] at hqo
            cases hqo
            exact h2 a haa hia
          · exact h1.closed q hq (by simp [hn, hqs]) o hqo a haa hia
        · intro hd q hq hn hne hns a haa hia
          exact h1.down hd q hq (by simp [hn, hne]) hns a haa hia
    cases hx1 : climb H now (fun x a => collect H now desc n a x) s x with
    | error e => rw [hx1] at h; simp at h
    | ok x1 =>
      rw [hx1] at h
      obtain ⟨f1, f2, f3, f4, f5, f6, f7, f8, f9, f10⟩ := hfirst x1 hx1
      simp only at h
      by_cases hc : (desc && H.hasNs (x1.1.obj s)) = true
      · rw [if_pos hc] at h
        simp only [Bool.and_eq_true] at hc
        obtain ⟨hd, hns⟩ := hc
        rw [f1] at hns
        have hf := fold_cpost (H := H) (now := now) (desc := desc) (R := R) (H.members (x1.1.obj s)) x1 x'
          (fun m hm y y' hy hy' hyy => ih m y y' (hdown hd s m hs hi' (ho ▸ hns) (by rw [f1, ho] at hm; exact hm))
            (by rw [hy, f1]; exact ho) (by rw [hy', f2]; exact ha) hyy) h
        obtain ⟨h1, h2⟩ := hf
        rw [f1] at h2
        refine ⟨⟨h1.obj.trans f1, h1.aliases.trans f2, h1.ts.trans f3, fun q hq => h1.mono (f4 hq), ?_, ?_, fun hx => h1.stamped (f8 hx), ?_, ?_⟩,
          fun _ => h1.mono f5⟩
        · intro q hq
          rcases h1.seen q hq with hq | hq
          · exact f6 q hq
          · exact .inr hq
        · intro o
          rcases h1.md o with e | e
          · rw [e]
            rcases f7 o with e' | ⟨e', q, hq, r⟩
            · exact .inl e'
            · exact .inr ⟨e', q, h1.mono hq, r⟩
          · exact .inr e
        · intro q hq hn o hqo a haa hia
          by_cases hb : q ∈ x1.2
          · exact h1.mono (f9 q hb hn o hqo a haa hia)
          · rw [← f2] at haa
            exact h1.closed q hq hb o hqo a haa hia
        · intro hd q hq hn hqns a haa hia
          by_cases hqs : q = s
          · subst hqs; exact h2 a haa hia
          · by_cases hb : q ∈ x1.2
            · exact h1.mono (f10 hd q hb hn hqs hqns a haa hia)
            · rw [← f1] at hqns haa
              exact h1.down hd q hq hb hqns a haa hia
      · rw [if_neg hc] at h
        cases h
        refine ⟨⟨f1, f2, f3, f4, f6, f7, f8, f9, ?_⟩, fun _ => f5⟩
        intro hd q hq hn hqns a haa hia
        by_cases hqs : q = s
        · subst hqs
          rw [hd, f1, hqns] at hc
          exact absurd rfl hc
        · exact f10 hd q hq hn hqs hqns a haa hia

/-! ## `others` -/

theorem others_grow {e : Upd S O T} {R : S → Prop} : ∀ (l : List S) (st : St S O T), (∀ q ∈ l, R q) → Grow H e.now R st (others H e l st) := by
  intro l
  induction l with
  | nil => intro st _; exact .refl _ _
  | cons a l ih =>
    intro st hR
    have : others H e (a :: l) st = others H e l (if !e.waiting a && decide (a ≠ e.sym) then bump H e.now a st else st) := rfl
    rw [this]
    refine Grow.trans ?_ (ih _ (fun q hq => hR q (by simp [hq])))
    by_cases hc : (!e.waiting a && decide (a ≠ e.sym)) = true
    · rw [if_pos hc]; exact bump_grow (hR a (by simp)) st
    · rw [if_neg hc]; exact .refl _ _

theorem others_ts {e : Upd S O T} : ∀ (l : List S) (st : St S O T) (q : S),
    (others H e l st).ts q = if q ∈ l ∧ e.waiting q = false ∧ q ≠ e.sym then e.now else st.ts q := by
  intro l
  induction l with
  | nil => intro st q; simp [others]
  | cons a l ih =>
    intro st q
    have : others H e (a :: l) st = others H e l (if !e.waiting a && decide (a ≠ e.sym) then bump H e.now a st else st) := rfl
    rw [this, ih]
    by_cases h1 : q ∈ l ∧ e.waiting q = false ∧ q ≠ e.sym
    · rw [if_pos h1, if_pos ⟨by simp [h1.1], h1.2⟩]
    · rw [if_neg h1]
      by_cases h2 : q ∈ a :: l ∧ e.waiting q = false ∧ q ≠ e.sym
      · rw [if_pos h2]
        have hqa : q = a := by
          rcases List.mem_cons.1 h2.1 with h | h
          · exact h
          · exact absurd ⟨h, h2.2⟩ h1
        subst hqa
        rw [if_pos (by simp [h2.2.1, h2.2.2]), bump_ts, if_pos rfl]
      · rw [if_neg h2]
        by_cases hc : (!e.waiting a && decide (a ≠ e.sym)) = true
        · rw [if_pos hc, bump_ts]
          rw [if_neg]
          rintro rfl
          simp only [Bool.and_eq_true, Bool.not_eq_true', decide_eq_true_eq] at hc
          exact h2 ⟨by simp, hc⟩
        · rw [if_neg hc]

end Verif.Age
