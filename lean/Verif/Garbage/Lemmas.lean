import Verif.Garbage.Spec
import Verif.Chain.Lemmas
import Mathlib.Data.Finset.Card
import Mathlib.Data.Finset.Range

/-! # Marks and tables agree with the names -/

namespace Verif.Garbage
open Verif Verif.Chain Verif.Garbage.Spec

set_option linter.unusedSectionVars false
variable {O K : Type} [DecidableEq O] [DecidableEq K]

/-- What does not depend on marks. -/
structure Static (s : St O K) (g : Notebook O K) : Prop where
  nodup : ∀ h, (Assoc.keys (s.tab h)).Nodup
  entry : ∀ h k a, Assoc.get (s.tab h) k = some a → s.home a = h ∧ s.key a = k ∧ ∃ o, s.obj a = some o
  bound : ∀ a o, s.obj a = some o → a < s.next
  names : ∀ a o, a ∈ s.names o ↔ s.obj a = some o
  uniq : ∀ a b o o', s.obj a = some o → s.obj b = some o' → s.home a = s.home b → s.key a = s.key b → a = b
  hist : ∀ a o, s.obj a = some o → g.hist (s.home a) (s.key a) o
  heap : ∀ h k a o, Assoc.get (s.tab h) k = some a → s.obj a = some o → g.heap h k = some o
  opened : ∀ o, s.made o = true → g.opened o
  parts : ∀ o k v, g.heap (some o) k = some v → g.opened o
  made : ∀ o, g.opened o → Named g.heap o → s.made o = true
  kept : ∀ h k o, g.heap h k = some o → Home g.heap h → ∃ a, Assoc.get (s.tab h) k = some a ∧ s.obj a = some o

/-- What marks mean while the symbols in `l` remain to be marked. -/
structure Marks (s : St O K) (l : List Nat) : Prop where
  live : ∀ a o, s.obj a = some o → s.tomb a = false →
    a ∈ l ∨ (Assoc.get (s.tab (s.home a)) (s.key a) = some a ∧ ∀ p, s.home a = some p → s.made p = true ∧ s.dead p = false)
  gone : ∀ h k a, Assoc.get (s.tab h) k = some a → s.tomb a = true → ∃ p, h = some p ∧ s.dead p = true
  named : ∀ o, s.made o = true → s.dead o = false → ∃ a, s.obj a = some o ∧ s.tomb a = false
  nameless : ∀ o, s.dead o = true → s.made o = true ∧ ∀ a, s.obj a = some o → s.tomb a = true
  parts : ∀ p k a, s.dead p = true → Assoc.get (s.tab (some p)) k = some a → s.tomb a = true ∨ a ∈ l
  todo : ∀ a ∈ l, ∀ h k, Assoc.get (s.tab h) k = some a → ∃ p, h = some p ∧ s.dead p = true

/-- Only marks changed. -/
structure Same (s t : St O K) : Prop where
  tab : t.tab = s.tab
  home : t.home = s.home
  key : t.key = s.key
  obj : t.obj = s.obj
  names : t.names = s.names
  made : t.made = s.made
  next : t.next = s.next

theorem Same.refl (s : St O K) : Same s s := ⟨rfl, rfl, rfl, rfl, rfl, rfl, rfl⟩

theorem Same.trans {s t u : St O K} (h : Same s t) (h' : Same t u) : Same s u :=
  ⟨h'.tab.trans h.tab, h'.home.trans h.home, h'.key.trans h.key, h'.obj.trans h.obj, h'.names.trans h.names,
    h'.made.trans h.made, h'.next.trans h.next⟩

theorem Static.same {s t : St O K} {g : Notebook O K} (h : Static s g) (e : Same s t) : Static t g := by
  obtain ⟨h1, h2, h3, h4, h5, h6, h7, h8, h9, h10, h11⟩ := h
  constructor <;> (try simp only [e.tab, e.home, e.key, e.obj, e.names, e.made, e.next]) <;> assumption

theorem mem_parts {s : St O K} {g : Notebook O K} (h : Static s g) {o : O} {a : Nat} :
    a ∈ parts s o ↔ ∃ k, Assoc.get (s.tab (some o)) k = some a := by
  simp only [Garbage.parts, List.mem_map, Prod.exists, exists_eq_right]
  exact exists_congr fun k => (Assoc.get_eq_some_iff (h.nodup _)).symm

theorem put_true {f : Nat → Bool} {a b : Nat} (h : put f a true b = false) : b ≠ a ∧ f b = false := by
  by_cases e : b = a
  · subst e; rw [put_self] at h; exact absurd h (by simp)
  · rw [put_ne e] at h; exact ⟨e, h⟩

theorem put_grows {A : Type} [DecidableEq A] {f : A → Bool} {a b : A} (h : f b = true) : put f a true b = true := by
  by_cases e : b = a
  · subst e; exact put_self _ _ _
  · rw [put_ne e]; exact h

/-- Marking a namespace. -/
theorem Marks.close {s : St O K} {g : Notebook O K} (hs : Static s g) {l : List Nat} {o : O} (hm : s.made o = true)
    (hn : ∀ a, s.obj a = some o → s.tomb a = true)
    (live : ∀ a v, s.obj a = some v → s.tomb a = false →
      a ∈ l ∨ (Assoc.get (s.tab (s.home a)) (s.key a) = some a ∧ ∀ p, s.home a = some p → s.made p = true ∧ s.dead p = false))
    (gone : ∀ h k a, Assoc.get (s.tab h) k = some a → s.tomb a = true → ∃ p, h = some p ∧ s.dead p = true)
    (named : ∀ v, v ≠ o → s.made v = true → s.dead v = false → ∃ a, s.obj a = some v ∧ s.tomb a = false)
    (nameless : ∀ v, s.dead v = true → s.made v = true ∧ ∀ a, s.obj a = some v → s.tomb a = true)
    (hp : ∀ p k a, s.dead p = true → Assoc.get (s.tab (some p)) k = some a → s.tomb a = true ∨ a ∈ l)
    (todo : ∀ a ∈ l, ∀ h k, Assoc.get (s.tab h) k = some a → ∃ p, h = some p ∧ s.dead p = true) :
    Marks { s with dead := put s.dead o true } (Garbage.parts s o ++ l) := by
  have up : ∀ {h : Option O}, (∃ p, h = some p ∧ s.dead p = true) → ∃ p, h = some p ∧ put s.dead o true p = true :=
    fun ⟨p, e, h⟩ => ⟨p, e, put_grows h⟩
  refine ⟨?_, ?_, ?_, ?_, ?_, ?_⟩
  · intro a v ha ht
    rcases live a v ha ht with h | ⟨h, h'⟩
    · exact .inl (List.mem_append.2 (.inr h))
    · by_cases e : s.home a = some o
      · exact .inl (List.mem_append.2 (.inl ((mem_parts hs).2 ⟨_, e ▸ h⟩)))
      · refine .inr ⟨h, fun p hp => ⟨(h' p hp).1, ?_⟩⟩
        show put s.dead o true p = false
        rw [put_ne (by rintro rfl; exact e hp)]; exact (h' p hp).2
  · exact fun h k a hg ht => up (gone h k a hg ht)
  · intro v hv hd
    have hd : put s.dead o true v = false := hd
    by_cases e : v = o
    · subst e; rw [put_self] at hd; exact absurd hd (by simp)
    · rw [put_ne e] at hd; exact named v e hv hd
  · intro v hd
    have hd : put s.dead o true v = true := hd
    by_cases e : v = o
    · subst e; exact ⟨hm, hn⟩
    · rw [put_ne e] at hd; exact nameless v hd
  · intro p k a hd hg
    have hd : put s.dead o true p = true := hd
    by_cases e : p = o
    · subst e; exact .inr (List.mem_append.2 (.inl ((mem_parts hs).2 ⟨k, hg⟩)))
    · rw [put_ne e] at hd
      exact (hp p k a hd hg).imp id fun h => List.mem_append.2 (.inr h)
  · intro a ha h k hg
    rcases List.mem_append.1 ha with ha | ha
    · obtain ⟨k', hg'⟩ := (mem_parts hs).1 ha
      refine ⟨o, ?_, put_self _ _ _⟩
      rw [← (hs.entry _ _ _ hg).1, (hs.entry _ _ _ hg').1]
    · exact up (todo a ha h k hg)

theorem nameless_iff {s : St O K} {o : O} : nameless s o = true ↔ ∀ a ∈ s.names o, s.tomb a = true := by
  simp [Garbage.nameless]

/-- Marking does what it should. -/
theorem mark_spec {g : Notebook O K} : ∀ (n : Nat) (l : List Nat) (s t : St O K), Static s g → Marks s l → mark n l s = .ok t →
    Same s t ∧ Marks t []
  | _, [], s, t, _, hm, h => by
    have h : s = t := by injection (by simpa [mark] using h : (Except.ok s : Except Err (St O K)) = .ok t)
    subst h; exact ⟨.refl _, hm⟩
  | 0, _ :: _, _, _, _, _, h => by simp [mark] at h
  | n + 1, a :: l, s, t, hs, hm, h => by
    rw [mark] at h
    by_cases ha : s.tomb a = true
    · rw [if_pos ha] at h
      refine mark_spec n l s t hs ?_ h
      refine ⟨?_, hm.gone, hm.named, hm.nameless, ?_, fun b hb => hm.todo b (List.mem_cons_of_mem _ hb)⟩
      · intro b o hb ht
        refine (hm.live b o hb ht).imp (fun h => ?_) id
        rcases List.mem_cons.1 h with rfl | h
        · rw [ha] at ht; exact absurd ht (by simp)
        · exact h
      · intro p k b hd hg
        rcases hm.parts p k b hd hg with h | h
        · exact .inl h
        · rcases List.mem_cons.1 h with rfl | h
          · exact .inl ha
          · exact .inr h
    · rw [if_neg ha] at h
      have e1 : Same s { s with tomb := put s.tomb a true } := ⟨rfl, rfl, rfl, rfl, rfl, rfl, rfl⟩
      have live : ∀ b v, s.obj b = some v → put s.tomb a true b = false →
          b ∈ l ∨ (Assoc.get (s.tab (s.home b)) (s.key b) = some b ∧ ∀ p, s.home b = some p → s.made p = true ∧ s.dead p = false) := by
        intro b v hb ht
        obtain ⟨e, ht⟩ := put_true ht
        exact (hm.live b v hb ht).imp (fun h => (List.mem_cons.1 h).resolve_left e) id
      have gone : ∀ h k b, Assoc.get (s.tab h) k = some b → put s.tomb a true b = true → ∃ p, h = some p ∧ s.dead p = true := by
        intro h' k b hg ht
        by_cases e : b = a
        · rw [e] at hg; exact hm.todo a (by simp) h' k hg
        · rw [put_ne e] at ht; exact hm.gone h' k b hg ht
      have named : ∀ v, s.obj a ≠ some v → s.made v = true → s.dead v = false → ∃ b, s.obj b = some v ∧ put s.tomb a true b = false := by
        intro v hv h1 h2
        obtain ⟨b, hb, ht⟩ := hm.named v h1 h2
        exact ⟨b, hb, by rw [put_ne (by rintro rfl; exact hv hb)]; exact ht⟩
      have nameless' : ∀ v, s.dead v = true → s.made v = true ∧ ∀ b, s.obj b = some v → put s.tomb a true b = true :=
        fun v hv => ⟨(hm.nameless v hv).1, fun b hb => put_grows ((hm.nameless v hv).2 b hb)⟩
      have parts' : ∀ p k b, s.dead p = true → Assoc.get (s.tab (some p)) k = some b → put s.tomb a true b = true ∨ b ∈ l := by
        intro p k b hd hg
        by_cases e : b = a
        · subst e; exact .inl (put_self _ _ _)
        · exact (hm.parts p k b hd hg).imp put_grows fun h => (List.mem_cons.1 h).resolve_left e
      have todo : ∀ b ∈ l, ∀ h k, Assoc.get (s.tab h) k = some b → ∃ p, h = some p ∧ s.dead p = true :=
        fun b hb => hm.todo b (List.mem_cons_of_mem _ hb)
      cases ho : s.obj a with
      | none =>
        rw [ho] at h
        obtain ⟨e, hm'⟩ := mark_spec n l _ t (hs.same e1)
          ⟨live, gone, fun v => named v (by rw [ho]; simp), nameless', parts', todo⟩ h
        exact ⟨e1.trans e, hm'⟩
      | some o =>
        rw [ho] at h
        simp only [] at h
        by_cases hc : (s.made o && nameless { s with tomb := put s.tomb a true } o && !s.dead o) = true
        · rw [if_pos hc] at h
          simp only [Bool.and_eq_true, Bool.not_eq_true', nameless_iff] at hc
          obtain ⟨⟨c1, c2⟩, c3⟩ := hc
          have hm1 : Marks { s with tomb := put s.tomb a true, dead := put s.dead o true } (Garbage.parts s o ++ l) :=
            Marks.close (s := { s with tomb := put s.tomb a true }) (hs.same e1) c1
              (fun b hb => c2 b ((hs.names b o).2 hb)) live gone
              (fun v hv => named v (by rw [ho]; simpa using Ne.symm hv)) nameless' parts' todo
          have e2 : Same s { s with tomb := put s.tomb a true, dead := put s.dead o true } := ⟨rfl, rfl, rfl, rfl, rfl, rfl, rfl⟩
          obtain ⟨e, hm'⟩ := mark_spec n _ _ t (hs.same e2) hm1 h
          exact ⟨e2.trans e, hm'⟩
        · rw [if_neg hc] at h
          have named' : ∀ v, s.made v = true → s.dead v = false → ∃ b, s.obj b = some v ∧ put s.tomb a true b = false := by
            intro v h1 h2
            by_cases e : v = o
            · subst e
              simp only [h1, h2, Bool.not_false, Bool.and_true, Bool.true_and, nameless_iff] at hc
              push Not at hc
              obtain ⟨b, hb, ht⟩ := hc
              exact ⟨b, (hs.names b v).1 hb, by simpa using ht⟩
            · exact named v (by rw [ho]; simpa using Ne.symm e) h1 h2
          obtain ⟨e, hm'⟩ := mark_spec n l _ t (hs.same e1) ⟨live, gone, named', nameless', parts', todo⟩ h
          exact ⟨e1.trans e, hm'⟩

/-- Named objects have a symbol that is not marked. -/
theorem live_of_named {s : St O K} {g : Notebook O K} (hs : Static s g) (hm : Marks s []) {o : O} (h : Named g.heap o) :
    ∃ a, s.obj a = some o ∧ s.tomb a = false := by
  induction h with
  | var k o h =>
    obtain ⟨a, hg, ho⟩ := hs.kept none k o h (fun p e => by simp at e)
    refine ⟨a, ho, ?_⟩
    by_contra ht
    obtain ⟨p, e, _⟩ := hm.gone _ _ _ hg (by simpa using ht)
    simp at e
  | part p k o hp h ih =>
    obtain ⟨b, hb, htb⟩ := ih
    obtain ⟨a, hg, ho⟩ := hs.kept (some p) k o h (fun q e => by injection e with e; exact e ▸ hp)
    refine ⟨a, ho, ?_⟩
    by_contra ht
    obtain ⟨q, e, hd⟩ := hm.gone _ _ _ hg (by simpa using ht)
    injection e with e; subst e
    rw [(hm.nameless p hd).2 b hb] at htb
    exact absurd htb (by simp)

theorem alive_of_named {s : St O K} {g : Notebook O K} (hs : Static s g) (hm : Marks s []) {o : O} (h : Named g.heap o) :
    s.dead o = false := by
  obtain ⟨a, ha, ht⟩ := live_of_named hs hm h
  by_contra hd
  rw [(hm.nameless o (by simpa using hd)).2 a ha] at ht
  exact absurd ht (by simp)

/-- The symbols of named parts are not marked. -/
theorem live_of_home {s : St O K} {g : Notebook O K} (hs : Static s g) (hm : Marks s []) {h : Option O} {k : K} {a : Nat}
    (hh : Home g.heap h) (hg : Assoc.get (s.tab h) k = some a) : s.tomb a = false := by
  by_contra ht
  obtain ⟨p, e, hd⟩ := hm.gone _ _ _ hg (by simpa using ht)
  rw [alive_of_named hs hm (hh p e)] at hd
  exact absurd hd (by simp)

/-! ## Names that get objects and lose them -/

theorem named_mono {h1 h2 : Heap O K} (h : ∀ x k o, h1 x k = some o → h2 x k = some o) {o : O} (hn : Named h1 o) : Named h2 o := by
  induction hn with
  | var k o e => exact .var k o (h _ _ _ e)
  | part p k o _ e ih => exact .part p k o ih (h _ _ _ e)

theorem assign_here (heap : Heap O K) (h : Option O) (k : K) (v : Option O) : assign heap h k v h k = v := by simp [assign]

theorem assign_other (heap : Heap O K) {h h' : Option O} {k k' : K} (v : Option O) (n : ¬(h' = h ∧ k' = k)) :
    assign heap h k v h' k' = heap h' k' := by simp only [assign, if_neg n]

theorem named_assign {heap : Heap O K} {h : Option O} {k : K} {o : O} (ho : Named heap o ∨ ∀ k, heap (some o) k = none)
    {q : O} (hq : Named (assign heap h k (some o)) q) : Named heap q ∨ q = o := by
  induction hq with
  | var k' q e =>
    by_cases c : none = h ∧ k' = k
    · obtain ⟨rfl, rfl⟩ := c
      rw [assign_here] at e; injection e with e; exact .inr e.symm
    · rw [assign_other _ _ c] at e; exact .inl (.var k' q e)
  | part p k' q _ e ih =>
    by_cases c : some p = h ∧ k' = k
    · obtain ⟨rfl, rfl⟩ := c
      rw [assign_here] at e; injection e with e; exact .inr e.symm
    · rw [assign_other _ _ c] at e
      rcases ih with ih | rfl
      · exact .inl (.part p k' q ih e)
      · rcases ho with ho | ho
        · exact .inl (.part p k' q ho e)
        · rw [ho] at e; exact absurd e (by simp)

theorem get_put_set (t : Option O → List (K × Nat)) (h h' : Option O) (k k' : K) (a : Nat) :
    Assoc.get (put t h (Assoc.set (t h) k a) h') k' = if h' = h ∧ k' = k then some a else Assoc.get (t h') k' := by
  by_cases e : h' = h
  · subst e; rw [put_self, Assoc.get_set]; simp
  · rw [put_ne e, if_neg (fun c => e c.1)]

theorem get_put_erase (t : Option O → List (K × Nat)) (h h' : Option O) (k k' : K) :
    Assoc.get (put t h (Assoc.erase (t h) k) h') k' = if h' = h ∧ k' = k then none else Assoc.get (t h') k' := by
  by_cases e : h' = h
  · subst e; rw [put_self, Assoc.get_erase]; simp
  · rw [put_ne e, if_neg (fun c => e c.1)]

theorem nodup_put (t : Option O → List (K × Nat)) (hn : ∀ h, (Assoc.keys (t h)).Nodup) (h : Option O) (l : List (K × Nat))
    (hl : (Assoc.keys l).Nodup) (h' : Option O) : (Assoc.keys (put t h l h')).Nodup := by
  by_cases e : h' = h
  · subst e; rw [put_self]; exact hl
  · rw [put_ne e]; exact hn h'

theorem assign_none {s : St O K} {g : Notebook O K} (hs : Static s g) {h : Option O} {k : K} (hh : Home g.heap h)
    (hg : Assoc.get (s.tab h) k = none) : g.heap h k = none := by
  cases e : g.heap h k with
  | none => rfl
  | some o => obtain ⟨a, ha, _⟩ := hs.kept h k o e hh; rw [hg] at ha; exact absurd ha (by simp)

theorem after_delete {g : Notebook O K} {h : Option O} {k : K} {sub : Bool} (e : g.heap h k = none) : after g (.delete h k sub) = g := by
  have : assign g.heap h k none = g.heap := by
    funext h' k'
    by_cases c : h' = h ∧ k' = k
    · obtain ⟨rfl, rfl⟩ := c; rw [assign_here, e]
    · rw [assign_other _ _ c]
  simp only [after, this]

/-- Deleting a name. -/
theorem delete_spec {s t : St O K} {g : Notebook O K} (hs : Static s g) (hm : Marks s []) {n : Nat} {h : Option O} {k : K} {sub : Bool}
    (ha : Allowed g (.delete h k sub)) (e : delete n s h k sub = .ok t) :
    Static t (after g (.delete h k sub)) ∧ Marks t [] := by
  unfold delete at e
  cases hg : Assoc.get (s.tab h) k with
  | none =>
    rw [hg] at e
    injection e with e; subst e
    rw [after_delete (assign_none hs ha.1 hg)]
    exact ⟨hs, hm⟩
  | some a =>
    rw [hg] at e
    obtain ⟨e1, e2, o, ho⟩ := hs.entry h k a hg
    have hheap := hs.heap h k a o hg ho
    have hsub : sub = false := ha.2.resolve_right (by rw [hheap]; simp)
    subst hsub
    simp only [Bool.false_eq_true, if_false] at e
    have gd : ∀ h' k' b, Assoc.get (put s.tab h (Assoc.erase (s.tab h) k) h') k' = some b →
        ¬(h' = h ∧ k' = k) ∧ Assoc.get (s.tab h') k' = some b := by
      intro h' k' b hb
      rw [get_put_erase] at hb
      by_cases c : h' = h ∧ k' = k
      · rw [if_pos c] at hb; exact absurd hb (by simp)
      · rw [if_neg c] at hb; exact ⟨c, hb⟩
    have gu : ∀ h' k', ¬(h' = h ∧ k' = k) → Assoc.get (put s.tab h (Assoc.erase (s.tab h) k) h') k' = Assoc.get (s.tab h') k' :=
      fun h' k' c => by rw [get_put_erase, if_neg c]
    have hsub : ∀ x k' o', assign g.heap h k none x k' = some o' → ¬(x = h ∧ k' = k) ∧ g.heap x k' = some o' := by
      intro x k' o' e
      by_cases c : x = h ∧ k' = k
      · obtain ⟨rfl, rfl⟩ := c; rw [assign_here] at e; exact absurd e (by simp)
      · rw [assign_other _ _ c] at e; exact ⟨c, e⟩
    have hn : ∀ o', Named (assign g.heap h k none) o' → Named g.heap o' := fun o' => named_mono fun x k' o' e => (hsub x k' o' e).2
    have hs1 : Static { s with tab := put s.tab h (Assoc.erase (s.tab h) k) } (after g (.delete h k false)) := by
      refine ⟨nodup_put _ hs.nodup _ _ (Assoc.nodup_erase (hs.nodup h) k), fun h' k' b hb => hs.entry _ _ _ (gd _ _ _ hb).2, hs.bound,
        hs.names, hs.uniq, hs.hist, ?_, hs.opened, fun p k' v e => hs.parts p k' v (hsub _ _ _ e).2, fun p h1 h2 => hs.made p h1 (hn p h2), ?_⟩
      · intro h' k' b v hb hv
        obtain ⟨c, hb⟩ := gd _ _ _ hb
        show assign g.heap h k none h' k' = _
        rw [assign_other _ _ c]; exact hs.heap h' k' b v hb hv
      · intro h' k' v hv hh
        obtain ⟨c, hv⟩ := hsub _ _ _ hv
        obtain ⟨b, hb, hb'⟩ := hs.kept h' k' v hv fun p e => hn p (hh p e)
        exact ⟨b, by show Assoc.get (put s.tab h (Assoc.erase (s.tab h) k) h') k' = _; rw [gu _ _ c]; exact hb, hb'⟩
    have hm1 : Marks { s with tab := put s.tab h (Assoc.erase (s.tab h) k) } [a] := by
      refine ⟨?_, fun h' k' b hb => hm.gone h' k' b (gd _ _ _ hb).2, hm.named, hm.nameless, ?_, ?_⟩
      · intro b v hb ht
        rcases hm.live b v hb ht with hb' | ⟨hb', hp⟩
        · simp at hb'
        · by_cases c : s.home b = h ∧ s.key b = k
          · left
            rw [c.1, c.2, hg] at hb'
            injection hb' with hb'; simp [hb']
          · exact .inr ⟨by show Assoc.get (put s.tab h (Assoc.erase (s.tab h) k) (s.home b)) (s.key b) = _; rw [gu _ _ c]; exact hb', hp⟩
      · intro p k' b hd hb
        rcases hm.parts p k' b hd (gd _ _ _ hb).2 with h' | h'
        · exact .inl h'
        · simp at h'
      · intro b hb h' k' hb'
        obtain ⟨c, hb'⟩ := gd _ _ _ hb'
        rw [List.mem_singleton.1 hb] at hb'
        obtain ⟨f1, f2, _⟩ := hs.entry _ _ _ hb'
        exact absurd ⟨f1.symm.trans e1, f2.symm.trans e2⟩ c
    obtain ⟨es, hm'⟩ := mark_spec n [a] _ t hs1 hm1 e
    exact ⟨hs1.same es, hm'⟩

/-- A new name. -/
theorem create_spec {s : St O K} {g : Notebook O K} (hs : Static s g) (hm : Marks s []) {h : Option O} {k : K} {o : O}
    (ha : Allowed g (.bind h k o)) (hg : Assoc.get (s.tab h) k = none) :
    Static (create s h k o) (after g (.bind h k o)) ∧ Marks (create s h k o) [] := by
  obtain ⟨hh, hop, hno, hre, _⟩ := ha
  have hnone := assign_none hs hh hg
  have hno' : Named g.heap o ∨ ∀ k, g.heap (some o) k = none := hno.imp id fun c k' => by
    cases e : g.heap (some o) k' with
    | none => rfl
    | some v => exact absurd (hs.parts o k' v e) c
  have hdo : s.dead o = false := by
    rcases hno with c | c
    · exact alive_of_named hs hm c
    · by_contra hd
      exact c (hs.opened o (hm.nameless o (by simpa using hd)).1)
  have old : ∀ b v, s.obj b = some v → b ≠ s.next := fun b v hb e => absurd (hs.bound b v hb) (by omega)
  have place : ∀ b v, s.obj b = some v → ¬(s.home b = h ∧ s.key b = k) := by
    rintro b v hb ⟨rfl, rfl⟩
    have := hre v (hs.hist b v hb)
    rw [hnone] at this; exact absurd this (by simp)
  have objn : ∀ b v, (create s h k o).obj b = some v → (b = s.next ∧ v = o) ∨ (b ≠ s.next ∧ s.obj b = some v) := by
    intro b v hb
    have hb : put s.obj s.next (some o) b = some v := hb
    by_cases e : b = s.next
    · subst e; rw [put_self] at hb; injection hb with hb; exact .inl ⟨rfl, hb.symm⟩
    · rw [put_ne e] at hb; exact .inr ⟨e, hb⟩
  have obje : (create s h k o).obj s.next = some o := put_self _ _ _
  have objo : ∀ b, b ≠ s.next → (create s h k o).obj b = s.obj b := fun b e => put_ne e
  have homeo : ∀ b, b ≠ s.next → (create s h k o).home b = s.home b := fun b e => put_ne e
  have keyo : ∀ b, b ≠ s.next → (create s h k o).key b = s.key b := fun b e => put_ne e
  have homee : (create s h k o).home s.next = h := put_self _ _ _
  have keye : (create s h k o).key s.next = k := put_self _ _ _
  have tombe : (create s h k o).tomb s.next = false := put_self _ _ _
  have tombo : ∀ b, b ≠ s.next → (create s h k o).tomb b = s.tomb b := fun b e => put_ne e
  have get : ∀ h' k', Assoc.get ((create s h k o).tab h') k' = if h' = h ∧ k' = k then some s.next else Assoc.get (s.tab h') k' :=
    fun h' k' => get_put_set _ _ _ _ _ _
  have getn : ∀ h' k' b, Assoc.get ((create s h k o).tab h') k' = some b →
      (b = s.next ∧ h' = h ∧ k' = k) ∨ (b ≠ s.next ∧ ¬(h' = h ∧ k' = k) ∧ Assoc.get (s.tab h') k' = some b) := by
    intro h' k' b hb
    rw [get] at hb
    by_cases c : h' = h ∧ k' = k
    · rw [if_pos c] at hb; injection hb with hb; exact .inl ⟨hb.symm, c⟩
    · rw [if_neg c] at hb
      obtain ⟨_, _, v, hv⟩ := hs.entry _ _ _ hb
      exact .inr ⟨old b v hv, c, hb⟩
  refine ⟨⟨?_, ?_, ?_, ?_, ?_, ?_, ?_, hs.opened, ?_, ?_, ?_⟩, ⟨?_, ?_, ?_, ?_, ?_, by simp⟩⟩
  · exact nodup_put _ hs.nodup _ _ (Assoc.nodup_set (hs.nodup h) k _)
  · intro h' k' b hb
    rcases getn _ _ _ hb with ⟨rfl, rfl, rfl⟩ | ⟨hb1, _, hb2⟩
    · exact ⟨homee, keye, o, obje⟩
    · rw [homeo b hb1, keyo b hb1, objo b hb1]; exact hs.entry _ _ _ hb2
  · intro b v hb
    show b < s.next + 1
    rcases objn b v hb with ⟨rfl, _⟩ | ⟨_, hb⟩
    · omega
    · have := hs.bound b v hb; omega
  · intro b v
    have : b ∈ (create s h k o).names v ↔ b ∈ s.names v ∨ (v = o ∧ b = s.next) := by
      show b ∈ put s.names o (s.names o ++ [s.next]) v ↔ _
      by_cases e : v = o
      · subst e; rw [put_self]; simp
      · rw [put_ne e]; simp [e]
    rw [this, hs.names]
    constructor
    · rintro (hb | ⟨rfl, rfl⟩)
      · rw [objo b (old b v hb)]; exact hb
      · exact obje
    · intro hb
      rcases objn b v hb with ⟨rfl, rfl⟩ | ⟨_, hb⟩
      · exact .inr ⟨rfl, rfl⟩
      · exact .inl hb
  · intro a b v v' ha hb h1 h2
    rcases objn a v ha with ⟨rfl, -⟩ | ⟨ha1, ha⟩
    · rcases objn b v' hb with ⟨rfl, -⟩ | ⟨hb1, hb⟩
      · rfl
      · rw [homee, homeo b hb1] at h1
        rw [keye, keyo b hb1] at h2
        exact absurd ⟨h1.symm, h2.symm⟩ (place b v' hb)
    · rcases objn b v' hb with ⟨rfl, -⟩ | ⟨hb1, hb⟩
      · rw [homee, homeo a ha1] at h1
        rw [keye, keyo a ha1] at h2
        exact absurd ⟨h1, h2⟩ (place a v ha)
      · rw [homeo a ha1, homeo b hb1] at h1
        rw [keyo a ha1, keyo b hb1] at h2
        exact hs.uniq a b v v' ha hb h1 h2
  · intro b v hb
    show if _ then _ else _
    rcases objn b v hb with ⟨rfl, rfl⟩ | ⟨hb1, hb⟩
    · rw [homee, keye, if_pos ⟨rfl, rfl⟩]
    · rw [homeo b hb1, keyo b hb1, if_neg (place b v hb)]; exact hs.hist b v hb
  · intro h' k' b v hb hv
    show assign g.heap h k (some o) h' k' = _
    rcases getn _ _ _ hb with ⟨rfl, rfl, rfl⟩ | ⟨hb1, c, hb2⟩
    · rw [assign_here, ← hv, obje]
    · rw [assign_other _ _ c]; exact hs.heap _ _ b v hb2 (by rw [← objo b hb1]; exact hv)
  · intro p k' v hv
    have hv : assign g.heap h k (some o) (some p) k' = some v := hv
    by_cases c : some p = h ∧ k' = k
    · exact hop p c.1.symm
    · rw [assign_other _ _ c] at hv; exact hs.parts p k' v hv
  · intro p h1 h2
    rcases named_assign hno' h2 with h2 | rfl
    · exact hs.made p h1 h2
    · exact hno.elim (hs.made p h1) fun c => absurd h1 c
  · intro h' k' v hv hh'
    have hv : assign g.heap h k (some o) h' k' = some v := hv
    by_cases c : h' = h ∧ k' = k
    · refine ⟨s.next, by rw [get, if_pos c], ?_⟩
      rw [c.1, c.2, assign_here] at hv; rw [obje, hv]
    · rw [assign_other _ _ c] at hv
      have hv1 : g.heap h' k' = some v := hv
      obtain ⟨b, hb, hb'⟩ := hs.kept h' k' v hv1 (by
        rintro p rfl
        rcases named_assign hno' (hh' p rfl) with h2 | h2
        · exact h2
        · rw [h2] at hv1 ⊢; exact hno.elim id fun c => absurd (hs.parts _ _ _ hv1) c)
      exact ⟨b, by rw [get, if_neg c]; exact hb, by rw [objo b (old b v hb')]; exact hb'⟩
  · intro b v hb ht
    refine .inr ?_
    rcases objn b v hb with ⟨rfl, rfl⟩ | ⟨hb1, hb⟩
    · rw [homee, keye, get, if_pos ⟨rfl, rfl⟩]
      exact ⟨rfl, fun p e => ⟨hs.made p (hop p e) (hh p e), alive_of_named hs hm (hh p e)⟩⟩
    · rw [homeo b hb1, keyo b hb1, get, if_neg (place b v hb)]
      rw [tombo b hb1] at ht
      exact (hm.live b v hb ht).resolve_left (by simp)
  · intro h' k' b hb ht
    rcases getn _ _ _ hb with ⟨rfl, rfl, rfl⟩ | ⟨hb1, c, hb2⟩
    · rw [tombe] at ht; exact absurd ht (by simp)
    · rw [tombo b hb1] at ht; exact hm.gone _ _ _ hb2 ht
  · intro v h1 h2
    obtain ⟨b, hb, ht⟩ := hm.named v h1 h2
    have := old b v hb
    exact ⟨b, by rw [objo b this]; exact hb, by rw [tombo b this]; exact ht⟩
  · intro v hd
    have hd : s.dead v = true := hd
    refine ⟨(hm.nameless v hd).1, fun b hb => ?_⟩
    rcases objn b v hb with ⟨-, hv⟩ | ⟨hb1, hb⟩
    · rw [hv, hdo] at hd; exact absurd hd (by simp)
    · rw [tombo b hb1]; exact (hm.nameless v hd).2 b hb
  · intro p k' b hd hb
    have hd : s.dead p = true := hd
    rcases getn _ _ _ hb with ⟨-, hp, -⟩ | ⟨hb1, c, hb2⟩
    · rw [alive_of_named hs hm (hh p hp.symm)] at hd; exact absurd hd (by simp)
    · left
      rw [tombo b hb1]
      exact (hm.parts p k' b hd hb2).resolve_right (by simp)

theorem named_step {heap : Heap O K} {o : O} (h : Named heap o) : ∃ x k, heap x k = some o ∧ Home heap x := by
  cases h with
  | var k _ e => exact ⟨none, k, e, fun p e => by simp at e⟩
  | part p k _ hp e => exact ⟨some p, k, e, fun q e => by injection e with e; exact e ▸ hp⟩

/-- A name gets another object. -/
theorem redirect_spec {s t : St O K} {g : Notebook O K} (hs : Static s g) (hm : Marks s []) {n : Nat} {h : Option O} {k : K} {o c : O} {a : Nat}
    (ha : Allowed g (.bind h k o)) (hg : Assoc.get (s.tab h) k = some a) (hc : s.obj a = some c) (hco : c ≠ o)
    (e : markNs n (redirect s a c o) c = .ok t) :
    Static t (after g (.bind h k o)) ∧ Marks t [] := by
  obtain ⟨hh, hop, hno, hre, hlost⟩ := ha
  have hlost := hlost c (hs.heap h k a c hg hc) hco
  obtain ⟨ea, ka, _⟩ := hs.entry h k a hg
  have hno' : Named g.heap o ∨ ∀ k, g.heap (some o) k = none := hno.imp id fun c k' => by
    cases e : g.heap (some o) k' with
    | none => rfl
    | some v => exact absurd (hs.parts o k' v e) c
  have hdo : s.dead o = false := by
    rcases hno with c | c
    · exact alive_of_named hs hm c
    · by_contra hd
      exact c (hs.opened o (hm.nameless o (by simpa using hd)).1)
  have hta := live_of_home hs hm hh hg
  have tomb : (redirect s a c o).tomb = s.tomb := by
    funext b
    show put s.tomb a false b = _
    by_cases e : b = a
    · subst e; rw [put_self, hta]
    · rw [put_ne e]
  have place : ∀ b v, s.obj b = some v → b ≠ a → ¬(s.home b = h ∧ s.key b = k) := by
    rintro b v hb hba ⟨h1, h2⟩
    exact hba (hs.uniq b a v c hb hc (h1.trans ea.symm) (h2.trans ka.symm))
  have obje : (redirect s a c o).obj a = some o := put_self _ _ _
  have objo : ∀ b, b ≠ a → (redirect s a c o).obj b = s.obj b := fun b e => put_ne e
  have objn : ∀ b v, (redirect s a c o).obj b = some v → (b = a ∧ v = o) ∨ (b ≠ a ∧ s.obj b = some v) := by
    intro b v hb
    by_cases e : b = a
    · subst e; rw [obje] at hb; injection hb with hb; exact .inl ⟨rfl, hb.symm⟩
    · rw [objo b e] at hb; exact .inr ⟨e, hb⟩
  have isn : ∀ b v, (redirect s a c o).obj b = some v → ∃ v', s.obj b = some v' := by
    intro b v hb
    rcases objn b v hb with ⟨rfl, _⟩ | ⟨_, hb⟩
    · exact ⟨c, hc⟩
    · exact ⟨v, hb⟩
  have home' : ∀ h' k' v, assign g.heap h k (some o) h' k' = some v → ¬(h' = h ∧ k' = k) → Home (assign g.heap h k (some o)) h' →
      g.heap h' k' = some v ∧ Home g.heap h' := by
    intro h' k' v hv d hh'
    rw [assign_other _ _ d] at hv
    refine ⟨hv, ?_⟩
    rintro p rfl
    rcases named_assign hno' (hh' p rfl) with h2 | h2
    · exact h2
    · rw [h2] at hv ⊢; exact hno.elim id fun c => absurd (hs.parts _ _ _ hv) c
  have hs1 : Static (redirect s a c o) (after g (.bind h k o)) := by
    refine ⟨hs.nodup, ?_, ?_, ?_, ?_, ?_, ?_, hs.opened, ?_, ?_, ?_⟩
    · intro h' k' b hb
      obtain ⟨e1, e2, v, hv⟩ := hs.entry h' k' b hb
      refine ⟨e1, e2, ?_⟩
      by_cases e : b = a
      · subst e; exact ⟨o, obje⟩
      · exact ⟨v, by rw [objo b e]; exact hv⟩
    · intro b v hb
      obtain ⟨v', hb⟩ := isn b v hb
      exact hs.bound b v' hb
    · intro b v
      have hn : b ∈ (redirect s a c o).names v ↔ (b ∈ s.names v ∧ (v = c → b ≠ a)) ∨ (v = o ∧ b = a) := by
        show b ∈ put (put s.names c ((s.names c).filter fun b => b ≠ a)) o (put s.names c ((s.names c).filter fun b => b ≠ a) o ++ [a]) v ↔ _
        by_cases e : v = o
        · subst e
          rw [put_self, put_ne (Ne.symm hco)]
          simp [Ne.symm hco]
        · rw [put_ne e]
          by_cases e' : v = c
          · subst e'; rw [put_self]; simp [hco]
          · rw [put_ne e']; simp [e, e']
      rw [hn, hs.names]
      constructor
      · rintro (⟨hb, hb'⟩ | ⟨rfl, rfl⟩)
        · have : b ≠ a := by
            rintro rfl
            rw [hc] at hb; injection hb with hb
            exact hb' hb.symm rfl
          rw [objo b this]; exact hb
        · exact obje
      · intro hb
        rcases objn b v hb with ⟨rfl, rfl⟩ | ⟨hba, hb⟩
        · exact .inr ⟨rfl, rfl⟩
        · exact .inl ⟨hb, fun _ => hba⟩
    · intro b b' v v' hb hb' h1 h2
      obtain ⟨w, hb⟩ := isn b v hb
      obtain ⟨w', hb'⟩ := isn b' v' hb'
      exact hs.uniq b b' w w' hb hb' h1 h2
    · intro b v hb
      show if s.home b = h ∧ s.key b = k then _ else _
      rcases objn b v hb with ⟨rfl, rfl⟩ | ⟨hba, hb⟩
      · rw [if_pos ⟨ea, ka⟩]
      · rw [if_neg (place b v hb hba)]; exact hs.hist b v hb
    · intro h' k' b v hb hv
      show assign g.heap h k (some o) h' k' = _
      obtain ⟨e1, e2, _⟩ := hs.entry h' k' b hb
      rcases objn b v hv with ⟨rfl, rfl⟩ | ⟨hba, hv⟩
      · rw [← e1, ← e2, ea, ka, assign_here]
      · have := place b v hv hba
        rw [e1, e2] at this
        rw [assign_other _ _ this]; exact hs.heap h' k' b v hb hv
    · intro p k' v hv
      have hv : assign g.heap h k (some o) (some p) k' = some v := hv
      by_cases d : some p = h ∧ k' = k
      · exact hop p d.1.symm
      · rw [assign_other _ _ d] at hv; exact hs.parts p k' v hv
    · intro p h1 h2
      rcases named_assign hno' h2 with h2 | rfl
      · exact hs.made p h1 h2
      · exact hno.elim (hs.made p h1) fun c => absurd h1 c
    · intro h' k' v hv hh'
      have hv : assign g.heap h k (some o) h' k' = some v := hv
      by_cases d : h' = h ∧ k' = k
      · refine ⟨a, by rw [d.1, d.2]; exact hg, ?_⟩
        rw [d.1, d.2, assign_here] at hv; rw [obje, hv]
      · obtain ⟨hv, hh'⟩ := home' h' k' v hv d hh'
        obtain ⟨b, hb, hb'⟩ := hs.kept h' k' v hv hh'
        obtain ⟨e1, e2, _⟩ := hs.entry h' k' b hb
        refine ⟨b, hb, ?_⟩
        rw [objo b]
        · exact hb'
        · rintro rfl; exact d ⟨e1.symm.trans ea, e2.symm.trans ka⟩
  have live : ∀ b v, (redirect s a c o).obj b = some v → (redirect s a c o).tomb b = false →
      b ∈ [] ∨ (Assoc.get ((redirect s a c o).tab ((redirect s a c o).home b)) ((redirect s a c o).key b) = some b ∧
        ∀ p, (redirect s a c o).home b = some p → (redirect s a c o).made p = true ∧ (redirect s a c o).dead p = false) := by
    intro b v hb ht
    obtain ⟨w, hb⟩ := isn b v hb
    rw [tomb] at ht
    exact hm.live b w hb ht
  have gone : ∀ h' k' b, Assoc.get ((redirect s a c o).tab h') k' = some b → (redirect s a c o).tomb b = true →
      ∃ p, h' = some p ∧ (redirect s a c o).dead p = true := by
    intro h' k' b hb ht
    rw [tomb] at ht
    exact hm.gone h' k' b hb ht
  have named : ∀ v, v ≠ c → (redirect s a c o).made v = true → (redirect s a c o).dead v = false →
      ∃ b, (redirect s a c o).obj b = some v ∧ (redirect s a c o).tomb b = false := by
    intro v hv h1 h2
    obtain ⟨b, hb, ht⟩ := hm.named v h1 h2
    rw [tomb]
    by_cases e : b = a
    · subst e; rw [hc] at hb; injection hb with hb; exact absurd hb.symm hv
    · exact ⟨b, by rw [objo b e]; exact hb, ht⟩
  have nameless' : ∀ v, (redirect s a c o).dead v = true → (redirect s a c o).made v = true ∧
      ∀ b, (redirect s a c o).obj b = some v → (redirect s a c o).tomb b = true := by
    intro v hd
    have hd : s.dead v = true := hd
    refine ⟨(hm.nameless v hd).1, fun b hb => ?_⟩
    rw [tomb]
    rcases objn b v hb with ⟨-, hv⟩ | ⟨_, hb⟩
    · rw [hv, hdo] at hd; exact absurd hd (by simp)
    · exact (hm.nameless v hd).2 b hb
  have parts' : ∀ p k' b, (redirect s a c o).dead p = true → Assoc.get ((redirect s a c o).tab (some p)) k' = some b →
      (redirect s a c o).tomb b = true ∨ b ∈ [] := by
    intro p k' b hd hb
    rw [tomb]
    exact hm.parts p k' b hd hb
  unfold markNs at e
  by_cases hcond : ((redirect s a c o).made c && ((redirect s a c o).names c).isEmpty && !(redirect s a c o).dead c) = true
  · rw [if_pos hcond] at e
    simp only [Bool.and_eq_true, Bool.not_eq_true', List.isEmpty_iff] at hcond
    obtain ⟨⟨c1, c2⟩, c3⟩ := hcond
    have hm1 := Marks.close (l := []) hs1 c1 (fun b hb => by
      have := (hs1.names b c).2 hb
      rw [c2] at this; exact absurd this (by simp)) live gone named nameless' parts' (by simp)
    rw [List.append_nil] at hm1
    have e2 : Same (redirect s a c o) { redirect s a c o with dead := put (redirect s a c o).dead c true } :=
      ⟨rfl, rfl, rfl, rfl, rfl, rfl, rfl⟩
    obtain ⟨es, hm'⟩ := mark_spec n _ _ t (hs1.same e2) hm1 e
    exact ⟨hs1.same (e2.trans es), hm'⟩
  · rw [if_neg hcond] at e
    injection e with e; subst e
    refine ⟨hs1, live, gone, ?_, nameless', parts', by simp⟩
    intro v h1 h2
    by_cases hv : v = c
    swap
    · exact named v hv h1 h2
    subst hv
    simp only [h1, h2, Bool.not_false, Bool.and_true, Bool.true_and, List.isEmpty_iff] at hcond
    obtain ⟨b, hb⟩ := List.exists_mem_of_ne_nil _ hcond
    have hb := (hs1.names b v).1 hb
    rcases objn b v hb with ⟨-, hv⟩ | ⟨hba, hb0⟩
    · exact absurd hv hco
    rw [tomb]
    rcases hlost with d | d | d
    · exact absurd (hs.opened v h1) d
    · obtain ⟨x, k', hx, hx'⟩ := named_step d
      have hd : ¬(x = h ∧ k' = k) := by
        rintro ⟨rfl, rfl⟩
        rw [assign_here] at hx; injection hx with hx; exact hco hx.symm
      obtain ⟨hx, hx'⟩ := home' x k' v hx hd hx'
      obtain ⟨b', hb1, hb2⟩ := hs.kept x k' v hx hx'
      obtain ⟨e1, e2, _⟩ := hs.entry x k' b' hb1
      refine ⟨b', ?_, live_of_home hs hm hx' hb1⟩
      rw [objo b']
      · exact hb2
      · rintro rfl; exact hd ⟨e1.symm.trans ea, e2.symm.trans ka⟩
    · obtain ⟨hx, hx'⟩ := d _ _ (hs.hist b v hb0)
      obtain ⟨b', hb1, hb2⟩ := hs.kept _ _ v hx hx'
      obtain ⟨e1, e2, _⟩ := hs.entry _ _ b' hb1
      have := hs.uniq b' b v v hb2 hb0 e1 e2
      subst this
      exact ⟨b', hb, live_of_home hs hm hx' hb1⟩

theorem bind_spec {s t : St O K} {g : Notebook O K} (hs : Static s g) (hm : Marks s []) {n : Nat} {h : Option O} {k : K} {o : O}
    (ha : Allowed g (.bind h k o)) (e : bind n s h k o = .ok t) : Static t (after g (.bind h k o)) ∧ Marks t [] := by
  unfold bind at e
  cases hg : Assoc.get (s.tab h) k with
  | none =>
    rw [hg] at e
    injection e with e; subst e
    exact create_spec hs hm ha hg
  | some a =>
    rw [hg] at e
    obtain ⟨ea, ka, c, hc⟩ := hs.entry h k a hg
    simp only [hc] at e
    by_cases hco : c = o
    · rw [if_pos hco] at e
      injection e with e
      subst hco
      have hta := live_of_home hs hm ha.1 hg
      have tomb : put s.tomb a false = s.tomb := by
        funext b
        by_cases e : b = a
        · subst e; rw [put_self, hta]
        · rw [put_ne e]
      rw [tomb] at e
      subst e
      have hheap := hs.heap h k a c hg hc
      have heap : assign g.heap h k (some c) = g.heap := by
        funext h' k'
        by_cases d : h' = h ∧ k' = k
        · rw [d.1, d.2, assign_here, hheap]
        · rw [assign_other _ _ d]
      refine ⟨?_, hm⟩
      refine ⟨hs.nodup, hs.entry, hs.bound, hs.names, hs.uniq, ?_, ?_, hs.opened, ?_, ?_, ?_⟩
      · intro b v hb
        show if s.home b = h ∧ s.key b = k then _ else _
        by_cases d : s.home b = h ∧ s.key b = k
        · rw [if_pos d]
          have := hs.uniq b a v c hb hc (d.1.trans ea.symm) (d.2.trans ka.symm)
          subst this; rw [hc] at hb; injection hb with hb; exact hb.symm
        · rw [if_neg d]; exact hs.hist b v hb
      all_goals simp only [after, heap]
      · exact hs.heap
      · exact hs.parts
      · exact hs.made
      · exact hs.kept
    · rw [if_neg hco] at e
      exact redirect_spec hs hm ha hg hc hco e

theorem openNs_spec {s : St O K} {g : Notebook O K} (hs : Static s g) (hm : Marks s []) {o : O} (ha : Named g.heap o) :
    Static (openNs s o) (after g (.openNs o)) ∧ Marks (openNs s o) [] := by
  unfold openNs
  by_cases h : s.made o = true
  · rw [if_pos h]
    refine ⟨⟨hs.nodup, hs.entry, hs.bound, hs.names, hs.uniq, hs.hist, hs.heap, fun v hv => .inr (hs.opened v hv),
      fun v k w hw => .inr (hs.parts v k w hw), ?_, hs.kept⟩, hm⟩
    rintro v (rfl | hv) hn
    · exact h
    · exact hs.made v hv hn
  · rw [if_neg h]
    have hd : put s.dead o false = s.dead := by
      funext v
      by_cases e : v = o
      · subst e; rw [put_self, alive_of_named hs hm ha]
      · rw [put_ne e]
    rw [hd]
    refine ⟨⟨hs.nodup, hs.entry, hs.bound, hs.names, hs.uniq, hs.hist, hs.heap, ?_,
      fun v k w hw => .inr (hs.parts v k w hw), ?_, hs.kept⟩, ⟨?_, hm.gone, ?_, ?_, hm.parts, hm.todo⟩⟩
    · intro v hv
      by_cases e : v = o
      · exact .inl e
      · exact .inr (hs.opened v (by rw [← hv]; exact (put_ne e).symm))
    · rintro v (rfl | hv) hn
      · exact put_self _ _ _
      · exact put_grows (hs.made v hv hn)
    · intro a v hv ht
      refine (hm.live a v hv ht).imp id fun ⟨h1, h2⟩ => ⟨h1, fun p hp => ⟨put_grows (h2 p hp).1, (h2 p hp).2⟩⟩
    · intro v h1 h2
      by_cases e : v = o
      · subst e; exact live_of_named hs hm ha
      · exact hm.named v (by rw [← h1]; exact (put_ne e).symm) h2
    · intro v hv
      exact ⟨put_grows (hm.nameless v hv).1, (hm.nameless v hv).2⟩

/-! ## Collection -/

/-- What is left when the symbols in `l` are collected. -/
structure Swept (s : St O K) (l : List Nat) (t : St O K) : Prop where
  home : t.home = s.home
  key : t.key = s.key
  tomb : t.tomb = s.tomb
  made : t.made = s.made
  dead : t.dead = s.dead
  next : t.next = s.next
  obj : ∀ b v, t.obj b = some v ↔ s.obj b = some v ∧ b ∉ l
  names : ∀ b v, b ∈ t.names v ↔ t.obj b = some v
  nodup : ∀ h, (Assoc.keys (t.tab h)).Nodup
  get : ∀ h k b, Assoc.get (t.tab h) k = some b ↔
    Assoc.get (s.tab h) k = some b ∧ ∀ a ∈ l, ∀ o, s.obj a = some o → ¬(s.home a = h ∧ s.key a = k)

theorem collect_spec {s : St O K} (hn : ∀ b v, b ∈ s.names v ↔ s.obj b = some v) (hd : ∀ h, (Assoc.keys (s.tab h)).Nodup) (a : Nat) :
    Swept s [a] (collect s a) := by
  unfold collect
  cases ho : s.obj a with
  | none =>
    refine ⟨rfl, rfl, rfl, rfl, rfl, rfl, ?_, hn, hd, ?_⟩
    · intro b v
      refine ⟨fun h => ⟨h, ?_⟩, And.left⟩
      rw [List.mem_singleton]; rintro rfl
      rw [ho] at h; simp at h
    · intro h k b
      refine ⟨fun h => ⟨h, ?_⟩, And.left⟩
      intro a' ha' o h'
      rw [List.mem_singleton.1 ha', ho] at h'; simp at h'
  | some o =>
    have obj : ∀ b v, put s.obj a none b = some v ↔ s.obj b = some v ∧ b ∉ [a] := by
      intro b v
      rw [List.mem_singleton]
      by_cases e : b = a
      · subst e; rw [put_self]; simp
      · rw [put_ne e]; simp [e]
    refine ⟨rfl, rfl, rfl, rfl, rfl, rfl, obj, ?_, ?_, ?_⟩
    · intro b v
      show b ∈ put s.names o ((s.names o).filter fun b => b ≠ a) v ↔ put s.obj a none b = some v
      rw [obj]
      by_cases e : v = o
      · subst e; rw [put_self, ← hn]; simp
      · rw [put_ne e, ← hn]
        refine ⟨fun h => ⟨h, ?_⟩, And.left⟩
        rw [List.mem_singleton]; rintro rfl
        have := (hn b v).1 h
        rw [ho] at this; injection this with this; exact e this.symm
    · exact nodup_put _ hd _ _ (Assoc.nodup_erase (hd _) _)
    · intro h k b
      show Assoc.get (put s.tab (s.home a) (Assoc.erase (s.tab (s.home a)) (s.key a)) h) k = some b ↔ _
      rw [get_put_erase]
      by_cases c : h = s.home a ∧ k = s.key a
      · rw [if_pos c]
        simp only [List.mem_singleton, forall_eq]
        refine ⟨fun h => by simp at h, fun h => absurd ⟨c.1.symm, c.2.symm⟩ (h.2 o ho)⟩
      · rw [if_neg c]
        simp only [List.mem_singleton, forall_eq]
        exact ⟨fun h => ⟨h, fun _ _ e => c ⟨e.1.symm, e.2.symm⟩⟩, And.left⟩

theorem collects_spec : ∀ (l : List Nat) (s : St O K), (∀ b v, b ∈ s.names v ↔ s.obj b = some v) → (∀ h, (Assoc.keys (s.tab h)).Nodup) →
    Swept s l (l.foldl collect s)
  | [], s, hn, hd => ⟨rfl, rfl, rfl, rfl, rfl, rfl, by simp, hn, hd, by simp⟩
  | a :: l, s, hn, hd => by
    have h1 := collect_spec hn hd a
    have h2 := collects_spec l (collect s a) h1.names h1.nodup
    rw [List.foldl_cons]
    refine ⟨h2.home.trans h1.home, h2.key.trans h1.key, h2.tomb.trans h1.tomb, h2.made.trans h1.made, h2.dead.trans h1.dead,
      h2.next.trans h1.next, ?_, h2.names, h2.nodup, ?_⟩
    · intro b v
      rw [h2.obj, h1.obj, List.mem_singleton, List.mem_cons, not_or, and_assoc]
    · intro h k b
      rw [h2.get, h1.get, h1.home, h1.key]
      constructor
      · rintro ⟨⟨c1, c2⟩, c3⟩
        refine ⟨c1, fun a' ha' o ho => ?_⟩
        by_cases e : a' = a
        · exact c2 a' (by simp [e]) o ho
        · exact c3 a' ((List.mem_cons.1 ha').resolve_left e) o ((h1.obj a' o).2 ⟨ho, by simp [e]⟩)
      · rintro ⟨c1, c2⟩
        refine ⟨⟨c1, fun a' ha' => c2 a' (by simp [List.mem_singleton.1 ha'])⟩, fun a' ha' o ho => ?_⟩
        exact c2 a' (List.mem_cons_of_mem _ ha') o ((h1.obj a' o).1 ho).1

/-- Where a symbol that is not marked is entered is named, if there are no cycles. -/
theorem home_of_live {s : St O K} {g : Notebook O K} (hs : Static s g) (hm : Marks s []) (hc : Acyclic g.heap) :
    ∀ o, ∀ a, s.obj a = some o → s.tomb a = false → Home g.heap (s.home a) := by
  intro o
  induction o using hc.induction with
  | _ o ih =>
    intro a ha ht p hp
    obtain ⟨hg, hl⟩ := (hm.live a o ha ht).resolve_left (by simp)
    obtain ⟨h1, h2⟩ := hl p hp
    obtain ⟨b, hb, htb⟩ := hm.named p h1 h2
    have hheap := hs.heap _ _ a o hg ha
    rw [hp] at hheap
    have hh := ih p ⟨_, hheap⟩ b hb htb
    obtain ⟨hgb, _⟩ := (hm.live b p hb htb).resolve_left (by simp)
    have hheapb := hs.heap _ _ b p hgb hb
    cases hhb : s.home b with
    | none => rw [hhb] at hheapb; exact .var _ _ hheapb
    | some q => rw [hhb] at hheapb; exact .part q _ _ (hh q hhb) hheapb

theorem gc_spec {s : St O K} {g : Notebook O K} (hs : Static s g) (hm : Marks s []) :
    Static (gc s) (after g .gc) ∧ Marks (gc s) [] ∧ (∀ a o, (gc s).obj a = some o → s.obj a = some o ∧ s.tomb a = false) := by
  have hsw := collects_spec (garbage s) s hs.names hs.nodup
  have hmem : ∀ a o, s.obj a = some o → (a ∈ garbage s ↔ s.tomb a = true) := by
    intro a o ho
    simp only [garbage, List.mem_filter, List.mem_range, Bool.and_eq_true, ho, Option.isSome_some, and_true]
    exact ⟨And.right, fun h => ⟨hs.bound a o ho, h⟩⟩
  have obj : ∀ a o, (gc s).obj a = some o ↔ s.obj a = some o ∧ s.tomb a = false := by
    intro a o
    show ((garbage s).foldl collect s).obj a = some o ↔ _
    rw [hsw.obj]
    refine and_congr_right fun ho => ?_
    rw [hmem a o ho]; simp
  have get : ∀ h k b, Assoc.get ((gc s).tab h) k = some b ↔ Assoc.get (s.tab h) k = some b ∧ s.tomb b = false := by
    intro h k b
    show Assoc.get (((garbage s).foldl collect s).tab h) k = some b ↔ _
    rw [hsw.get]
    refine and_congr_right fun hg => ?_
    obtain ⟨e1, e2, o, ho⟩ := hs.entry h k b hg
    constructor
    · intro h'
      by_contra ht
      exact h' b ((hmem b o ho).2 (by simpa using ht)) o ho ⟨e1, e2⟩
    · rintro ht a ha v hv ⟨f1, f2⟩
      have := hs.uniq a b v o hv ho (f1.trans e1.symm) (f2.trans e2.symm)
      subst this
      rw [(hmem a v hv).1 ha] at ht; exact absurd ht (by simp)
  have home : (gc s).home = s.home := hsw.home
  have key : (gc s).key = s.key := hsw.key
  have tomb : (gc s).tomb = s.tomb := hsw.tomb
  have made : ∀ o, (gc s).made o = true ↔ s.made o = true ∧ s.dead o = false := by
    intro o
    show (((garbage s).foldl collect s).made o && !(((garbage s).foldl collect s).dead o && (((garbage s).foldl collect s).tab (some o)).isEmpty)) = true ↔ _
    rw [hsw.made, hsw.dead, Bool.and_eq_true]
    refine and_congr_right fun hmo => ?_
    by_cases hd : s.dead o = true
    · have : (((garbage s).foldl collect s).tab (some o)) = [] := by
        refine List.eq_nil_iff_forall_not_mem.2 fun ⟨k, a⟩ hka => ?_
        have hka := (Assoc.get_eq_some_iff (hsw.nodup _)).2 hka
        obtain ⟨h1, h2⟩ := (get (some o) k a).1 hka
        rw [(hm.parts o k a hd h1).resolve_right (by simp)] at h2; exact absurd h2 (by simp)
      rw [this, hd]; simp
    · simp [hd]
  have kept : ∀ h k a, Home g.heap h → Assoc.get (s.tab h) k = some a → Assoc.get ((gc s).tab h) k = some a :=
    fun h k a hh hg => (get h k a).2 ⟨hg, live_of_home hs hm hh hg⟩
  refine ⟨⟨hsw.nodup, ?_, ?_, hsw.names, ?_, ?_, ?_, fun o ho => hs.opened o ((made o).1 ho).1, hs.parts, ?_, ?_⟩, ⟨?_, ?_, ?_, ?_, ?_, by simp⟩, fun a o h => (obj a o).1 h⟩
  · intro h k b hb
    obtain ⟨hb, ht⟩ := (get h k b).1 hb
    obtain ⟨e1, e2, o, ho⟩ := hs.entry h k b hb
    rw [home, key]
    exact ⟨e1, e2, o, (obj b o).2 ⟨ho, ht⟩⟩
  · intro a o ho
    show a < ((garbage s).foldl collect s).next
    rw [hsw.next]; exact hs.bound a o ((obj a o).1 ho).1
  · intro a b o o' ha hb h1 h2
    rw [home] at h1; rw [key] at h2
    exact hs.uniq a b o o' ((obj a o).1 ha).1 ((obj b o').1 hb).1 h1 h2
  · intro a o ho
    rw [home, key]
    obtain ⟨ho, ht⟩ := (obj a o).1 ho
    obtain ⟨hg, _⟩ := (hm.live a o ho ht).resolve_left (by simp)
    exact ⟨hs.heap _ _ a o hg ho, fun hc => home_of_live hs hm hc o a ho ht⟩
  · intro h k a o hg ho
    exact hs.heap h k a o ((get h k a).1 hg).1 ((obj a o).1 ho).1
  · intro o h1 h2
    exact (made o).2 ⟨hs.made o h1 h2, alive_of_named hs hm h2⟩
  · intro h k o hv hh
    obtain ⟨a, hg, ho⟩ := hs.kept h k o hv hh
    have ht := live_of_home hs hm hh hg
    exact ⟨a, (get h k a).2 ⟨hg, ht⟩, (obj a o).2 ⟨ho, ht⟩⟩
  · intro a o ho ht
    obtain ⟨ho, ht⟩ := (obj a o).1 ho
    obtain ⟨hg, hl⟩ := (hm.live a o ho ht).resolve_left (by simp)
    rw [home, key]
    exact .inr ⟨(get _ _ a).2 ⟨hg, ht⟩, fun p hp => ⟨(made p).2 (hl p hp), rfl⟩⟩
  · intro h k a hg ht
    rw [tomb, ((get h k a).1 hg).2] at ht; exact absurd ht (by simp)
  · intro o hmo _
    obtain ⟨h1, h2⟩ := (made o).1 hmo
    obtain ⟨a, ha, ht⟩ := hm.named o h1 h2
    exact ⟨a, (obj a o).2 ⟨ha, ht⟩, by rw [tomb]; exact ht⟩
  · intro o hd; exact absurd hd (by simp [gc, sweep])
  · intro p k a hd; exact absurd hd (by simp [gc, sweep])

/-- The tracker and the notebook agree. -/
def Inv (s : St O K) (g : Notebook O K) : Prop := Static s g ∧ Marks s []

theorem inv_empty (k : K) : Inv (empty k : St O K) Notebook.new := by
  refine ⟨⟨?_, ?_, ?_, ?_, ?_, ?_, ?_, ?_, ?_, ?_, ?_⟩, ⟨?_, ?_, ?_, ?_, ?_, ?_⟩⟩ <;> simp [empty, Notebook.new, Assoc.keys]

theorem step_spec {s t : St O K} {g : Notebook O K} (h : Inv s g) {n : Nat} {op : Op O K} (ha : Allowed g op) (e : step n s op = .ok t) :
    Inv t (after g op) := by
  cases op with
  | bind h' k o => exact bind_spec h.1 h.2 ha e
  | delete h' k sub => exact delete_spec h.1 h.2 ha e
  | openNs o => injection e with e; subst e; exact openNs_spec h.1 h.2 ha
  | gc => injection e with e; subst e; exact ⟨(gc_spec h.1 h.2).1, (gc_spec h.1 h.2).2.1⟩

theorem runs_spec {s t : St O K} {n : Nat} {l : List (Op O K)} (hr : Runs n s l t) : ∀ {g : Notebook O K}, Inv s g → Fine g l →
    Inv t (history g l) := by
  induction hr with
  | nil s => exact fun h _ => h
  | cons s s1 s2 op l e _ ih => exact fun h hf => ih (step_spec h hf.1 e) hf.2

/-! ## Marking ends -/

/-- What is needed of tables here. -/
structure Plain (s : St O K) : Prop where
  nodup : ∀ h, (Assoc.keys (s.tab h)).Nodup
  entry : ∀ h k a, Assoc.get (s.tab h) k = some a → s.home a = h ∧ s.key a = k ∧ ∃ o, s.obj a = some o
  bound : ∀ a o, s.obj a = some o → a < s.next

theorem Plain.mem {s : St O K} (h : Plain s) {o : O} {a : Nat} :
    a ∈ Garbage.parts s o ↔ ∃ k, Assoc.get (s.tab (some o)) k = some a := by
  simp only [Garbage.parts, List.mem_map, Prod.exists, exists_eq_right]
  exact exists_congr fun k => (Assoc.get_eq_some_iff (h.nodup _)).symm

theorem Plain.same {s t : St O K} (h : Plain s) (e : Same s t) : Plain t := by
  obtain ⟨h1, h2, h3⟩ := h
  constructor <;> (try simp only [e.tab, e.home, e.key, e.obj, e.next]) <;> assumption

theorem Static.plain {s : St O K} {g : Notebook O K} (h : Static s g) : Plain s := ⟨h.nodup, h.entry, h.bound⟩

open Classical in
/-- The symbols of parts of objects that are not marked. -/
noncomputable def fresh (s : St O K) : Finset Nat := (Finset.range s.next).filter fun a => ∃ p, s.home a = some p ∧ s.dead p = false

theorem parts_nodup {s : St O K} (hs : Plain s) (o : O) : (Garbage.parts s o).Nodup := by
  refine List.Nodup.map_on ?_ (List.Nodup.of_map Prod.fst (hs.nodup (some o)))
  rintro ⟨k, a⟩ h1 ⟨k', a'⟩ h2 e
  obtain rfl : a = a' := e
  have e1 := (hs.entry _ _ _ ((Assoc.get_eq_some_iff (hs.nodup _)).2 h1)).2.1
  have e2 := (hs.entry _ _ _ ((Assoc.get_eq_some_iff (hs.nodup _)).2 h2)).2.1
  rw [← e1, ← e2]

theorem fresh_close {s : St O K} (hs : Plain s) {o : O} (hd : s.dead o = false) (t : Nat → Bool) :
    (Garbage.parts s o).length + (fresh { s with tomb := t, dead := put s.dead o true }).card ≤ (fresh s).card := by
  classical
  rw [← List.toFinset_card_of_nodup (parts_nodup hs o), ← Finset.card_union_of_disjoint]
  · refine Finset.card_le_card fun a ha => ?_
    rw [Finset.mem_union] at ha
    simp only [fresh, Finset.mem_filter, Finset.mem_range]
    rcases ha with ha | ha
    · obtain ⟨k, hg⟩ := (hs.mem).1 (List.mem_toFinset.1 ha)
      obtain ⟨e1, _, v, hv⟩ := hs.entry _ _ _ hg
      exact ⟨hs.bound a v hv, o, e1, hd⟩
    · simp only [fresh, Finset.mem_filter, Finset.mem_range] at ha
      obtain ⟨h1, p, h2, h3⟩ := ha
      refine ⟨h1, p, h2, ?_⟩
      by_cases e : p = o
      · exact e ▸ hd
      · rw [put_ne e] at h3; exact h3
  · rw [Finset.disjoint_left]
    intro a ha hb
    obtain ⟨k, hg⟩ := (hs.mem).1 (List.mem_toFinset.1 ha)
    obtain ⟨e1, _, v, hv⟩ := hs.entry _ _ _ hg
    simp only [fresh, Finset.mem_filter, Finset.mem_range] at hb
    obtain ⟨_, p, h2, h3⟩ := hb
    rw [e1] at h2; injection h2 with h2; subst h2
    rw [put_self] at h3; exact absurd h3 (by simp)

theorem mark_ends : ∀ (n : Nat) (l : List Nat) (s : St O K), Plain s → l.length + (fresh s).card ≤ n → ∃ t, mark n l s = .ok t
  | n, [], s, _, _ => ⟨s, by cases n <;> rfl⟩
  | 0, a :: l, s, _, h => by simp at h
  | n + 1, a :: l, s, hs, h => by
    rw [List.length_cons] at h
    rw [mark]
    by_cases ha : s.tomb a = true
    · rw [if_pos ha]; exact mark_ends n l s hs (by omega)
    · rw [if_neg ha]
      have e1 : Same s { s with tomb := put s.tomb a true } := ⟨rfl, rfl, rfl, rfl, rfl, rfl, rfl⟩
      have f1 : fresh { s with tomb := put s.tomb a true } = fresh s := rfl
      cases ho : s.obj a with
      | none => exact mark_ends n l _ (hs.same e1) (by rw [f1]; omega)
      | some o =>
        simp only []
        by_cases hc : (s.made o && nameless { s with tomb := put s.tomb a true } o && !s.dead o) = true
        · rw [if_pos hc]
          simp only [Bool.and_eq_true, Bool.not_eq_true'] at hc
          have e2 : Same s { s with tomb := put s.tomb a true, dead := put s.dead o true } := ⟨rfl, rfl, rfl, rfl, rfl, rfl, rfl⟩
          have := fresh_close hs hc.2 (put s.tomb a true)
          exact mark_ends n _ _ (hs.same e2) (by rw [List.length_append]; omega)
        · rw [if_neg hc]; exact mark_ends n l _ (hs.same e1) (by rw [f1]; omega)

theorem fresh_le (s : St O K) : (fresh s).card ≤ s.next := by
  classical
  exact (Finset.card_filter_le _ _).trans (by simp)

theorem markNs_ends {s : St O K} (hs : Plain s) (o : O) {n : Nat} (hn : s.next ≤ n) : ∃ t, markNs n s o = .ok t := by
  unfold markNs
  by_cases hc : (s.made o && (s.names o).isEmpty && !s.dead o) = true
  · rw [if_pos hc]
    simp only [Bool.and_eq_true, Bool.not_eq_true'] at hc
    have := fresh_close hs hc.2 s.tomb
    have h2 := fresh_le s
    exact mark_ends n _ _ (hs.same ⟨rfl, rfl, rfl, rfl, rfl, rfl, rfl⟩) (by omega)
  · exact ⟨s, by rw [if_neg hc]⟩

theorem step_ends {s : St O K} (hs : Plain s) {n : Nat} (hn : s.next < n) (op : Op O K) : ∃ t, step n s op = .ok t := by
  cases op with
  | bind h k o =>
    show ∃ t, bind n s h k o = .ok t
    unfold bind
    cases hg : Assoc.get (s.tab h) k with
    | none => exact ⟨_, rfl⟩
    | some a =>
      obtain ⟨e1, e2, c, hc⟩ := hs.entry h k a hg
      simp only [hc]
      by_cases hco : c = o
      · rw [if_pos hco]; exact ⟨_, rfl⟩
      · rw [if_neg hco]
        refine markNs_ends (s := redirect s a c o) ⟨hs.nodup, ?_, ?_⟩ c hn.le
        · intro h' k' b hb
          obtain ⟨f1, f2, v, hv⟩ := hs.entry h' k' b hb
          refine ⟨f1, f2, ?_⟩
          show ∃ v, put s.obj a (some o) b = some v
          by_cases e : b = a
          · subst e; exact ⟨o, put_self _ _ _⟩
          · exact ⟨v, by rw [put_ne e]; exact hv⟩
        · intro b v hb
          have hb : put s.obj a (some o) b = some v := hb
          by_cases e : b = a
          · subst e; exact hs.bound b c hc
          · rw [put_ne e] at hb; exact hs.bound b v hb
  | delete h k sub =>
    show ∃ t, delete n s h k sub = .ok t
    unfold delete
    cases hg : Assoc.get (s.tab h) k with
    | none => exact ⟨_, rfl⟩
    | some a =>
      simp only []
      by_cases hsub : sub = true
      · rw [if_pos hsub]; exact ⟨_, rfl⟩
      · rw [if_neg hsub]
        refine mark_ends n _ _ ⟨nodup_put _ hs.nodup _ _ (Assoc.nodup_erase (hs.nodup h) k), ?_, hs.bound⟩ ?_
        · intro h' k' b hb
          have hb : Assoc.get (put s.tab h (Assoc.erase (s.tab h) k) h') k' = some b := hb
          rw [get_put_erase] at hb
          by_cases c : h' = h ∧ k' = k
          · rw [if_pos c] at hb; exact absurd hb (by simp)
          · rw [if_neg c] at hb; exact hs.entry h' k' b hb
        · have := fresh_le { s with tab := put s.tab h (Assoc.erase (s.tab h) k) }
          simp only [List.length_singleton] at this ⊢
          omega
  | openNs o => exact ⟨_, rfl⟩
  | gc => exact ⟨_, rfl⟩

end Verif.Garbage
