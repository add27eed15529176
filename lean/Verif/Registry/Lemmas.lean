import Verif.Registry.Spec

set_option linter.unusedSectionVars false

/-! # Helper lemmas for the registry -/

namespace Verif.Registry
open Verif
variable {ι τ : Type} [DecidableEq ι] [DecidableEq τ]

/-- The registry invariant. -/
structure Inv (s : Reg ι τ) : Prop where
  nonneg : 0 ≤ s.counter
  bound : ∀ (r : Nat) (o : CellObj ι τ), s.heap[r]? = some o → -1 ≤ o.ctr ∧ o.ctr ≤ s.counter
  mono : ∀ (r r' : Nat) (o o' : CellObj ι τ), r < r' → s.heap[r]? = some o → s.heap[r']? = some o' → 0 ≤ o.ctr → 0 ≤ o'.ctr → o.ctr < o'.ctr
  byCtr : ∀ n r, s.byCtr n = some r ↔ ∃ o : CellObj ι τ, s.heap[r]? = some o ∧ o.ctr = n ∧ 0 ≤ n
  cur : ∀ id r, s.current id = some r → ∃ o : CellObj ι τ, s.heap[r]? = some o ∧ o.id = id
  chain : ∀ (r : Nat) (o : CellObj ι τ), s.heap[r]? = some o → ∃ q, s.current o.id = some q ∧ Relation.ReflTransGen (PrevVersion s) q r
  prev : ∀ (r : Nat) (o : CellObj ι τ) (q : Nat), s.heap[r]? = some o → o.prev = some q → q < r ∧ 0 ≤ o.ctr ∧
    ∃ o' : CellObj ι τ, s.heap[q]? = some o' ∧ o'.id = o.id ∧ o'.ctr < o.ctr
  hist : ∀ (id : ι) (r : Nat) (o : CellObj ι τ), s.current id = some r → s.heap[r]? = some o →
    ∀ n, n ∈ o.history ↔ ∃ (r' : Nat) (o' : CellObj ι τ), s.heap[r']? = some o' ∧ o'.id = id ∧ o'.ctr = n ∧ 0 ≤ n
  histSorted : ∀ (r : Nat) (o : CellObj ι τ), s.heap[r]? = some o → o.history.Pairwise (· < ·)

theorem inv_init : Inv (Reg.init : Reg ι τ) := by
  constructor <;> simp [Reg.init]

/-- The part of an object the invariant talks about. -/
def shape (o : CellObj ι τ) : ι × Int × List Int × Option Nat := (o.id, o.ctr, o.history, o.prev)

theorem Inv.transport {s s' : Reg ι τ} (h : Inv s) (f : ι → ι)
    (hf : ∀ a b, (s.current a).isSome → (s.current b).isSome → f a = f b → a = b)
    (hheap : ∀ i : Nat, (s'.heap[i]?).map shape = (s.heap[i]?).map fun o => (f o.id, o.ctr, o.history, o.prev))
    (hc : s'.counter = s.counter) (hb : s'.byCtr = s.byCtr)
    (hcur : ∀ a, (s.current a).isSome → s'.current (f a) = s.current a)
    (hcur' : ∀ b r, s'.current b = some r → ∃ a, s.current a = some r ∧ f a = b) : Inv s' := by
  have fwd : ∀ (i : Nat) (o' : CellObj ι τ), s'.heap[i]? = some o' → ∃ o, s.heap[i]? = some o ∧ o'.id = f o.id ∧ o'.ctr = o.ctr ∧
      o'.history = o.history ∧ o'.prev = o.prev := by
    intro i o' ho'
    have := hheap i
    rw [ho'] at this
    cases hi : s.heap[i]? with
    | none => simp [hi] at this
    | some o =>
      simp only [hi, Option.map_some, Option.some.injEq, shape, Prod.mk.injEq] at this
      exact ⟨o, rfl, this.1, this.2.1, this.2.2.1, this.2.2.2⟩
  have bwd : ∀ (i : Nat) (o : CellObj ι τ), s.heap[i]? = some o → ∃ o', s'.heap[i]? = some o' ∧ o'.id = f o.id ∧ o'.ctr = o.ctr ∧
      o'.history = o.history ∧ o'.prev = o.prev := by
    intro i o ho
    have := hheap i
    rw [ho] at this
    cases hi : s'.heap[i]? with
    | none => simp [hi] at this
    | some o' =>
      simp only [hi, Option.map_some, Option.some.injEq, shape, Prod.mk.injEq] at this
      exact ⟨o', rfl, this.1, this.2.1, this.2.2.1, this.2.2.2⟩
  have hpv : ∀ a b, PrevVersion s a b → PrevVersion s' a b := by
    rintro a b ⟨o, ho, hp⟩
    obtain ⟨o', ho', _, _, _, hp'⟩ := bwd a o ho
    exact ⟨o', ho', hp'.trans hp⟩
  have hreg : ∀ (i : Nat) (o : CellObj ι τ), s.heap[i]? = some o → (s.current o.id).isSome := by
    intro i o ho
    obtain ⟨q, hq, _⟩ := h.chain i o ho
    simp [hq]
  refine ⟨by rw [hc]; exact h.nonneg, ?_, ?_, ?_, ?_, ?_, ?_, ?_, ?_⟩
  · intro r o' ho'
    obtain ⟨o, ho, _, h2, _⟩ := fwd r o' ho'
    rw [hc, h2]; exact h.bound r o ho
  · intro r r' o1 o2 hlt h1 h2 hn1 hn2
    obtain ⟨p1, hp1, _, e1, _⟩ := fwd r o1 h1
    obtain ⟨p2, hp2, _, e2, _⟩ := fwd r' o2 h2
    rw [e1] at hn1 ⊢; rw [e2] at hn2 ⊢
    exact h.mono r r' p1 p2 hlt hp1 hp2 hn1 hn2
  · intro n r
    rw [hb, h.byCtr]
    constructor
    · rintro ⟨o, ho, hn⟩
      obtain ⟨o', ho', _, e, _⟩ := bwd r o ho
      exact ⟨o', ho', e.trans hn.1, hn.2⟩
    · rintro ⟨o', ho', hn⟩
      obtain ⟨o, ho, _, e, _⟩ := fwd r o' ho'
      exact ⟨o, ho, e.symm.trans hn.1, hn.2⟩
  · intro id r hid
    obtain ⟨a, ha, rfl⟩ := hcur' id r hid
    obtain ⟨o, ho, hoid⟩ := h.cur a r ha
    obtain ⟨o', ho', e, _⟩ := bwd r o ho
    exact ⟨o', ho', by rw [e, hoid]⟩
  · intro r o' ho'
    obtain ⟨o, ho, e, _⟩ := fwd r o' ho'
    obtain ⟨q, hq, hch⟩ := h.chain r o ho
    refine ⟨q, ?_, Relation.ReflTransGen.mono hpv _ _ hch⟩
    rw [e, hcur _ (by simp [hq]), hq]
  · intro r o' q ho' hp
    obtain ⟨o, ho, e1, e2, _, e4⟩ := fwd r o' ho'
    rw [e4] at hp
    obtain ⟨h1, h2, p, hp1, hp2, hp3⟩ := h.prev r o q ho hp
    obtain ⟨p', hp', f1, f2, _⟩ := bwd q p hp1
    exact ⟨h1, by rw [e2]; exact h2, p', hp', by rw [f1, e1, hp2], by rw [f2, e2]; exact hp3⟩
  · intro id r o' hid ho' n
    obtain ⟨o, ho, e1, _, e3, _⟩ := fwd r o' ho'
    obtain ⟨a, ha, rfl⟩ := hcur' id r hid
    rw [e3, h.hist a r o ha ho n]
    constructor
    · rintro ⟨r', p, hp, hpid, hn⟩
      obtain ⟨p', hp', f1, f2, _⟩ := bwd r' p hp
      exact ⟨r', p', hp', by rw [f1, hpid], f2.trans hn.1, hn.2⟩
    · rintro ⟨r', p', hp', hpid, hn⟩
      obtain ⟨p, hp, f1, f2, _⟩ := fwd r' p' hp'
      refine ⟨r', p, hp, ?_, f2.symm.trans hn.1, hn.2⟩
      exact hf _ _ (hreg r' p hp) (by simp [ha]) (f1.symm.trans hpid)
  · intro r o' ho'
    obtain ⟨o, ho, _, _, e3, _⟩ := fwd r o' ho'
    rw [e3]; exact h.histSorted r o ho

theorem Inv.setObj {s s' : Reg ι τ} (h : Inv s) {r : Nat} {o o' : CellObj ι τ} (ho : s.heap[r]? = some o)
    (hsh : shape o' = shape o) (hheap : s'.heap = s.heap.set r o') (hc : s'.counter = s.counter)
    (hb : s'.byCtr = s.byCtr) (hcur : s'.current = s.current) : Inv s' := by
  refine h.transport id (fun _ _ _ _ e => e) ?_ hc hb (fun a _ => by rw [hcur]; rfl) (fun b r hb => ⟨b, by rw [← hcur]; exact hb, rfl⟩)
  intro i
  rw [hheap, List.getElem?_set]
  split
  · rename_i hi; subst hi
    have hlt : r < s.heap.length := by
      rw [List.getElem?_eq_some_iff] at ho; exact ho.1
    simp only [hlt, if_true, ho, Option.map_some, hsh]
    rfl
  · rfl

/-! ## Renaming -/

/-- `PrevVersion` on a bare heap. -/
def PrevIn (heap : List (CellObj ι τ)) (r q : Nat) : Prop := ∃ o, heap[r]? = some o ∧ o.prev = some q

theorem prevIn_set {heap : List (CellObj ι τ)} {r : Nat} {o o' : CellObj ι τ} (ho : heap[r]? = some o)
    (hp : o'.prev = o.prev) (a b : Nat) : PrevIn (heap.set r o') a b ↔ PrevIn heap a b := by
  unfold PrevIn
  have hlt : r < heap.length := (List.getElem?_eq_some_iff.1 ho).1
  rw [List.getElem?_set]
  by_cases ha : r = a
  · subst ha
    simp only [if_true, hlt, Option.some.injEq, exists_eq_left', ho, hp]
  · rw [if_neg ha]

open Classical in
theorem renameChain_spec (new : ι) : ∀ (fuel r : Nat) (heap : List (CellObj ι τ)), r < fuel →
    (∀ a b, PrevIn heap a b → b < a) →
    ∀ i : Nat, (renameChain new fuel heap r)[i]? = (heap[i]?).map fun o =>
      if Relation.ReflTransGen (PrevIn heap) r i then { o with id := new, placeholder := false } else o := by
  intro fuel
  induction fuel with
  | zero => intro r heap h; omega
  | succ n ih =>
    intro r heap hr hwf i
    simp only [renameChain]
    cases ho : heap[r]? with
    | none =>
      simp only
      cases hi : heap[i]? with
      | none => simp
      | some o =>
        simp only [Option.map_some, Option.some.injEq]
        rw [if_neg]
        intro hreach
        rcases Relation.ReflTransGen.cases_head hreach with rfl | ⟨c, ⟨oc, hc, _⟩, _⟩
        · rw [ho] at hi; simp at hi
        · rw [ho] at hc; simp at hc
    | some o =>
      simp only
      have hlt : r < heap.length := (List.getElem?_eq_some_iff.1 ho).1
      set o' : CellObj ι τ := { o with id := new, placeholder := false } with ho'
      have hrel : PrevIn (heap.set r o') = PrevIn heap := by
        funext a b; exact propext (prevIn_set (o' := o') ho rfl a b)
      cases hp : o.prev with
      | none =>
        simp only
        rw [List.getElem?_set]
        by_cases hri : r = i
        · subst hri
          simp only [if_true, hlt, ho, Option.map_some]
          rw [if_pos Relation.ReflTransGen.refl]
        · rw [if_neg hri]
          cases hi : heap[i]? with
          | none => simp
          | some oi =>
            simp only [Option.map_some, Option.some.injEq]
            rw [if_neg]
            intro hreach
            rcases Relation.ReflTransGen.cases_head hreach with h | ⟨c, ⟨oc, hc, hc'⟩, _⟩
            · exact hri h
            · rw [ho] at hc; injection hc with hc; subst hc; rw [hp] at hc'; simp at hc'
      | some q =>
        simp only
        have hqr : q < r := hwf r q ⟨o, ho, hp⟩
        rw [ih q (heap.set r o') (by omega) (by rw [hrel]; exact hwf) i, hrel, List.getElem?_set]
        by_cases hri : r = i
        · subst hri
          simp only [if_true, hlt, ho, Option.map_some]
          rw [if_pos Relation.ReflTransGen.refl]
          split <;> rfl
        · rw [if_neg hri]
          have : Relation.ReflTransGen (PrevIn heap) r i ↔ Relation.ReflTransGen (PrevIn heap) q i := by
            constructor
            · intro hreach
              rcases Relation.ReflTransGen.cases_head hreach with h | ⟨c, ⟨oc, hc, hc'⟩, hrest⟩
              · exact absurd h hri
              · rw [ho] at hc; injection hc with hc; subst hc; rw [hp] at hc'; injection hc' with hc'; subst hc'
                exact hrest
            · intro h'; exact .head ⟨o, ho, hp⟩ h'
          simp only [this]

theorem Inv.reach_iff {s : Reg ι τ} (h : Inv s) {old : ι} {r : Nat} (hr : s.current old = some r) {i : Nat}
    {o : CellObj ι τ} (ho : s.heap[i]? = some o) : Relation.ReflTransGen (PrevVersion s) r i ↔ o.id = old := by
  constructor
  · intro hreach
    have : ∀ j, Relation.ReflTransGen (PrevVersion s) r j → ∃ oj, s.heap[j]? = some oj ∧ oj.id = old := by
      intro j hj
      induction hj with
      | refl => exact h.cur old r hr
      | tail _ hab ih =>
        obtain ⟨oa, ha, haid⟩ := ih
        obtain ⟨oa', ha', hp⟩ := hab
        rw [ha] at ha'; injection ha' with ha'; subst ha'
        obtain ⟨_, _, ob, hb, hbid, _⟩ := h.prev _ _ _ ha hp
        exact ⟨ob, hb, hbid.trans haid⟩
    obtain ⟨oj, hj, hjid⟩ := this i hreach
    rw [ho] at hj; injection hj with hj; subst hj; exact hjid
  · rintro rfl
    obtain ⟨q, hq, hch⟩ := h.chain i o ho
    rw [hr] at hq; injection hq with hq; subst hq; exact hch

/-- Renaming changes exactly the objects with the old id. -/
theorem Inv.rename_heap {s : Reg ι τ} (h : Inv s) {old new : ι} {r : Nat} (hr : s.current old = some r)
    (hn : s.current new = none) (i : Nat) : (rename s old new).heap[i]? = (s.heap[i]?).map fun o =>
      if o.id = old then { o with id := new, placeholder := false } else o := by
  have hwf : ∀ a b, PrevIn s.heap a b → b < a := by
    rintro a b ⟨o, ho, hp⟩; exact (h.prev a o b ho hp).1
  obtain ⟨o, ho, _⟩ := h.cur old r hr
  have hlt : r < s.heap.length := (List.getElem?_eq_some_iff.1 ho).1
  unfold rename
  rw [hr]
  simp only [hn, Option.isSome_none, Bool.false_eq_true, if_false]
  rw [renameChain_spec new s.heap.length r s.heap hlt hwf i]
  cases hi : s.heap[i]? with
  | none => rfl
  | some oi =>
    simp only [Option.map_some, Option.some.injEq]
    have : Relation.ReflTransGen (PrevIn s.heap) r i ↔ oi.id = old := h.reach_iff hr hi
    by_cases hoi : oi.id = old
    · rw [if_pos (this.2 hoi), if_pos hoi]
    · rw [if_neg (fun h' => hoi (this.1 h')), if_neg hoi]

theorem Inv.rename {s : Reg ι τ} (h : Inv s) (old new : ι) : Inv (rename s old new) := by
  cases hr : s.current old with
  | none => unfold Registry.rename; rw [hr]; exact h
  | some r =>
    by_cases hn : (s.current new).isSome
    · unfold Registry.rename; rw [hr]; simp only [hn, if_true]; exact h
    have hn : s.current new = none := by simpa using hn
    have hne : old ≠ new := by rintro rfl; rw [hr] at hn; simp at hn
    refine h.transport (fun a => if a = old then new else a) ?_ ?_ ?_ ?_ ?_ ?_
    · intro a b ha hb hab
      by_cases h1 : a = old <;> by_cases h2 : b = old
      · rw [h1, h2]
      · simp only [h1, if_true, h2, if_false] at hab
        subst hab; simp [hn] at hb
      · simp only [h1, if_false, h2, if_true] at hab
        subst hab; simp [hn] at ha
      · simpa [h1, h2] using hab
    · intro i
      rw [h.rename_heap hr hn i, Option.map_map]
      congr 1
      funext o
      simp only [Function.comp, shape]
      split <;> simp
    · unfold Registry.rename; rw [hr]; simp [hn]
    · unfold Registry.rename; rw [hr]; simp [hn]
    · intro a ha
      unfold Registry.rename; rw [hr]
      simp only [hn, Option.isSome_none, Bool.false_eq_true, if_false]
      by_cases h1 : a = old
      · subst h1; simp [hr]
      · have h2 : a ≠ new := by rintro rfl; simp [hn] at ha
        simp [h1, h2]
    · intro b r' hb
      unfold Registry.rename at hb; rw [hr] at hb
      simp only [hn, Option.isSome_none, Bool.false_eq_true, if_false] at hb
      by_cases h1 : b = new
      · subst h1
        simp only [Function.update_self, Option.some.injEq] at hb
        subst hb
        exact ⟨old, hr, by simp⟩
      · rw [Function.update_of_ne h1] at hb
        by_cases h2 : b = old
        · subst h2; simp at hb
        · rw [Function.update_of_ne h2] at hb
          exact ⟨b, hb, by simp [h2]⟩

/-! ## Tracking a new version -/

theorem prevOf_none {s : Reg ι τ} (h : Inv s) {id : ι} : s.prevOf id = none ↔ s.current id = none := by
  unfold Reg.prevOf Reg.obj
  cases hc : s.current id with
  | none => simp
  | some q =>
    obtain ⟨o, ho, _⟩ := h.cur id q hc
    simp [ho]

theorem prevOf_some {s : Reg ι τ} {id : ι} {q : Nat} {o : CellObj ι τ} :
    s.prevOf id = some (q, o) ↔ s.current id = some q ∧ s.heap[q]? = some o := by
  unfold Reg.prevOf Reg.obj
  cases hc : s.current id with
  | none => simp
  | some q' =>
    simp only
    cases ho : s.heap[q']? with
    | none =>
      simp only [reduceCtorEq, Option.some.injEq, false_iff, not_and]
      rintro rfl; simp [ho]
    | some o' =>
      simp only [Option.some.injEq, Prod.mk.injEq]
      constructor
      · rintro ⟨rfl, rfl⟩; exact ⟨rfl, ho⟩
      · rintro ⟨rfl, h⟩; rw [ho] at h; exact ⟨rfl, Option.some.inj h⟩

theorem getElem?_snoc {α : Type} {l : List α} {x y : α} {i : Nat} :
    (l ++ [x])[i]? = some y ↔ l[i]? = some y ∨ (i = l.length ∧ x = y) := by
  rw [List.getElem?_append]
  split
  · rename_i h
    constructor
    · exact .inl
    · rintro (h' | ⟨h', _⟩)
      · exact h'
      · omega
  · rename_i h
    constructor
    · intro h'
      right
      rw [List.getElem?_singleton] at h'
      split at h'
      · exact ⟨by omega, Option.some.inj h'⟩
      · simp at h'
    · rintro (h' | ⟨rfl, rfl⟩)
      · rw [List.getElem?_eq_some_iff] at h'; exact absurd h'.1 h
      · simp

theorem track_inv {s0 s' : Reg ι τ} (h : Inv s0) {c1 : Int} {id : ι} {ctr : Int} {tags : Finset τ} {ph : Bool}
    (hctr : (ctr = -1 ∧ c1 = s0.counter ∧ s0.current id = none) ∨ (s0.counter < ctr ∧ c1 = ctr))
    (hok : track { s0 with counter := c1 } id ctr tags ph = .ok s') :
    Inv s' ∧ s'.current = Function.update s0.current id (some s0.heap.length) := by
  have hprevOf : (Reg.prevOf { s0 with counter := c1 } id : Option (Nat × CellObj ι τ)) = s0.prevOf id := rfl
  unfold track at hok
  rw [hprevOf] at hok
  by_cases hcr : ctr = -1 ∧ (s0.prevOf id).isSome
  · simp only [hcr, and_self, if_true, reduceCtorEq] at hok
  simp only [if_neg hcr] at hok
  injection hok with hok
  set o : CellObj ι τ := newObj (s0.prevOf id) id ctr tags ph with ho
  have hheap : s'.heap = s0.heap ++ [o] := by rw [← hok]
  have hcounter : s'.counter = c1 := by rw [← hok]
  have hbc : becomesCurrent (s0.prevOf id) ctr = true := by
    unfold becomesCurrent
    cases hp : s0.prevOf id with
    | none => rfl
    | some p =>
      obtain ⟨q, oq⟩ := p
      obtain ⟨hq1, hq2⟩ := prevOf_some.1 hp
      simp only [decide_eq_true_eq]
      rcases hctr with ⟨_, _, h'⟩ | ⟨h', _⟩
      · rw [h'] at hq1; simp at hq1
      · have := (h.bound q oq hq2).2; omega
  have hcur : s'.current = Function.update s0.current id (some s0.heap.length) := by
    rw [← hok]; simp only [hbc, if_true]
  have hby : s'.byCtr = if ctr > -1 then Function.update s0.byCtr ctr (some s0.heap.length) else s0.byCtr := by
    rw [← hok]
  refine ⟨?_, hcur⟩
  have hget : ∀ (r : Nat) (p : CellObj ι τ), s'.heap[r]? = some p ↔ s0.heap[r]? = some p ∨ (r = s0.heap.length ∧ o = p) := by
    intro r p; rw [hheap]; exact getElem?_snoc
  have hltS : ∀ (r : Nat) (p : CellObj ι τ), s0.heap[r]? = some p → r < s0.heap.length := by
    intro r p hp; exact (List.getElem?_eq_some_iff.1 hp).1
  have hoid : o.id = id := by rw [ho]; unfold newObj; cases s0.prevOf id <;> rfl
  have hoctr : o.ctr = ctr := by rw [ho]; unfold newObj; cases s0.prevOf id <;> rfl
  have hctr' : ctr = -1 ∨ 0 ≤ ctr := by
    rcases hctr with ⟨h', _, _⟩ | ⟨h', _⟩
    · exact .inl h'
    · have := h.nonneg; right; omega
  have hc1 : s0.counter ≤ c1 := by rcases hctr with ⟨_, h', _⟩ | ⟨h', h''⟩ <;> omega
  have hsub : ∀ a b, PrevVersion s0 a b → PrevVersion s' a b := by
    rintro a b ⟨p, hp, hp'⟩; exact ⟨p, (hget a p).2 (.inl hp), hp'⟩
  have hnewmem : s'.heap[s0.heap.length]? = some o := (hget _ _).2 (.inr ⟨rfl, rfl⟩)
  have hoprev : ∀ q, o.prev = some q → s0.current id = some q ∧ ∃ oq, s0.heap[q]? = some oq ∧ oq.id = id ∧
      o.history = oq.history ++ [ctr] ∧ oq.ctr < ctr ∧ 0 ≤ ctr := by
    intro q hq
    rw [ho] at hq ⊢
    unfold newObj at hq ⊢
    cases hp : s0.prevOf id with
    | none => rw [hp] at hq; simp at hq
    | some p =>
      obtain ⟨q', oq⟩ := p
      rw [hp] at hq
      simp only [Option.some.injEq] at hq
      subst hq
      obtain ⟨hq1, hq2⟩ := prevOf_some.1 hp
      rcases hctr with ⟨_, _, h'⟩ | ⟨h', _⟩
      · rw [h'] at hq1; simp at hq1
      · obtain ⟨oq', hq3, hq4⟩ := h.cur id q' hq1
        rw [hq2] at hq3; injection hq3 with hq3; subst hq3
        have hb := (h.bound q' oq hq2).2
        have hn := h.nonneg
        exact ⟨hq1, oq, hq2, hq4, by simp; omega, by omega, by omega⟩
  have honone : o.prev = none → s0.current id = none ∧ o.history = if ctr > -1 then [ctr] else [] := by
    intro hq
    rw [ho] at hq ⊢
    unfold newObj at hq ⊢
    cases hp : s0.prevOf id with
    | none => exact ⟨(prevOf_none h).1 hp, rfl⟩
    | some p => rw [hp] at hq; simp at hq
  refine ⟨?_, ?_, ?_, ?_, ?_, ?_, ?_, ?_, ?_⟩
  · rw [hcounter]; exact h.nonneg.trans hc1
  · intro r p hp
    rw [hcounter]
    rcases (hget r p).1 hp with h' | ⟨rfl, rfl⟩
    · have := h.bound r p h'; exact ⟨this.1, this.2.trans hc1⟩
    · rw [hoctr]
      have := h.nonneg
      rcases hctr with ⟨h1, h2, _⟩ | ⟨h1, h2⟩ <;> omega
  · intro r r' p p' hlt hp hp' hn hn'
    rcases (hget r p).1 hp with h1 | ⟨rfl, rfl⟩
    · rcases (hget r' p').1 hp' with h2 | ⟨rfl, rfl⟩
      · exact h.mono r r' p p' hlt h1 h2 hn hn'
      · rw [hoctr] at hn' ⊢
        have hb := (h.bound r p h1).2
        rcases hctr with ⟨e, _⟩ | ⟨e, _⟩ <;> omega
    · rcases (hget r' p').1 hp' with h2 | ⟨rfl, rfl⟩
      · have := hltS r' p' h2; omega
      · omega
  · intro n r
    rw [hby]
    by_cases hc : ctr > -1
    · rw [if_pos hc]
      by_cases hnc : n = ctr
      · subst hnc
        simp only [Function.update_self, Option.some.injEq]
        constructor
        · rintro rfl; exact ⟨o, hnewmem, hoctr, by omega⟩
        · rintro ⟨p, hp, hpc, _⟩
          rcases (hget r p).1 hp with h1 | ⟨rfl, _⟩
          · have hb := (h.bound r p h1).2
            rcases hctr with ⟨e, _⟩ | ⟨e, _⟩ <;> omega
          · rfl
      · rw [Function.update_of_ne hnc, h.byCtr]
        constructor
        · rintro ⟨p, hp, h'⟩; exact ⟨p, (hget r p).2 (.inl hp), h'⟩
        · rintro ⟨p, hp, hpc, h'⟩
          rcases (hget r p).1 hp with h1 | ⟨_, rfl⟩
          · exact ⟨p, h1, hpc, h'⟩
          · exact absurd (hpc.symm.trans hoctr) hnc
    · rw [if_neg hc, h.byCtr]
      constructor
      · rintro ⟨p, hp, h'⟩; exact ⟨p, (hget r p).2 (.inl hp), h'⟩
      · rintro ⟨p, hp, hpc, h'⟩
        rcases (hget r p).1 hp with h1 | ⟨_, rfl⟩
        · exact ⟨p, h1, hpc, h'⟩
        · omega
  · intro a r ha
    rw [hcur] at ha
    by_cases hai : a = id
    · subst hai
      simp only [Function.update_self, Option.some.injEq] at ha
      subst ha
      exact ⟨o, hnewmem, hoid⟩
    · rw [Function.update_of_ne hai] at ha
      obtain ⟨p, hp, hpid⟩ := h.cur a r ha
      exact ⟨p, (hget r p).2 (.inl hp), hpid⟩
  · intro r p hp
    rw [hcur]
    rcases (hget r p).1 hp with h1 | ⟨rfl, rfl⟩
    · obtain ⟨q, hq, hch⟩ := h.chain r p h1
      have hch' := Relation.ReflTransGen.mono hsub _ _ hch
      by_cases hpi : p.id = id
      · refine ⟨s0.heap.length, by rw [hpi]; simp, ?_⟩
        refine Relation.ReflTransGen.head (b := q) ?_ hch'
        cases hop : o.prev with
        | none =>
          have := (honone hop).1
          rw [hpi, this] at hq; simp at hq
        | some q' =>
          have := (hoprev q' hop).1
          rw [hpi, this] at hq; injection hq with hq; subst hq
          exact ⟨o, hnewmem, hop⟩
      · exact ⟨q, by rw [Function.update_of_ne hpi]; exact hq, hch'⟩
    · exact ⟨s0.heap.length, by rw [hoid]; simp, .refl⟩
  · intro r p q hp hpq
    rcases (hget r p).1 hp with h1 | ⟨rfl, rfl⟩
    · obtain ⟨g1, g2, p', g3, g4⟩ := h.prev r p q h1 hpq
      exact ⟨g1, g2, p', (hget q p').2 (.inl g3), g4⟩
    · obtain ⟨g1, oq, g2, g3, g4, g5, g6⟩ := hoprev q hpq
      exact ⟨hltS q oq g2, by rw [hoctr]; exact g6, oq, (hget q oq).2 (.inl g2), g3.trans hoid.symm, by rw [hoctr]; exact g5⟩
  · intro a r p ha hp n
    rw [hcur] at ha
    by_cases hai : a = id
    · subst hai
      simp only [Function.update_self, Option.some.injEq] at ha
      subst ha
      rw [hnewmem] at hp; injection hp with hp; subst hp
      have hsplit : (∃ (r' : Nat) (o' : CellObj ι τ), s'.heap[r']? = some o' ∧ o'.id = a ∧ o'.ctr = n ∧ 0 ≤ n) ↔
          (∃ (r' : Nat) (o' : CellObj ι τ), s0.heap[r']? = some o' ∧ o'.id = a ∧ o'.ctr = n ∧ 0 ≤ n) ∨ (ctr = n ∧ 0 ≤ n) := by
        constructor
        · rintro ⟨r', o', ho', g⟩
          rcases (hget r' o').1 ho' with h1 | ⟨_, rfl⟩
          · exact .inl ⟨r', o', h1, g⟩
          · exact .inr ⟨hoctr.symm.trans g.2.1, g.2.2⟩
        · rintro (⟨r', o', ho', g⟩ | ⟨g1, g2⟩)
          · exact ⟨r', o', (hget r' o').2 (.inl ho'), g⟩
          · exact ⟨s0.heap.length, o, hnewmem, hoid, hoctr.trans g1, g2⟩
      rw [hsplit]
      cases hop : o.prev with
      | none =>
        obtain ⟨g1, g2⟩ := honone hop
        rw [g2]
        have hno : ¬ ∃ (r' : Nat) (o' : CellObj ι τ), s0.heap[r']? = some o' ∧ o'.id = a ∧ o'.ctr = n ∧ 0 ≤ n := by
          rintro ⟨r', o', h1, h2, _⟩
          obtain ⟨q, hq, _⟩ := h.chain r' o' h1
          rw [h2, g1] at hq; simp at hq
        simp only [hno, false_or]
        split
        · simp only [List.mem_singleton]; constructor
          · rintro rfl; exact ⟨rfl, by omega⟩
          · rintro ⟨e, _⟩; exact e.symm
        · simp only [List.not_mem_nil, false_iff]; omega
      | some q =>
        obtain ⟨g1, oq, g2, g3, g4, g5, g6⟩ := hoprev q hop
        rw [g4, List.mem_append, h.hist a q oq g1 g2 n, List.mem_singleton]
        constructor
        · rintro (h' | rfl)
          · exact .inl h'
          · exact .inr ⟨rfl, g6⟩
        · rintro (h' | ⟨rfl, _⟩)
          · exact .inl h'
          · exact .inr rfl
    · rw [Function.update_of_ne hai] at ha
      have hp0 : s0.heap[r]? = some p := by
        rcases (hget r p).1 hp with h1 | ⟨rfl, _⟩
        · exact h1
        · obtain ⟨p', hp', _⟩ := h.cur a _ ha
          have := hltS _ _ hp'; omega
      rw [h.hist a r p ha hp0 n]
      constructor
      · rintro ⟨r', o', ho', g⟩
        exact ⟨r', o', (hget r' o').2 (.inl ho'), g⟩
      · rintro ⟨r', o', ho', g⟩
        rcases (hget r' o').1 ho' with h1 | ⟨_, rfl⟩
        · exact ⟨r', o', h1, g⟩
        · exact absurd (g.1.symm.trans hoid) hai
  · intro r p hp
    rcases (hget r p).1 hp with h1 | ⟨rfl, rfl⟩
    · exact h.histSorted r p h1
    · cases hop : o.prev with
      | none =>
        rw [(honone hop).2]; split <;> simp
      | some q =>
        obtain ⟨g1, oq, g2, g3, g4, g5, g6⟩ := hoprev q hop
        rw [g4, List.pairwise_append]
        refine ⟨h.histSorted q oq g2, by simp, ?_⟩
        intro n hn m hm
        rw [List.mem_singleton] at hm; subst hm
        obtain ⟨r', o', h1, _, h2, _⟩ := (h.hist id q oq g1 g2 n).1 hn
        have hb := (h.bound r' o' h1).2
        rcases hctr with ⟨e, _⟩ | ⟨e, _⟩ <;> omega

/-! ## Whole histories -/

theorem track_ok {s0 : Reg ι τ} (h : Inv s0) {c1 : Int} {id : ι} {ctr : Int} {tags : Finset τ} {ph : Bool}
    (hctr : (ctr = -1 ∧ c1 = s0.counter ∧ s0.current id = none) ∨ (s0.counter < ctr ∧ c1 = ctr)) :
    ∃ s', track { s0 with counter := c1 } id ctr tags ph = .ok s' := by
  unfold track
  have hprevOf : (Reg.prevOf { s0 with counter := c1 } id : Option (Nat × CellObj ι τ)) = s0.prevOf id := rfl
  simp only [hprevOf]
  rw [if_neg]
  · exact ⟨_, rfl⟩
  · rintro ⟨h1, h2⟩
    rcases hctr with ⟨_, _, h3⟩ | ⟨h3, _⟩
    · rw [(prevOf_none h).2 h3] at h2; simp at h2
    · have := h.nonneg; omega

theorem bump_gt {c host : Int} {v : Bool} (hv : v = true → host > c) : c < bump c host v := by
  unfold bump
  simp only
  split
  · rename_i h; exact hv (by simpa using h.1)
  · omega

theorem hostOk_exec {s : Reg ι τ} {id : ι} {tags : Finset τ} {v : Bool} {host : Int} {ph : Bool}
    (h : HostOk s (.exec id tags v host ph)) : s.counter < bump s.counter host v := by
  apply bump_gt
  rintro rfl
  exact h

/-- The object reached through the counter table. -/
theorem Inv.byCtr_obj {s : Reg ι τ} (h : Inv s) {n : Int} {r : Nat} (hr : s.byCtr n = some r) :
    ∃ o, s.heap[r]? = some o ∧ o.ctr = n ∧ 0 ≤ n := (h.byCtr n r).1 hr

theorem Inv.next {s : Reg ι τ} (h : Inv s) (o : Op ι τ) (ho : HostOk s o) : Inv (next s o) := by
  unfold Registry.next
  cases o with
  | exec id tags v host ph =>
    simp only [step, execCell]
    have hb := hostOk_exec ho
    obtain ⟨s', hs'⟩ := track_ok (tags := tags) (ph := ph) h (c1 := bump s.counter host v) (id := id) (.inr ⟨hb, rfl⟩)
    rw [hs']
    exact (track_inv h (.inr ⟨hb, rfl⟩) hs').1
  | untracked id =>
    simp only [step, untracked]
    by_cases hc : (s.current id).isSome
    · rw [if_pos hc]; exact h
    · rw [if_neg hc]
      have hc : s.current id = none := by simpa using hc
      obtain ⟨s', hs'⟩ := track_ok (tags := ∅) (ph := false) h (c1 := s.counter) (id := id) (.inl ⟨rfl, rfl, hc⟩)
      have hs'' : track s id (-1) ∅ false = .ok s' := hs'
      rw [hs'']
      exact (track_inv h (.inl ⟨rfl, rfl, hc⟩) hs').1
  | tag cell t =>
    simp only [step, tagCell, Reg.obj]
    cases hb : s.byCtr (cell.elim s.counter id) with
    | none => exact h
    | some r =>
      cases hr : s.heap[r]? with
      | none => simp only [hr]; exact h
      | some ob =>
        simp only [hr]
        exact h.setObj (o' := { ob with tags := insert t ob.tags }) hr rfl rfl rfl rfl rfl
  | untag cell t =>
    simp only [step, untagCell, Reg.obj]
    cases hb : s.byCtr (cell.elim s.counter id) with
    | none => exact h
    | some r =>
      cases hr : s.heap[r]? with
      | none => simp only [hr]; exact h
      | some ob =>
        simp only [hr]
        exact h.setObj (o' := { ob with tags := ob.tags.erase t }) hr rfl rfl rfl rfl rfl
  | reactive t =>
    simp only [step, markReactive, Reg.obj]
    cases hb : s.byCtr s.counter with
    | none => exact h
    | some r =>
      cases hr : s.heap[r]? with
      | none => simp only [hr]; exact h
      | some ob =>
        simp only [hr]
        exact h.setObj (o' := { ob with reactive := insert t ob.reactive }) hr rfl rfl rfl rfl rfl
  | rename old new => exact h.rename old new

theorem hostAhead_cons {s : Reg ι τ} {o : Op ι τ} {ops : List (Op ι τ)} (h : HostAhead s (o :: ops)) :
    HostOk s o ∧ HostAhead (next s o) ops := h

theorem inv_run {ops : List (Op ι τ)} {s : Reg ι τ} (h : Inv s) (ho : HostAhead s ops) : Inv (run s ops) := by
  induction ops generalizing s with
  | nil => exact h
  | cons o ops ih =>
    obtain ⟨h1, h2⟩ := hostAhead_cons ho
    exact ih (h.next o h1) h2

/-- The last execution is the current version of its cell. -/
theorem Inv.last_current {s : Reg ι τ} (h : Inv s) {r : Nat} {o : CellObj ι τ} (hr : s.byCtr s.counter = some r)
    (ho : s.heap[r]? = some o) : s.current o.id = some r := by
  obtain ⟨o', ho', hc, h0⟩ := h.byCtr_obj hr
  rw [ho] at ho'; injection ho' with ho'; subst ho'
  obtain ⟨q, hq, hch⟩ := h.chain r o ho
  have key : ∀ a, Relation.ReflTransGen (PrevVersion s) q a → a = q ∨
      ∃ oq oa, s.heap[q]? = some oq ∧ s.heap[a]? = some oa ∧ oa.ctr < oq.ctr := by
    intro a ha
    induction ha with
    | refl => exact .inl rfl
    | tail _ hbc ih =>
      obtain ⟨ob, hb, hp⟩ := hbc
      obtain ⟨_, _, oc, hc1, _, hc2⟩ := h.prev _ _ _ hb hp
      rcases ih with rfl | ⟨oq, ob', h1, h2, h3⟩
      · exact .inr ⟨ob, oc, hb, hc1, hc2⟩
      · rw [hb] at h2; injection h2 with h2; subst h2
        exact .inr ⟨oq, oc, h1, hc1, hc2.trans h3⟩
  rcases key r hch with rfl | ⟨oq, oa, h1, h2, h3⟩
  · exact hq
  · rw [ho] at h2; injection h2 with h2; subst h2
    have := (h.bound q oq h1).2; omega

/-! ## Tags -/

/-- Current cells with a tag are indexed. -/
def TagsFound (s : Reg ι τ) : Prop := ∀ r t, CurrentWithTag s r t → ∃ a, (r, a) ∈ s.byTag t

/-- Indexed cells are current and carry the tag. -/
def TagsExact (s : Reg ι τ) : Prop :=
  ∀ r t a, (r, a) ∈ s.byTag t → ∃ o : CellObj ι τ, s.heap[r]? = some o ∧ o.id = a ∧ s.current a = some r ∧ t ∈ o.tags

theorem track_fields {s0 s' : Reg ι τ} {c1 : Int} {id : ι} {ctr : Int} {tags : Finset τ} {ph : Bool}
    (hok : track { s0 with counter := c1 } id ctr tags ph = .ok s') :
    s'.heap = s0.heap ++ [newObj (s0.prevOf id) id ctr tags ph] ∧
    s'.byTag = fun t => if t ∈ (newObj (s0.prevOf id) id ctr tags ph).tags then
      insert (s0.heap.length, id) (dropTags s0.byTag (s0.prevOf id) t) else dropTags s0.byTag (s0.prevOf id) t := by
  have hprevOf : (Reg.prevOf { s0 with counter := c1 } id : Option (Nat × CellObj ι τ)) = s0.prevOf id := rfl
  unfold track at hok
  rw [hprevOf] at hok
  by_cases hcr : ctr = -1 ∧ (s0.prevOf id).isSome
  · simp only [hcr, and_self, if_true, reduceCtorEq] at hok
  simp only [if_neg hcr] at hok
  injection hok with hok
  rw [← hok]
  exact ⟨rfl, rfl⟩

theorem newObj_id {prev : Option (Nat × CellObj ι τ)} {id : ι} {ctr : Int} {tags : Finset τ} {ph : Bool} :
    (newObj prev id ctr tags ph).id = id := by
  unfold newObj; cases prev <;> rfl

theorem mem_dropTags {byTag : τ → Finset (Nat × ι)} {prev : Option (Nat × CellObj ι τ)} {t : τ} {x : Nat × ι} :
    x ∈ dropTags byTag prev t ↔ x ∈ byTag t ∧ ∀ q o, prev = some (q, o) → t ∈ o.tags → x ≠ (q, o.id) := by
  unfold dropTags
  cases prev with
  | none => simp
  | some p =>
    obtain ⟨q, o⟩ := p
    simp only [Option.some.injEq, Prod.mk.injEq, and_imp]
    constructor
    · intro h
      split at h
      · rw [Finset.mem_erase] at h
        exact ⟨h.2, by rintro q' o' rfl rfl _; exact h.1⟩
      · rename_i ht
        exact ⟨h, by rintro q' o' rfl rfl ht'; exact absurd ht' ht⟩
    · rintro ⟨h1, h2⟩
      split
      · rename_i ht; exact Finset.mem_erase.2 ⟨h2 q o rfl rfl ht, h1⟩
      · exact h1

theorem track_tagsFound {s0 s' : Reg ι τ} (h : Inv s0) (hT : TagsFound s0) {c1 : Int} {id : ι} {ctr : Int}
    {tags : Finset τ} {ph : Bool}
    (hctr : (ctr = -1 ∧ c1 = s0.counter ∧ s0.current id = none) ∨ (s0.counter < ctr ∧ c1 = ctr))
    (hok : track { s0 with counter := c1 } id ctr tags ph = .ok s') : TagsFound s' := by
  obtain ⟨_, hcur⟩ := track_inv h hctr hok
  obtain ⟨hheap, htag⟩ := track_fields hok
  rintro r t ⟨o, ho, hco, ht⟩
  rw [hheap, getElem?_snoc] at ho
  rw [hcur] at hco
  rw [htag]
  rcases ho with ho | ⟨rfl, rfl⟩
  · have hlt := (List.getElem?_eq_some_iff.1 ho).1
    have hne : o.id ≠ id := by
      intro e
      rw [e, Function.update_self] at hco
      injection hco with hco; omega
    rw [Function.update_of_ne hne] at hco
    obtain ⟨a, ha⟩ := hT r t ⟨o, ho, hco, ht⟩
    refine ⟨a, ?_⟩
    have : (r, a) ∈ dropTags s0.byTag (s0.prevOf id) t := by
      rw [mem_dropTags]
      refine ⟨ha, ?_⟩
      intro q oq hq _ e
      injection e with e1 e2
      subst e1
      obtain ⟨hq1, hq2⟩ := prevOf_some.1 hq
      obtain ⟨o', ho', hid⟩ := h.cur id r hq1
      rw [ho] at ho'; injection ho' with ho'; subst ho'
      exact hne hid
    simp only
    split
    · exact Finset.mem_insert_of_mem this
    · exact this
  · refine ⟨id, ?_⟩
    simp only
    rw [if_pos ht]
    exact Finset.mem_insert_self _ _

theorem track_tagsExact {s0 s' : Reg ι τ} (h : Inv s0) (hT : TagsExact s0) {c1 : Int} {id : ι} {ctr : Int}
    {tags : Finset τ} {ph : Bool}
    (hctr : (ctr = -1 ∧ c1 = s0.counter ∧ s0.current id = none) ∨ (s0.counter < ctr ∧ c1 = ctr))
    (hok : track { s0 with counter := c1 } id ctr tags ph = .ok s') : TagsExact s' := by
  obtain ⟨_, hcur⟩ := track_inv h hctr hok
  obtain ⟨hheap, htag⟩ := track_fields hok
  intro r t a hr
  rw [htag] at hr
  have hcase : (r, a) ∈ dropTags s0.byTag (s0.prevOf id) t ∨
      (r = s0.heap.length ∧ a = id ∧ t ∈ (newObj (s0.prevOf id) id ctr tags ph).tags) := by
    simp only at hr
    split at hr
    · rename_i ht
      rcases Finset.mem_insert.1 hr with e | h'
      · injection e with e1 e2; exact .inr ⟨e1, e2, ht⟩
      · exact .inl h'
    · exact .inl hr
  rcases hcase with h' | ⟨rfl, rfl, ht⟩
  · rw [mem_dropTags] at h'
    obtain ⟨o, ho, hoid, hca, hto⟩ := hT r t a h'.1
    have hne : a ≠ id := by
      rintro rfl
      exact h'.2 r o (prevOf_some.2 ⟨hca, ho⟩) hto (by rw [hoid])
    refine ⟨o, ?_, hoid, ?_, hto⟩
    · rw [hheap, getElem?_snoc]; exact .inl ho
    · rw [hcur, Function.update_of_ne hne]; exact hca
  · refine ⟨_, ?_, newObj_id, ?_, ht⟩
    · rw [hheap, getElem?_snoc]; exact .inr ⟨rfl, rfl⟩
    · rw [hcur, Function.update_self]

theorem TagsFound.next {s : Reg ι τ} (h : Inv s) (hT : TagsFound s) (o : Op ι τ) (ho : HostOk s o) :
    TagsFound (next s o) := by
  unfold Registry.next
  cases o with
  | exec id tags v host ph =>
    simp only [step, execCell]
    have hb := hostOk_exec ho
    obtain ⟨s', hs'⟩ := track_ok (tags := tags) (ph := ph) h (c1 := bump s.counter host v) (id := id) (.inr ⟨hb, rfl⟩)
    rw [hs']
    exact track_tagsFound h hT (.inr ⟨hb, rfl⟩) hs'
  | untracked id =>
    simp only [step, untracked]
    by_cases hc : (s.current id).isSome
    · rw [if_pos hc]; exact hT
    · rw [if_neg hc]
      have hc : s.current id = none := by simpa using hc
      obtain ⟨s', hs'⟩ := track_ok (tags := ∅) (ph := false) h (c1 := s.counter) (id := id) (.inl ⟨rfl, rfl, hc⟩)
      have hs'' : track s id (-1) ∅ false = .ok s' := hs'
      rw [hs'']
      exact track_tagsFound h hT (.inl ⟨rfl, rfl, hc⟩) hs'
  | tag cell t =>
    simp only [step, tagCell, Reg.obj]
    cases hb : s.byCtr (cell.elim s.counter id) with
    | none => exact hT
    | some r =>
      cases hr : s.heap[r]? with
      | none => simp only [hr]; exact hT
      | some ob =>
        simp only [hr]
        rintro r' u ⟨o, ho', hco, hu⟩
        simp only [Reg.setObj, List.getElem?_set] at ho' hco ⊢
        by_cases hrr : r = r'
        · subst hrr
          simp only [if_true, (List.getElem?_eq_some_iff.1 hr).1, Option.some.injEq] at ho'
          subst ho'
          simp only at hco hu
          by_cases hut : u = t
          · subst hut; exact ⟨ob.id, by simp⟩
          · rw [Finset.mem_insert] at hu
            obtain ⟨a, ha⟩ := hT r u ⟨ob, hr, hco, hu.resolve_left hut⟩
            exact ⟨a, by rw [if_neg hut]; exact ha⟩
        · rw [if_neg hrr] at ho'
          obtain ⟨a, ha⟩ := hT r' u ⟨o, ho', hco, hu⟩
          refine ⟨a, ?_⟩
          split
          · rename_i e; subst e; exact Finset.mem_insert_of_mem ha
          · exact ha
  | untag cell t =>
    simp only [step, untagCell, Reg.obj]
    cases hb : s.byCtr (cell.elim s.counter id) with
    | none => exact hT
    | some r =>
      cases hr : s.heap[r]? with
      | none => simp only [hr]; exact hT
      | some ob =>
        simp only [hr]
        rintro r' u ⟨o, ho', hco, hu⟩
        simp only [Reg.setObj, List.getElem?_set] at ho' hco ⊢
        by_cases hrr : r = r'
        · subst hrr
          simp only [if_true, (List.getElem?_eq_some_iff.1 hr).1, Option.some.injEq] at ho'
          subst ho'
          simp only at hco hu
          exact hT r u ⟨ob, hr, hco, Finset.mem_of_mem_erase hu⟩
        · rw [if_neg hrr] at ho'
          exact hT r' u ⟨o, ho', hco, hu⟩
  | reactive t =>
    simp only [step, markReactive, Reg.obj]
    cases hb : s.byCtr s.counter with
    | none => exact hT
    | some r =>
      cases hr : s.heap[r]? with
      | none => simp only [hr]; exact hT
      | some ob =>
        simp only [hr]
        rintro r' u ⟨o, ho', hco, hu⟩
        simp only [Reg.setObj, List.getElem?_set] at ho' hco ⊢
        by_cases hrr : r = r'
        · subst hrr
          simp only [if_true, (List.getElem?_eq_some_iff.1 hr).1, Option.some.injEq] at ho'
          subst ho'
          exact hT r u ⟨ob, hr, hco, hu⟩
        · rw [if_neg hrr] at ho'
          exact hT r' u ⟨o, ho', hco, hu⟩
  | rename old new =>
    show TagsFound (rename s old new)
    cases hr : s.current old with
    | none => unfold rename; rw [hr]; exact hT
    | some r =>
      by_cases hn : (s.current new).isSome
      · unfold rename; rw [hr]; simp only [hn, if_true]; exact hT
      have hn : s.current new = none := by simpa using hn
      have hbt : (rename s old new).byTag = s.byTag := by unfold rename; rw [hr]; simp [hn]
      have hcu : (rename s old new).current = Function.update (Function.update s.current old none) new (some r) := by
        unfold rename; rw [hr]; simp [hn]
      rintro r' u ⟨o, ho', hco, hu⟩
      rw [hbt]
      rw [h.rename_heap hr hn] at ho'
      rw [hcu] at hco
      cases hi : s.heap[r']? with
      | none => rw [hi] at ho'; simp at ho'
      | some p =>
        rw [hi] at ho'
        simp only [Option.map_some, Option.some.injEq] at ho'
        by_cases hp : p.id = old
        · rw [if_pos hp] at ho'
          subst ho'
          simp only [Function.update_self, Option.some.injEq] at hco
          subst hco
          exact hT r u ⟨p, hi, by rw [hp]; exact hr, hu⟩
        · rw [if_neg hp] at ho'
          subst ho'
          have hpn : p.id ≠ new := by
            rintro e
            obtain ⟨q, hq, _⟩ := h.chain r' p hi
            rw [e, hn] at hq; simp at hq
          rw [Function.update_of_ne hpn, Function.update_of_ne hp] at hco
          exact hT r' u ⟨p, hi, hco, hu⟩

theorem tagsPlain_cons {s : Reg ι τ} {o : Op ι τ} {ops : List (Op ι τ)} (h : TagsPlain s (o :: ops)) :
    TagOk s o ∧ TagsPlain (next s o) ops := h

theorem TagsExact.next {s : Reg ι τ} (h : Inv s) (hT : TagsExact s) (o : Op ι τ) (ho : HostOk s o) (hp : TagOk s o) :
    TagsExact (next s o) := by
  unfold Registry.next
  cases o with
  | exec id tags v host ph =>
    simp only [step, execCell]
    have hb := hostOk_exec ho
    obtain ⟨s', hs'⟩ := track_ok (tags := tags) (ph := ph) h (c1 := bump s.counter host v) (id := id) (.inr ⟨hb, rfl⟩)
    rw [hs']
    exact track_tagsExact h hT (.inr ⟨hb, rfl⟩) hs'
  | untracked id =>
    simp only [step, untracked]
    by_cases hc : (s.current id).isSome
    · rw [if_pos hc]; exact hT
    · rw [if_neg hc]
      have hc : s.current id = none := by simpa using hc
      obtain ⟨s', hs'⟩ := track_ok (tags := ∅) (ph := false) h (c1 := s.counter) (id := id) (.inl ⟨rfl, rfl, hc⟩)
      have hs'' : track s id (-1) ∅ false = .ok s' := hs'
      rw [hs'']
      exact track_tagsExact h hT (.inl ⟨rfl, rfl, hc⟩) hs'
  | tag cell t =>
    simp only [step, tagCell, Reg.obj]
    cases hb : s.byCtr (cell.elim s.counter id) with
    | none => exact hT
    | some r =>
      cases hr : s.heap[r]? with
      | none => simp only [hr]; exact hT
      | some ob =>
        have hcr : s.current ob.id = some r := by
          cases cell with
          | none => exact h.last_current hb hr
          | some n => exact hp r ob hb hr
        simp only [hr]
        intro r' u a hru
        simp only [Reg.setObj, List.getElem?_set] at hru ⊢
        have hcase : (u = t ∧ r' = r ∧ a = ob.id) ∨ (r', a) ∈ s.byTag u := by
          split at hru
          · rename_i e; subst e
            rcases Finset.mem_insert.1 hru with e | e
            · injection e with e1 e2; exact .inl ⟨rfl, e1, e2⟩
            · exact .inr e
          · exact .inr hru
        rcases hcase with ⟨rfl, rfl, rfl⟩ | h'
        · exact ⟨{ ob with tags := insert u ob.tags }, by simp [(List.getElem?_eq_some_iff.1 hr).1], rfl, hcr, by simp⟩
        · obtain ⟨o, ho', hid, hca, hto⟩ := hT r' u a h'
          by_cases hrr : r = r'
          · subst hrr
            rw [hr] at ho'; injection ho' with ho'; subst ho'
            exact ⟨{ ob with tags := insert t ob.tags }, by simp [(List.getElem?_eq_some_iff.1 hr).1], hid, hca,
              by simp [hto]⟩
          · exact ⟨o, by rw [if_neg hrr]; exact ho', hid, hca, hto⟩
  | untag cell t => exact absurd hp (by simp [TagOk])
  | reactive t =>
    simp only [step, markReactive, Reg.obj]
    cases hb : s.byCtr s.counter with
    | none => exact hT
    | some r =>
      cases hr : s.heap[r]? with
      | none => simp only [hr]; exact hT
      | some ob =>
        simp only [hr]
        intro r' u a hru
        simp only [Reg.setObj, List.getElem?_set] at hru ⊢
        obtain ⟨o, ho', hid, hca, hto⟩ := hT r' u a hru
        by_cases hrr : r = r'
        · subst hrr
          rw [hr] at ho'; injection ho' with ho'; subst ho'
          exact ⟨{ ob with reactive := insert t ob.reactive }, by simp [(List.getElem?_eq_some_iff.1 hr).1], hid, hca, hto⟩
        · exact ⟨o, by rw [if_neg hrr]; exact ho', hid, hca, hto⟩
  | rename old new => exact absurd hp (by simp [TagOk])

theorem tagsFound_run {ops : List (Op ι τ)} {s : Reg ι τ} (h : Inv s) (hT : TagsFound s) (ho : HostAhead s ops) :
    TagsFound (run s ops) := by
  induction ops generalizing s with
  | nil => exact hT
  | cons o ops ih =>
    obtain ⟨h1, h2⟩ := hostAhead_cons ho
    exact ih (h.next o h1) (hT.next h o h1) h2

theorem tagsExact_run {ops : List (Op ι τ)} {s : Reg ι τ} (h : Inv s) (hT : TagsExact s) (ho : HostAhead s ops)
    (hp : TagsPlain s ops) : TagsExact (run s ops) := by
  induction ops generalizing s with
  | nil => exact hT
  | cons o ops ih =>
    obtain ⟨h1, h2⟩ := hostAhead_cons ho
    obtain ⟨p1, p2⟩ := tagsPlain_cons hp
    exact ih (h.next o h1) (hT.next h o h1 p1) h2 p2

end Verif.Registry
