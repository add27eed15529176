import Verif.Rebind.Spec

/-!
# Lemmas for C113: what the two loops have done at any moment
-/

namespace Verif.Rebind
open Verif

theorem has_iff (w : Nat → Obj) (n : Nat) (b : Bool) (k v : Nat) :
    Has w n b k v ↔ retrieve w n k b = .val v := by
  constructor
  · rintro (h | ⟨h, h'⟩)
    · simpa [retrieve] using h
    · simp [retrieve, h, h']
  · intro h
    cases b
    · exact .attr (by simpa [retrieve] using h)
    · cases hd : (w n).defaultdict
      · exact .item hd (by simpa [retrieve, hd] using h)
      · simp [retrieve, hd] at h

theorem misses_iff (w : Nat → Obj) (n : Nat) (b : Bool) (k : Nat) :
    Misses w n b k ↔ retrieve w n k b = (if b then .missItem else .missAttr) := by
  constructor
  · rintro (h | ⟨h, h'⟩)
    · simpa [retrieve] using h
    · simp [retrieve, h, h']
  · intro h
    cases b
    · exact .attr (by simpa [retrieve] using h)
    · cases hd : (w n).defaultdict
      · exact .item hd (by simpa [retrieve, hd] using h)
      · simp [retrieve, hd] at h

theorem refuses_iff (w : Nat → Obj) (n : Nat) (b : Bool) (k : Nat) :
    Refuses w n b k ↔ retrieve w n k b = .typeErr := by
  constructor
  · rintro (h | h | h)
    · simpa [retrieve] using h
    · simp [retrieve, h]
    · simp [retrieve, h]
  · intro h
    cases b
    · exact .attr (by simpa [retrieve] using h)
    · cases hd : (w n).defaultdict
      · exact .item (by simpa [retrieve, hd] using h)
      · exact .default hd

theorem raises_iff (w : Nat → Obj) (n : Nat) (b : Bool) (k : Nat) :
    Raises w n b k ↔ retrieve w n k b = .other := by
  constructor
  · rintro (h | ⟨h, h'⟩)
    · simpa [retrieve] using h
    · simp [retrieve, h, h']
  · intro h
    cases b
    · exact .attr (by simpa [retrieve] using h)
    · cases hd : (w n).defaultdict
      · exact .item hd (by simpa [retrieve, hd] using h)
      · simp [retrieve, hd] at h

theorem mem_rename {names : Nat → List Nat} {c o s y i : Nat} (h : y ≠ s) :
    y ∈ rename names c o s i ↔ y ∈ names i := by
  unfold rename
  dsimp only
  have key : y ∈ (if i = c then (names i).filter (· ≠ s) else names i) ↔ y ∈ names i := by
    split <;> simp [h]
  generalize (if i = c then (names i).filter (· ≠ s) else names i) = l at key ⊢
  by_cases ho : i = o
  · rw [if_pos ho]
    split
    · exact key
    · rw [List.mem_append, key]; simp [h]
  · rw [if_neg ho]; exact key

theorem mem_rename_sub {names : Nat → List Nat} {c o s y i : Nat} (h : y ∈ rename names c o s i) :
    (y ∈ names i ∧ (i = c → y ≠ s)) ∨ (i = o ∧ y = s) := by
  unfold rename at h
  dsimp only at h
  have key : y ∈ (if i = c then (names i).filter (· ≠ s) else names i) → y ∈ names i ∧ (i = c → y ≠ s) := by
    split
    · intro h; simp at h; exact ⟨h.1, fun _ => h.2⟩
    · exact fun h => ⟨h, fun e => absurd e (by assumption)⟩
  generalize (if i = c then (names i).filter (· ≠ s) else names i) = l at key h
  by_cases ho : i = o
  · rw [if_pos ho] at h
    split at h
    · exact .inl (key h)
    · rcases List.mem_append.1 h with h | h
      · exact .inl (key h)
      · exact .inr ⟨ho, by simpa using h⟩
  · rw [if_neg ho] at h; exact .inl (key h)

/-- The state of the loops: `st0` at the start, `st` now. -/
structure Inv (w : Nat → Obj) (c n : Nat) (st0 st : St) : Prop where
  others : ∀ i b, i ≠ c → i ≠ n → st.tab i b = st0.tab i b
  parts : ∀ b k s, Known st0 c b k s ↔ Known st c b k s ∨ Known st n b k s
  excl : ∀ b k s s', Known st c b k s → ¬ Known st n b k s'
  right : ∀ b k s, Known st n b k s → ∃ v, Has w n b k v ∧ (st.sym s).obj = v ∧
    (st.sym s).cached = some v ∧ (st.sym s).home = some n ∧ (st.sym s).path = (st0.sym s).path
  kept : ∀ s, (∀ b k, ¬ Known st n b k s) → st.sym s = st0.sym s
  path : st.path = st0.path
  dead : st.dead = st0.dead
  once : ∀ b, (Assoc.keys (st.tab c b)).Nodup
  names : ∀ y o, (∀ b k, ¬ Known st0 c b k y) → (y ∈ st.names o ↔ y ∈ st0.names o)
  grown : ∀ y o, y ∈ st.names o → y ∈ st0.names o ∨ ∃ b k, Has w n b k o

theorem inv_refl {w : Nat → Obj} {c n : Nat} {st : St} (h1 : ∀ b, (Assoc.keys (st.tab c b)).Nodup)
    (h2 : ∀ b, st.tab n b = []) : Inv w c n st st where
  others := fun _ _ _ _ => rfl
  parts := fun b k s => by simp [Known, h2]
  excl := fun b k s s' _ => by simp [Known, h2]
  right := fun b k s h => by simp [Known, h2] at h
  kept := fun _ _ => rfl
  path := rfl
  dead := rfl
  once := h1
  names := fun _ _ _ => Iff.rfl
  grown := fun _ _ h => .inl h

theorem mem_erase {l : List (Nat × Nat)} {k k' s : Nat} : (k', s) ∈ Assoc.erase l k ↔ (k', s) ∈ l ∧ k' ≠ k := by
  simp [Assoc.erase, List.mem_filter]

theorem mem_keys {l : List (Nat × Nat)} {k : Nat} : k ∈ Assoc.keys l ↔ ∃ s, (k, s) ∈ l := by
  simp [Assoc.keys]

theorem mem_set_new {l : List (Nat × Nat)} {k s k' s' : Nat} (h : k ∉ Assoc.keys l) :
    (k', s') ∈ Assoc.set l k s ↔ (k', s') ∈ l ∨ (k' = k ∧ s' = s) := by
  rw [Assoc.set_of_not_mem h]; simp

theorem known_unique {l : List (Nat × Nat)} (hl : (Assoc.keys l).Nodup) {k s s' : Nat} (h : (k, s) ∈ l)
    (h' : (k, s') ∈ l) : s = s' := by
  rw [← Assoc.get_eq_some_iff hl] at h h'
  rw [h] at h'; exact Option.some.inj h'

theorem known_move_c {st : St} {c n : Nat} (hcn : c ≠ n) {sub : Bool} {k s o : Nat} {b : Bool} {k' s' : Nat} :
    Known (movePart st c n sub k s o) c b k' s' ↔ Known st c b k' s' ∧ (b = sub → k' ≠ k) := by
  unfold Known movePart updatePart
  by_cases hb : b = sub
  · subst hb
    simp only [if_true, if_neg hcn, mem_erase, forall_const]
  · simp only [if_neg hb]; simp [hb]

theorem known_move_n {st : St} {c n : Nat} {sub : Bool} {k s o : Nat} {b : Bool} {k' s' : Nat}
    (h : ∀ s, ¬ Known st n sub k s) :
    Known (movePart st c n sub k s o) n b k' s' ↔ Known st n b k' s' ∨ (b = sub ∧ k' = k ∧ s' = s) := by
  unfold Known movePart updatePart
  by_cases hb : b = sub
  · subst hb
    have : k ∉ Assoc.keys (st.tab n b) := by
      rw [mem_keys]; rintro ⟨s, hs⟩; exact h s hs
    simp only [if_true, mem_set_new this, true_and]
  · simp only [if_neg hb]; simp [hb]

theorem sym_move_ne {st : St} {c n : Nat} {sub : Bool} {k s o s' : Nat} (h : s' ≠ s) :
    (movePart st c n sub k s o).sym s' = st.sym s' := by
  simp [movePart, updatePart, h]

theorem sym_move_self {st : St} {c n : Nat} {sub : Bool} {k s o : Nat} :
    (movePart st c n sub k s o).sym s = { st.sym s with obj := o, cached := some o, home := some n } := by
  simp [movePart, updatePart]

theorem inv_step {w : Nat → Obj} {c n : Nat} {st0 st : St} (hcn : c ≠ n) (h : Inv w c n st0 st)
    (hap : ∀ b k s b' k', Known st0 c b k s → Known st0 c b' k' s → b = b' ∧ k = k')
    {sub : Bool} {k s v : Nat} (hk : Known st c sub k s) (hv : retrieve w n k sub = .val v) :
    Inv w c n st0 (movePart st c n sub k s v) := by
  have hn : ∀ s, ¬ Known st n sub k s := fun s' => h.excl sub k s s' hk
  have hs0 : Known st0 c sub k s := (h.parts _ _ _).2 (.inl hk)
  have hsn : ∀ b k', ¬ Known st n b k' s := by
    intro b k' hb
    obtain ⟨rfl, rfl⟩ := hap _ _ _ _ _ hs0 ((h.parts _ _ _).2 (.inr hb))
    exact hn s hb
  refine ⟨?_, ?_, ?_, ?_, ?_, h.path, h.dead, ?_, ?_, ?_⟩
  · intro i b hi hi'
    have : (movePart st c n sub k s v).tab i b = st.tab i b := by
      simp [movePart, updatePart, hi, hi']
    rw [this]; exact h.others i b hi hi'
  · intro b k' s'
    rw [h.parts, known_move_c hcn, known_move_n hn]
    constructor
    · rintro (hc | hn')
      · by_cases he : b = sub ∧ k' = k
        · obtain ⟨rfl, rfl⟩ := he
          have := known_unique (h.once b) hk hc
          subst this; exact .inr (.inr ⟨rfl, rfl, rfl⟩)
        · exact .inl ⟨hc, fun hb hk' => he ⟨hb, hk'⟩⟩
      · exact .inr (.inl hn')
    · rintro (⟨hc, -⟩ | hn' | ⟨rfl, rfl, rfl⟩)
      · exact .inl hc
      · exact .inr hn'
      · exact .inl hk
  · intro b k' s1 s2 h1 h2
    rw [known_move_c hcn] at h1
    rw [known_move_n hn] at h2
    rcases h2 with h2 | ⟨rfl, rfl, rfl⟩
    · exact h.excl _ _ _ _ h1.1 h2
    · exact h1.2 rfl rfl
  · intro b k' s' h'
    rw [known_move_n hn] at h'
    rcases h' with h' | ⟨rfl, rfl, rfl⟩
    · have hne : s' ≠ s := by rintro rfl; exact hsn _ _ h'
      rw [sym_move_ne hne]; exact h.right _ _ _ h'
    · refine ⟨v, (has_iff ..).2 hv, ?_⟩
      rw [sym_move_self, h.kept _ hsn]
      exact ⟨rfl, rfl, rfl, rfl⟩
  · intro s' h'
    have hne : s' ≠ s := by
      rintro rfl
      exact h' sub k ((known_move_n hn).2 (.inr ⟨rfl, rfl, rfl⟩))
    rw [sym_move_ne hne]
    exact h.kept s' fun b k' hb => h' b k' ((known_move_n hn).2 (.inl hb))
  · intro b
    by_cases hb : b = sub
    · subst hb
      have : (movePart st c n b k s v).tab c b = Assoc.erase (st.tab c b) k := by
        simp [movePart, updatePart, hcn]
      rw [this]; exact Assoc.nodup_erase (h.once b) k
    · have : (movePart st c n sub k s v).tab c b = st.tab c b := by
        simp [movePart, updatePart, hb]
      rw [this]; exact h.once b
  · intro y o hy
    have hne : y ≠ s := by rintro rfl; exact hy _ _ hs0
    rw [← h.names y o hy]
    have : (movePart st c n sub k s v).names = (updatePart st s v).names := rfl
    rw [this]
    unfold updatePart
    dsimp only
    cases hc : (st.sym s).cached with
    | none => exact Iff.rfl
    | some c' =>
      dsimp only
      split
      · exact Iff.rfl
      · exact mem_rename hne
  · intro y o hy
    have : (movePart st c n sub k s v).names = (updatePart st s v).names := rfl
    rw [this] at hy
    unfold updatePart at hy
    dsimp only at hy
    cases hc : (st.sym s).cached with
    | none => rw [hc] at hy; exact h.grown y o hy
    | some c' =>
      rw [hc] at hy
      dsimp only at hy
      split at hy
      · exact h.grown y o hy
      · rcases mem_rename_sub hy with hy | ⟨rfl, -⟩
        · exact h.grown y o hy.1
        · exact .inr ⟨_, _, (has_iff ..).2 hv⟩

/-- What is at the new place stays there, and what has not been looked at stays at the old one. -/
theorem moveTable_inv {w : Nat → Obj} {c n : Nat} {st0 : St} (hcn : c ≠ n)
    (hap : ∀ b k s b' k', Known st0 c b k s → Known st0 c b' k' s → b = b' ∧ k = k') {sub b' : Bool} :
    ∀ (l : List (Nat × Nat)) (st st' : St), Inv w c n st0 st → (∀ k s, (k, s) ∈ l → Known st c sub k s) →
      (Assoc.keys l).Nodup → moveTable w c n sub st l = .ok st' →
      Inv w c n st0 st' ∧ (∀ b k s, Known st n b k s → Known st' n b k s) ∧
        (∀ k s, b' ≠ sub → Known st c b' k s → Known st' c b' k s) ∧
        ((∀ k s, (k, s) ∈ l → retrieve w n k sub ≠ .typeErr) →
          ∀ k s v, (k, s) ∈ l → Has w n sub k v → Known st' n sub k s)
  | [], st, st', h, _, _, he => by
    simp only [moveTable] at he
    injection he with he; subst he
    exact ⟨h, fun _ _ _ h => h, fun _ _ _ h => h, fun _ _ _ _ h => by simp at h⟩
  | (k, s) :: l, st, st', h, hl, hnd, he => by
    have hk : Known st c sub k s := hl k s (by simp)
    simp only [Assoc.keys, List.map_cons, List.nodup_cons] at hnd
    have hl' : ∀ k' s', (k', s') ∈ l → Known st c sub k' s' := fun k' s' hm => hl k' s' (by simp [hm])
    have hskip : moveTable w c n sub st l = .ok st' → (∀ v, retrieve w n k sub ≠ .val v) → Inv w c n st0 st' ∧ (∀ b k s, Known st n b k s → Known st' n b k s) ∧
        (∀ k s, b' ≠ sub → Known st c b' k s → Known st' c b' k s) ∧
        ((∀ k' s', (k', s') ∈ (k, s) :: l → retrieve w n k' sub ≠ .typeErr) →
          ∀ k' s' v, (k', s') ∈ (k, s) :: l → Has w n sub k' v → Known st' n sub k' s') := by
      intro he hnv
      obtain ⟨h1, h2, h2', h3⟩ := moveTable_inv hcn hap l st st' h hl' hnd.2 he
      refine ⟨h1, h2, h2', fun ht k' s' v hm hv => ?_⟩
      rcases List.mem_cons.1 hm with hm | hm
      · injection hm with e1 e2; subst e1; subst e2
        exact absurd ((has_iff ..).1 hv) (hnv v)
      · exact h3 (fun k' s' hm => ht k' s' (List.mem_cons_of_mem _ hm)) k' s' v hm hv
    unfold moveTable at he
    cases hr : retrieve w n k sub with
    | val o =>
      rw [hr] at he
      dsimp only at he
      have hn : ∀ s, ¬ Known st n sub k s := fun s' => h.excl sub k s s' hk
      obtain ⟨h1, h2, h2', h3⟩ := moveTable_inv hcn hap l _ st' (inv_step hcn h hap hk hr)
        (fun k' s' hm => by
          rw [known_move_c hcn]
          refine ⟨hl' k' s' hm, fun _ e => ?_⟩
          subst e
          exact hnd.1 (List.mem_map.2 ⟨_, hm, rfl⟩)) hnd.2 he
      refine ⟨h1, fun b k' s' hb => h2 _ _ _ ((known_move_n hn).2 (.inl hb)),
        fun k' s' hb hk' => h2' k' s' hb ((known_move_c hcn).2 ⟨hk', fun e => absurd e hb⟩), fun ht k' s' v hm hv => ?_⟩
      rcases List.mem_cons.1 hm with hm | hm
      · injection hm with e1 e2; subst e1; subst e2
        exact h2 _ _ _ ((known_move_n hn).2 (.inr ⟨rfl, rfl, rfl⟩))
      · exact h3 (fun k' s' hm => ht k' s' (List.mem_cons_of_mem _ hm)) k' s' v hm hv
    | missAttr =>
      rw [hr] at he
      dsimp only at he
      cases sub
      · exact hskip (by simpa using he) (by simp [hr])
      · simp at he
    | missItem =>
      rw [hr] at he
      dsimp only at he
      cases sub
      · simp at he
      · exact hskip (by simpa using he) (by simp [hr])
    | typeErr =>
      rw [hr] at he
      dsimp only at he
      injection he with he; subst he
      exact ⟨h, fun _ _ _ h => h, fun _ _ _ h => h, fun ht => absurd hr (ht k s (by simp))⟩
    | other =>
      rw [hr] at he
      simp at he

theorem moveTable_ok {w : Nat → Obj} {c n : Nat} {sub : Bool} :
    ∀ (l : List (Nat × Nat)) (st : St),
      (∀ k s, (k, s) ∈ l → (∃ v, Has w n sub k v) ∨ Misses w n sub k ∨ retrieve w n k sub = .typeErr) →
      ∃ st', moveTable w c n sub st l = .ok st'
  | [], st, _ => ⟨st, rfl⟩
  | (k, s) :: l, st, h => by
    have hl : ∀ k s, (k, s) ∈ l → (∃ v, Has w n sub k v) ∨ Misses w n sub k ∨ retrieve w n k sub = .typeErr :=
      fun k s hm => h k s (List.mem_cons_of_mem _ hm)
    unfold moveTable
    rcases h k s (by simp) with ⟨v, hv⟩ | hm | ht
    · rw [(has_iff ..).1 hv]; exact moveTable_ok l _ hl
    · rw [(misses_iff ..).1 hm]
      cases sub
      · exact moveTable_ok l _ hl
      · exact moveTable_ok l _ hl
    · rw [ht]; exact ⟨_, rfl⟩

theorem moveTable_fails {w : Nat → Obj} {c n : Nat} {sub : Bool} :
    ∀ (l : List (Nat × Nat)) (st : St), (∀ k s, (k, s) ∈ l → retrieve w n k sub ≠ .typeErr) →
      ∀ k s, (k, s) ∈ l → retrieve w n k sub = .other → moveTable w c n sub st l = .error .crash
  | [], _, _, _, _, h, _ => by simp at h
  | (k', s') :: l, st, ht, k, s, hm, ho => by
    have hl : ∀ k s, (k, s) ∈ l → retrieve w n k sub ≠ .typeErr := fun k s hm => ht k s (List.mem_cons_of_mem _ hm)
    unfold moveTable
    rcases List.mem_cons.1 hm with hm | hm
    · injection hm with e1 e2; subst e1; subst e2
      rw [ho]
    · cases hr : retrieve w n k' sub with
      | val o => exact moveTable_fails l _ hl k s hm ho
      | missAttr => cases sub
                    · exact moveTable_fails l _ hl k s hm ho
                    · rfl
      | missItem => cases sub
                    · rfl
                    · exact moveTable_fails l _ hl k s hm ho
      | typeErr => exact absurd hr (ht k' s' (by simp))
      | other => rfl

/-- After a transfer to an object that had no namespace. -/
theorem transfer_inv {w : Nat → Obj} {c n : Nat} {st st' : St} (hw : Wf st) (hcn : c ≠ n)
    (h : transfer w c n (fresh st c n) = .ok st') :
    Inv w c n (fresh st c n) st' ∧
      ((∀ b k s, Known st c b k s → ¬ Refuses w n b k) →
        ∀ b k s v, Known st c b k s → Has w n b k v → Known st' n b k s) := by
  have hkf : ∀ b k s, Known (fresh st c n) c b k s ↔ Known st c b k s := by
    intro b k s; simp [Known, fresh, hcn]
  have hap : ∀ b k s b' k', Known (fresh st c n) c b k s → Known (fresh st c n) c b' k' s → b = b' ∧ k = k' := by
    intro b k s b' k' h1 h2
    exact (hw.apart _ _ _ _ _ _ _ ((hkf ..).1 h1) ((hkf ..).1 h2)).2
  have h0 : Inv w c n (fresh st c n) (fresh st c n) := by
    refine inv_refl ?_ ?_
    · intro b; simpa [fresh, hcn] using hw.once c b
    · intro b; simp [fresh]
  unfold transfer at h
  cases h1 : moveTable w c n false (fresh st c n) ((fresh st c n).tab c false) with
  | error e => rw [h1] at h; simp at h
  | ok st1 =>
    rw [h1] at h
    dsimp only at h
    obtain ⟨i1, -, k1, m1⟩ := moveTable_inv (b' := true) hcn hap _ _ _ h0 (fun k s h => h) (h0.once false) h1
    obtain ⟨i2, m2, -, m3⟩ := moveTable_inv (b' := true) hcn hap _ _ _ i1 (fun k s h => h) (i1.once true) h
    refine ⟨i2, fun ht b k s v hk hv => ?_⟩
    cases b
    · refine m2 _ _ _ (m1 (fun k s hm => ?_) k s v ((hkf ..).2 hk) hv)
      exact fun e => ht false k s ((hkf ..).1 hm) ((refuses_iff ..).2 e)
    · refine m3 (fun k s hm => ?_) k s v (k1 k s (by simp) ((hkf ..).2 hk)) hv
      have : Known (fresh st c n) c true k s := (i1.parts _ _ _).2 (.inl hm)
      exact fun e => ht true k s ((hkf ..).1 this) ((refuses_iff ..).2 e)

end Verif.Rebind
