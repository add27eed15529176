import Verif.Lint.Lemmas

/-!
# Sessions -/

namespace Verif.Lint
open Verif

/-- The uses of a list of executions. -/
def usesOf (ex : List Exec) (k : Nat) (u : Use) : Prop := ∃ e ∈ ex, e.num = k ∧ u ∈ e.uses

/-- What the state has to do with the executions. -/
structure Inv (σ : State) (env : Env) (ex : List Exec) : Prop where
  ctr : σ.ctr = ex.length
  num : ∀ e ∈ ex, 1 ≤ e.num ∧ e.num ≤ ex.length
  nodup : (ex.map (·.num)).Nodup
  all : ∀ k, 1 ≤ k → k ≤ ex.length → ∃ e ∈ ex, e.num = k
  cellAt : ∀ k id, σ.cellAt k = some id ↔ ∃ e ∈ ex, e.num = k ∧ e.id = id
  keys : (Assoc.keys σ.cells).Nodup
  cells : ∀ id k, Assoc.get σ.cells id = some k ↔ ∃ e ∈ ex, e.id = id ∧ e.num = k ∧ ∀ e' ∈ ex, e'.id = id → e'.num ≤ k
  envs : ∀ x q, env x = some q → 1 ≤ q ∧ q ≤ ex.length
  setters : ∀ e ∈ ex, ∀ u ∈ e.uses, 1 ≤ u.setter ∧ u.setter ≤ ex.length
  syms : SymInv σ.syms env (usesOf ex) (ex.length + 1, 0)

theorem inv_init : Inv .init (fun _ => none) [] := by
  refine ⟨rfl, by simp, by simp, ?_, by simp [State.init], by simp [State.init, Assoc.keys], by simp [State.init], by simp, by simp, ?_⟩
  · intro k h1 h2
    simp at h2
    omega
  · refine ⟨by simp [State.init, Assoc.keys], by simp [State.init], by simp [State.init], by simp [State.init], by simp [State.init], ?_, ?_⟩ <;>
      simp [usesOf]

theorem inv_run {σ env ex} (h : Inv σ env ex) (id code) :
    Inv (runCell σ id code) (trace (ex.length + 1) 0 code env).1 (⟨ex.length + 1, id, (trace (ex.length + 1) 0 code env).2⟩ :: ex) := by
  have hb := trace_bound (ex.length + 1) (by omega) code (i := 0) (env := env) (fun x q hq => by
    have := h.envs x q hq
    omega)
  refine ⟨?_, ?_, ?_, ?_, ?_, Assoc.nodup_set h.keys _ _, ?_, ?_, ?_, ?_⟩
  · show σ.ctr + 1 = _
    rw [h.ctr]; rfl
  · intro e he
    rw [List.length_cons]
    rcases List.mem_cons.1 he with rfl | he
    · dsimp only; omega
    · have := h.num e he
      omega
  · rw [List.map_cons, List.nodup_cons]
    refine ⟨?_, h.nodup⟩
    intro hm
    obtain ⟨e, he, h1⟩ := List.mem_map.1 hm
    have := h.num e he
    dsimp only at h1
    omega
  · intro k h1 h2
    rw [List.length_cons] at h2
    by_cases hk : k = ex.length + 1
    · exact ⟨_, List.mem_cons_self, hk.symm⟩
    · obtain ⟨e, he, h3⟩ := h.all k h1 (by omega)
      exact ⟨e, List.mem_cons_of_mem _ he, h3⟩
  · intro k i
    show (if k = σ.ctr + 1 then some id else σ.cellAt k) = some i ↔ _
    rw [h.ctr]
    by_cases hk : k = ex.length + 1
    · rw [if_pos hk]
      constructor
      · intro hi
        exact ⟨_, List.mem_cons_self, hk.symm, Option.some.inj hi⟩
      · rintro ⟨e, he, h1, h2⟩
        rcases List.mem_cons.1 he with rfl | he
        · rw [← h2]
        · have := h.num e he
          omega
    · rw [if_neg hk, h.cellAt]
      constructor
      · rintro ⟨e, he, h1⟩
        exact ⟨e, List.mem_cons_of_mem _ he, h1⟩
      · rintro ⟨e, he, h1, h2⟩
        rcases List.mem_cons.1 he with rfl | he
        · exact absurd h1.symm hk
        · exact ⟨e, he, h1, h2⟩
  · intro i k
    show Assoc.get (Assoc.set σ.cells id (σ.ctr + 1)) i = some k ↔ _
    rw [Assoc.get_set, h.ctr]
    by_cases hi : i = id
    · rw [if_pos hi]
      constructor
      · intro hk
        refine ⟨_, List.mem_cons_self, hi.symm, Option.some.inj hk, ?_⟩
        intro e' he' _
        rw [← Option.some.inj hk]
        rcases List.mem_cons.1 he' with rfl | he'
        · exact Nat.le_refl _
        · have := h.num e' he'
          omega
      · rintro ⟨e, he, h1, h2, h3⟩
        have := h3 _ List.mem_cons_self hi.symm
        dsimp only at this
        rcases List.mem_cons.1 he with rfl | he
        · rw [← h2]
        · have := h.num e he
          omega
    · rw [if_neg hi, h.cells]
      constructor
      · rintro ⟨e, he, h1, h2, h3⟩
        refine ⟨e, List.mem_cons_of_mem _ he, h1, h2, ?_⟩
        intro e' he' h4
        rcases List.mem_cons.1 he' with rfl | he'
        · exact absurd h4.symm hi
        · exact h3 e' he' h4
      · rintro ⟨e, he, h1, h2, h3⟩
        rcases List.mem_cons.1 he with rfl | he
        · exact absurd h1.symm hi
        · exact ⟨e, he, h1, h2, fun e' he' => h3 e' (List.mem_cons_of_mem _ he')⟩
  · exact hb.1
  · intro e he u hu
    rw [List.length_cons]
    rcases List.mem_cons.1 he with rfl | he
    · exact hb.2 u hu
    · have := h.setters e he u hu
      omega
  · show SymInv (runStmts (σ.ctr + 1) 0 code σ.syms) _ _ _
    rw [h.ctr, List.length_cons]
    refine (runStmts_inv (ex.length + 1) code h.syms).congr ?_
    intro k u
    unfold usesOf
    constructor
    · rintro (⟨e, he, h1⟩ | ⟨h1, h2⟩)
      · exact ⟨e, List.mem_cons_of_mem _ he, h1⟩
      · exact ⟨_, List.mem_cons_self, h1.symm, h2⟩
    · rintro ⟨e, he, h1, h2⟩
      rcases List.mem_cons.1 he with rfl | he
      · exact Or.inr ⟨h1.symm, h2⟩
      · exact Or.inl ⟨e, he, h1, h2⟩

theorem inv_of : ∀ h, Inv (run h) (replay h).1 (replay h).2
  | [] => inv_init
  | .run id code :: h => inv_run (inv_of h) id code
  | .order ids :: h => by
    have ih := inv_of h
    exact ⟨ih.ctr, ih.num, ih.nodup, ih.all, ih.cellAt, ih.keys, ih.cells, ih.envs, ih.setters, ih.syms⟩
  | .direction b :: h => by
    have ih := inv_of h
    exact ⟨ih.ctr, ih.num, ih.nodup, ih.all, ih.cellAt, ih.keys, ih.cells, ih.envs, ih.setters, ih.syms⟩

/-! ### The list -/

theorem cellByCtr_iff {σ env ex} (h : Inv σ env ex) (k c : Nat) : cellByCtr σ.cells k = some c ↔ Assoc.get σ.cells c = some k := by
  unfold cellByCtr
  constructor
  · intro hc
    obtain ⟨p, hp, rfl⟩ := Option.map_eq_some_iff.1 hc
    have h1 := List.mem_of_find?_eq_some hp
    have h2 : p.2 = k := by simpa using List.find?_some hp
    rw [Assoc.get_eq_some_iff h.keys, ← h2]
    exact h1
  · intro hc
    have hm := Assoc.mem_of_get hc
    rcases hf : σ.cells.find? (fun p => p.2 = k) with _ | p
    · rw [List.find?_eq_none] at hf
      exact absurd (by simp) (hf _ hm)
    · have h1 := List.mem_of_find?_eq_some hf
      have h2 : p.2 = k := by simpa using List.find?_some hf
      refine Option.map_eq_some_iff.2 ⟨p, hf, ?_⟩
      have h3 : Assoc.get σ.cells p.1 = some k := by
        rw [Assoc.get_eq_some_iff h.keys, ← h2]; exact h1
      obtain ⟨e, he, he1, he2, _⟩ := (h.cells _ _).1 h3
      obtain ⟨e', he', he1', he2', _⟩ := (h.cells _ _).1 hc
      have := List.inj_on_of_nodup_map h.nodup he he' (he2.trans he2'.symm)
      rw [← he1, this, he1']

/-- An entry is made for a use of a symbol. -/
def Made (σ : State) (x : Nat) (s : Sym) (u : Time × Time) (v : Entry) : Prop :=
  v.name = x ∧ v.setter = u.2.1 ∧ cellByCtr σ.cells u.1.1 = some v.cell ∧ Assoc.get s.node u.1 = some v.place ∧
    ∃ d, σ.cellAt u.2.1 = some d ∧ (position σ d).le (position σ v.cell) = false

theorem lintOne_spec (σ : State) (x : Nat) (s : Sym) (u : Time × Time) (hu : (σ.cellAt u.2.1).isSome) :
    ∃ l, lintOne σ x s u = .ok l ∧ ∀ v, v ∈ l ↔ Made σ x s u v := by
  unfold lintOne Made
  rcases hc : cellByCtr σ.cells u.1.1 with _ | c
  · exact ⟨[], rfl, by simp⟩
  · rcases hd : σ.cellAt u.2.1 with _ | d
    · rw [hd] at hu; simp at hu
    · dsimp only
      by_cases hp : (position σ d).le (position σ c) = true
      · rw [if_pos hp]
        refine ⟨[], rfl, fun v => ⟨fun h => by simp at h, ?_⟩⟩
        rintro ⟨_, _, h1, _, d', h2, h3⟩
        obtain rfl := Option.some.inj h1
        obtain rfl := Option.some.inj h2
        rw [hp] at h3
        exact absurd h3 (by simp)
      · rw [if_neg hp]
        rcases hn : Assoc.get s.node u.1 with _ | n
        · exact ⟨[], rfl, by simp⟩
        · refine ⟨[⟨c, x, n, u.2.1⟩], rfl, fun v => ?_⟩
          rw [List.mem_singleton]
          constructor
          · rintro rfl
            exact ⟨rfl, rfl, rfl, rfl, d, rfl, by simpa using hp⟩
          · rintro ⟨h1, h2, h3, h4, _⟩
            obtain ⟨a, b, c', d'⟩ := v
            dsimp only at h1 h2 h3 h4
            rw [h1, h2, ← Option.some.inj h3, ← Option.some.inj h4]

theorem lintSym_spec (σ : State) (x : Nat) (s : Sym) : ∀ us : List (Time × Time), (∀ u ∈ us, (σ.cellAt u.2.1).isSome) →
    ∃ l, lintSym σ x s us = .ok l ∧ ∀ v, v ∈ l ↔ ∃ u ∈ us, Made σ x s u v
  | [], _ => ⟨[], rfl, by simp⟩
  | u :: us, h => by
    obtain ⟨l, h1, h2⟩ := lintOne_spec σ x s u (h u List.mem_cons_self)
    obtain ⟨l', h3, h4⟩ := lintSym_spec σ x s us (fun u hu => h u (List.mem_cons_of_mem _ hu))
    refine ⟨l ++ l', ?_, fun v => ?_⟩
    · rw [lintSym, h1]
      dsimp only
      rw [h3]
    · rw [List.mem_append, h2, h4]
      constructor
      · rintro (h | ⟨u', hu', h⟩)
        · exact ⟨u, List.mem_cons_self, h⟩
        · exact ⟨u', List.mem_cons_of_mem _ hu', h⟩
      · rintro ⟨u', hu', hm⟩
        rcases List.mem_cons.1 hu' with rfl | hu'
        · exact Or.inl hm
        · exact Or.inr ⟨u', hu', hm⟩

theorem lintAll_spec (σ : State) : ∀ ps : List (Nat × Sym), (∀ p ∈ ps, ∀ u ∈ p.2.used, (σ.cellAt u.2.1).isSome) →
    ∃ l, lintAll σ ps = .ok l ∧ ∀ v, v ∈ l ↔ ∃ p ∈ ps, ∃ u ∈ p.2.used, Made σ p.1 p.2 u v
  | [], _ => ⟨[], rfl, by simp⟩
  | p :: ps, h => by
    obtain ⟨l, h1, h2⟩ := lintSym_spec σ p.1 p.2 p.2.used (h p List.mem_cons_self)
    obtain ⟨l', h3, h4⟩ := lintAll_spec σ ps (fun u hu => h u (List.mem_cons_of_mem _ hu))
    refine ⟨l ++ l', ?_, fun v => ?_⟩
    · rw [lintAll, h1]
      dsimp only
      rw [h3]
    · rw [List.mem_append, h2, h4]
      constructor
      · rintro (h | ⟨u', hu', h⟩)
        · exact ⟨p, List.mem_cons_self, h⟩
        · exact ⟨u', List.mem_cons_of_mem _ hu', h⟩
      · rintro ⟨u', hu', hm⟩
        rcases List.mem_cons.1 hu' with rfl | hu'
        · exact Or.inl hm
        · exact Or.inr ⟨u', hu', hm⟩

/-- The list exists, and what is in it, in terms of the executions and what symbols note. -/
theorem lint_spec (h : List Event) : ∃ l, lint (run h) = .ok l ∧ ∀ v, v ∈ l ↔
    ∃ s t w, Assoc.get (run h).syms v.name = some s ∧ Assoc.get s.used t = some w ∧ Made (run h) v.name s (t, w) v := by
  have hi := inv_of h
  have hok : ∀ p ∈ (run h).syms, ∀ u ∈ p.2.used, ((run h).cellAt u.2.1).isSome := by
    intro p hp u hu
    have h1 : Assoc.get (run h).syms p.1 = some p.2 := (Assoc.get_eq_some_iff hi.syms.nodup).2 hp
    have h2 : Assoc.get p.2.used u.1 = some u.2 := (Assoc.get_eq_some_iff (hi.syms.keys _ _ h1)).2 hu
    obtain ⟨_, _, e, he, _, h3⟩ := hi.syms.noted _ _ h1 _ _ h2
    have h4 := hi.setters e he _ h3
    obtain ⟨e', he', h5⟩ := hi.all _ h4.1 h4.2
    rw [(hi.cellAt u.2.1 e'.id).2 ⟨e', he', h5, rfl⟩]
    rfl
  obtain ⟨l, h1, h2⟩ := lintAll_spec (run h) (run h).syms hok
  refine ⟨l, h1, fun v => ?_⟩
  rw [h2]
  constructor
  · rintro ⟨p, hp, u, hu, hm⟩
    have h3 : Assoc.get (run h).syms p.1 = some p.2 := (Assoc.get_eq_some_iff hi.syms.nodup).2 hp
    refine ⟨p.2, u.1, u.2, ?_, (Assoc.get_eq_some_iff (hi.syms.keys _ _ h3)).2 hu, ?_⟩
    · rw [hm.1]; exact h3
    · rw [hm.1]; exact hm
  · rintro ⟨s, t, w, h3, h4, hm⟩
    exact ⟨(v.name, s), Assoc.mem_of_get h3, (t, w), Assoc.mem_of_get h4, hm⟩

/-! ### Positions -/

theorem get_indices : ∀ (l : List Nat) (n i : Nat), i ∈ l → Assoc.get (indices n l) i = some (.at (n + l.idxOf i))
  | [], _, _, h => by simp at h
  | j :: l, n, i, h => by
    rw [indices, Assoc.get]
    by_cases hj : j = i
    · subst hj
      simp
    · rw [if_neg hj, get_indices l (n + 1) i ((List.mem_cons.1 h).resolve_left (fun h => hj h.symm)), List.idxOf_cons_ne _ hj]
      congr 2
      omega

theorem get_append_left {α β : Type} [DecidableEq α] {l l' : List (α × β)} {k : α} {v : β} (h : Assoc.get l k = some v) : Assoc.get (l ++ l') k = some v := by
  induction l with
  | nil => simp at h
  | cons p l ih =>
    rw [List.cons_append]
    rw [Assoc.get] at h ⊢
    split
    · rename_i hp; rw [if_pos hp] at h; exact h
    · rename_i hp; rw [if_neg hp] at h; exact ih h

theorem position_of : ∀ (h : List Event) (i : Nat), i ∈ lastOrder h → position (run h) i = .at ((lastOrder h).idxOf i)
  | [], _, hi => by simp [lastOrder] at hi
  | .run _ _ :: h, i, hi => position_of h i hi
  | .direction _ :: h, i, hi => position_of h i hi
  | .order ids :: h, i, hi => by
    have h1 : Assoc.get (indices 0 ids) i = some (.at (ids.idxOf i)) := by
      rw [get_indices ids 0 i hi, Nat.zero_add]
    show (Assoc.get (setPositions (run h).inOrder (run h).pos (indices 0 ids)) i).getD .unknown = .at (ids.idxOf i)
    unfold setPositions
    split
    · rw [get_append_left h1]; rfl
    · rw [h1]; rfl

theorem below_iff {l : List Nat} (hn : l.Nodup) {c d : Nat} (hc : c ∈ l) (hd : d ∈ l) : Below l c d ↔ l.idxOf c < l.idxOf d := by
  constructor
  · rintro ⟨a, b, e, rfl⟩
    rw [List.append_assoc, List.cons_append] at hn ⊢
    have hca : c ∉ a := fun h => (List.disjoint_of_nodup_append hn) h (by simp)
    have hda : d ∉ a := fun h => (List.disjoint_of_nodup_append hn) h (by simp)
    have h2 := (List.nodup_append.1 hn).2.1
    rw [List.nodup_cons] at h2
    have hcd : c ≠ d := fun h => h2.1 (by simp [h])
    rw [List.idxOf_append_of_notMem hca, List.idxOf_append_of_notMem hda, List.idxOf_cons_self, List.idxOf_cons_ne _ hcd]
    omega
  · intro h
    obtain ⟨a, r, rfl, hca⟩ := List.append_of_mem hc |>.elim fun a h => h.elim fun r h => (⟨a, r, h, by
      rintro hm
      rw [h] at hn
      exact (List.disjoint_of_nodup_append hn) hm (by simp)⟩ : ∃ a r, l = a ++ c :: r ∧ c ∉ a)
    rw [List.idxOf_append_of_notMem hca, List.idxOf_cons_self] at h
    have hda : d ∉ a := by
      intro hm
      rw [List.idxOf_append_of_mem hm] at h
      have := List.idxOf_lt_length_iff.2 hm
      omega
    have hdr : d ∈ r := by
      rcases List.mem_append.1 hd with hd | hd
      · exact absurd hd hda
      · rcases List.mem_cons.1 hd with rfl | hd
        · rw [List.idxOf_append_of_notMem hca, List.idxOf_cons_self] at h
          omega
        · exact hd
    obtain ⟨b, e, rfl⟩ := List.append_of_mem hdr
    exact ⟨a, b, e, by simp⟩

end Verif.Lint
