import Verif.Saved.Lemmas

/-!
# What holds during a session -/

namespace Verif.Saved
open Verif Verif.Slice Verif.Sched

/-! ## Edges -/

theorem addEdge_same (k : Kern) (x : Ctx) (c p : Id) (s : Sym) :
    (addEdge k x c p s).cells = k.cells ∧ (addEdge k x c p s).prev = k.prev ∧ (addEdge k x c p s).pos = k.pos ∧ (addEdge k x c p s).ctr = k.ctr ∧
      (addEdge k x c p s).runs = k.runs ∧ (addEdge k x c p s).flow = k.flow := by
  unfold addEdge
  split
  · exact ⟨rfl, rfl, rfl, rfl, rfl, rfl⟩
  · split <;> exact ⟨rfl, rfl, rfl, rfl, rfl, rfl⟩

theorem addEdge_par_other {k : Kern} {x : Ctx} {c p : Id} {s : Sym} {y : Ctx} {i : Id} (h : ¬(y = x ∧ i = c)) : (addEdge k x c p s).par y i = k.par y i := by
  unfold addEdge
  split
  · rfl
  · split
    · exact inherit_other h _ _
    · exact touch_other h

theorem addEdge_uniq {k : Kern} (h : Uniq k.par) (x : Ctx) (c p : Id) (s : Sym) : Uniq (addEdge k x c p s).par := by
  unfold addEdge
  split
  · exact h
  · split
    · exact uniq_inherit _ _ h
    · exact uniq_touch h _ _ _ _

/-- Edges of a cell without a previous run only grow. -/
theorem addEdge_grow {k : Kern} {x : Ctx} {c p : Id} {s : Sym} {y : Ctx} {i j : Id} (hp : ∀ z, k.prev z i = []) {S : Finset Sym} (h : Assoc.get (k.par y i) j = some S) :
    ∃ S', Assoc.get ((addEdge k x c p s).par y i) j = some S' ∧ S ⊆ S' := by
  by_cases hc : y = x ∧ i = c
  · obtain ⟨rfl, rfl⟩ := hc
    unfold addEdge
    split
    · exact ⟨S, h, fun _ h => h⟩
    · split
      · refine ⟨S, ?_, fun _ h => h⟩
        show Assoc.get (inherit k.par y i s (k.prev y i) y i) j = some S
        rw [hp]; exact h
      · show ∃ S', Assoc.get (touch k.par y i p {s} y i) j = some S' ∧ S ⊆ S'
        rw [touch_same, Assoc.get_set]
        by_cases hj : j = p
        · subst hj
          rw [if_pos rfl, h]
          exact ⟨_, rfl, Finset.subset_union_left⟩
        · rw [if_neg hj]; exact ⟨S, h, fun _ h => h⟩
  · rw [addEdge_par_other hc]; exact ⟨S, h, fun _ h => h⟩

/-- An edge is there after it was added, unless the parent is a child. -/
theorem addEdge_added {k : Kern} {x : Ctx} {c p : Id} {s : Sym} (h : p ∉ Assoc.keys (k.chi x c)) (hne : p ≠ c) :
    ∃ S, Assoc.get ((addEdge k x c p s).par x c) p = some S ∧ s ∈ S := by
  unfold addEdge
  rw [if_neg h, if_neg hne]
  show ∃ S, Assoc.get (touch k.par x c p {s} x c) p = some S ∧ s ∈ S
  rw [touch_same, Assoc.get_set_self]
  exact ⟨_, rfl, Finset.mem_union_right _ (Finset.mem_singleton_self _)⟩

/-- Where entries come from. -/
theorem addEdge_mem {k : Kern} {x : Ctx} {c p : Id} {s : Sym} {y : Ctx} {i j : Id} {T : Finset Sym} (h : (j, T) ∈ (addEdge k x c p s).par y i) :
    (j, T) ∈ k.par y i ∨ (y = x ∧ i = c ∧ (j = p ∨ ∃ S, (j, S) ∈ k.prev x c ∧ s ∈ S) ∧ ∃ T0, (T0 = ∅ ∨ (j, T0) ∈ k.par y i) ∧ T ⊆ T0 ∪ {s}) := by
  unfold addEdge at h
  split at h
  · exact .inl h
  · split at h
    · rcases mem_inherit _ _ h with h | ⟨h1, h2, h3, h4⟩
      · exact .inl h
      · exact .inr ⟨h1, h2, .inr h3, h4⟩
    · rcases mem_touch h with h | ⟨h1, h2, h3, T0, h4, h5⟩
      · exact .inl h
      · exact .inr ⟨h1, h2, .inl h3, T0, h4, h5.subset⟩

/-- New children are children of the new parent. -/
theorem addEdge_chi {k : Kern} {x : Ctx} {c p : Id} {s : Sym} {y : Ctx} {i j : Id} (h : j ∈ Assoc.keys ((addEdge k x c p s).chi y i)) :
    j ∈ Assoc.keys (k.chi y i) ∨ (y = x ∧ i = p ∧ j = c) := by
  unfold addEdge at h
  split at h
  · exact .inl h
  · split at h
    · exact .inl h
    · have h : j ∈ Assoc.keys (touch k.chi x p c {s} y i) := h
      by_cases hc : y = x ∧ i = p
      · obtain ⟨rfl, rfl⟩ := hc
        rw [touch_same, Assoc.mem_keys_set] at h
        rcases h with h | h
        · exact .inr ⟨rfl, rfl, h⟩
        · exact .inl h
      · rw [touch_other hc] at h; exact .inl h

/-! ## The saved links in a new kernel -/

/-- Saved links between known cells, in order. -/
def pairs (cells : List Id) (saved : List (Id × Finset Id)) : List (Id × Id) :=
  saved.flatMap fun e => if e.1 ∈ cells then ((e.2.sort (· ≤ ·)).filter (· ∈ cells)).map fun p => (e.1, p) else []

/-- Edges for a list of links. -/
def adds (k : Kern) (ps : List (Id × Id)) : Kern := ps.foldl (fun k e => addEdge k .static e.1 e.2 none) k

theorem adds_cells (ps : List (Id × Id)) : ∀ k, (adds k ps).cells = k.cells := by
  induction ps with
  | nil => intro k; rfl
  | cons a ps ih => intro k; exact (ih _).trans (addEdge_same _ _ _ _ _).1

theorem initOne_eq (c : Id) (l : List Id) : ∀ k, initOne k c l = adds k ((l.filter (· ∈ k.cells)).map fun p => (c, p)) := by
  induction l with
  | nil => intro k; rfl
  | cons a l ih =>
    intro k
    unfold initOne
    by_cases ha : a ∈ k.cells
    · rw [if_pos ha, ih, (addEdge_same _ _ _ _ _).1, List.filter_cons_of_pos (by simpa using ha), List.map_cons]
      rfl
    · rw [if_neg ha, ih, List.filter_cons_of_neg (by simpa using ha)]

theorem initParents_eq (l : List (Id × Finset Id)) : ∀ k, initParents k l = adds k (pairs k.cells l) := by
  induction l with
  | nil => intro k; rfl
  | cons a l ih =>
    obtain ⟨c, L⟩ := a
    intro k
    unfold initParents
    have hp : pairs k.cells ((c, L) :: l) =
        (if c ∈ k.cells then ((L.sort (· ≤ ·)).filter (· ∈ k.cells)).map fun p => (c, p) else []) ++ pairs k.cells l := rfl
    rw [hp, ih]
    by_cases hc : c ∈ k.cells
    · rw [if_pos hc, if_pos hc, initOne_eq, adds_cells]
      unfold adds
      rw [List.foldl_append]
    · rw [if_neg hc, if_neg hc, List.nil_append]

theorem mem_pairs {cells : List Id} {saved : List (Id × Finset Id)} {c p : Id} :
    (c, p) ∈ pairs cells saved ↔ c ∈ cells ∧ p ∈ cells ∧ ∃ L, (c, L) ∈ saved ∧ p ∈ L := by
  unfold pairs
  rw [List.mem_flatMap]
  constructor
  · rintro ⟨⟨d, L⟩, hm, h⟩
    dsimp only at h
    by_cases hd : d ∈ cells
    · rw [if_pos hd, List.mem_map] at h
      obtain ⟨q, hq, h⟩ := h
      injection h with h1 h2
      subst h1; subst h2
      rw [List.mem_filter] at hq
      exact ⟨hd, by simpa using hq.2, L, hm, (Finset.mem_sort _).1 hq.1⟩
    · rw [if_neg hd] at h; cases h
  · rintro ⟨hc, hp, L, hm, hL⟩
    refine ⟨(c, L), hm, ?_⟩
    dsimp only
    rw [if_pos hc, List.mem_map]
    exact ⟨p, List.mem_filter.2 ⟨(Finset.mem_sort _).2 hL, by simpa using hp⟩, rfl⟩

/-- What holds while the saved links are added. -/
structure Init (ps : List (Id × Id)) (k : Kern) : Prop where
  prev : ∀ x i, k.prev x i = []
  par : ∀ x i j S, (j, S) ∈ k.par x i → x = .static ∧ (i, j) ∈ ps ∧ i ≠ j ∧ S = {none} ∧ i ∈ Assoc.keys (k.chi x j)
  chi : ∀ x i j, j ∈ Assoc.keys (k.chi x i) → x = .static ∧ (j, i) ∈ ps
  uniq : Uniq k.par
  apart : ∀ i j, j ∈ Assoc.keys (k.par .static i) → i ∉ Assoc.keys (k.par .static j)
  must : ∀ c p, (c, p) ∈ ps → c ≠ p → (p, c) ∉ ps → p ∈ Assoc.keys (k.par .static c)

theorem key_mem {l : List (Id × Finset Sym)} {j : Id} (h : j ∈ Assoc.keys l) : ∃ S, (j, S) ∈ l := by
  unfold Assoc.keys at h
  rw [List.mem_map] at h
  obtain ⟨⟨a, S⟩, h1, h2⟩ := h
  exact ⟨S, by cases h2; exact h1⟩

theorem mem_key {l : List (Id × Finset Sym)} {j : Id} {S : Finset Sym} (h : (j, S) ∈ l) : j ∈ Assoc.keys l := List.mem_map.2 ⟨_, h, rfl⟩

theorem init_step {ps : List (Id × Id)} {k : Kern} (h : Init ps k) (c p : Id) : Init (ps ++ [(c, p)]) (addEdge k .static c p none) := by
  have hmem : ∀ {a b : Id}, (a, b) ∈ ps → (a, b) ∈ ps ++ [(c, p)] := fun hab => List.mem_append_left _ hab
  by_cases hb : p ∈ Assoc.keys (k.chi .static c)
  · have he : addEdge k .static c p none = k := by unfold addEdge; rw [if_pos hb]
    rw [he]
    refine ⟨h.prev, ?_, ?_, h.uniq, h.apart, ?_⟩
    · intro x i j S hS
      obtain ⟨h1, h2, h3⟩ := h.par x i j S hS
      exact ⟨h1, hmem h2, h3⟩
    · intro x i j hj
      obtain ⟨h1, h2⟩ := h.chi x i j hj
      exact ⟨h1, hmem h2⟩
    · intro a b hab hne hn
      rcases List.mem_append.1 hab with hab | hab
      · exact h.must a b hab hne (fun hh => hn (hmem hh))
      · rw [List.mem_singleton] at hab
        injection hab with h1 h2
        subst h1; subst h2
        exact absurd (hmem (h.chi _ _ _ hb).2) hn
  · by_cases hpc : p = c
    · have he : addEdge k .static c p none = k := by
        unfold addEdge
        rw [if_neg hb, if_pos hpc, h.prev]
        rfl
      rw [he]
      refine ⟨h.prev, ?_, ?_, h.uniq, h.apart, ?_⟩
      · intro x i j S hS
        obtain ⟨h1, h2, h3⟩ := h.par x i j S hS
        exact ⟨h1, hmem h2, h3⟩
      · intro x i j hj
        obtain ⟨h1, h2⟩ := h.chi x i j hj
        exact ⟨h1, hmem h2⟩
      · intro a b hab hne hn
        rcases List.mem_append.1 hab with hab | hab
        · exact h.must a b hab hne (fun hh => hn (hmem hh))
        · rw [List.mem_singleton] at hab
          injection hab with h1 h2
          exact absurd (h1.trans (hpc.symm.trans h2.symm)) hne
    · have hpar : (addEdge k .static c p none).par = touch k.par .static c p {none} := by unfold addEdge; rw [if_neg hb, if_neg hpc]
      have hchi : (addEdge k .static c p none).chi = touch k.chi .static p c {none} := by unfold addEdge; rw [if_neg hb, if_neg hpc]
      have hkeys : ∀ {x : Ctx} {i j : Id}, j ∈ Assoc.keys (touch k.par .static c p {none} x i) ↔ j ∈ Assoc.keys (k.par x i) ∨ (x = .static ∧ i = c ∧ j = p) := by
        intro x i j
        by_cases hc : x = .static ∧ i = c
        · obtain ⟨rfl, rfl⟩ := hc
          rw [touch_same, Assoc.mem_keys_set]
          simp [or_comm]
        · rw [touch_other hc]
          constructor
          · exact .inl
          · rintro (h | ⟨h1, h2, _⟩)
            · exact h
            · exact absurd ⟨h1, h2⟩ hc
      have hckeys : ∀ {x : Ctx} {i j : Id}, j ∈ Assoc.keys (k.chi x i) → j ∈ Assoc.keys (touch k.chi .static p c {none} x i) := by
        intro x i j hj
        by_cases hc : x = .static ∧ i = p
        · obtain ⟨rfl, rfl⟩ := hc
          rw [touch_same, Assoc.mem_keys_set]
          exact .inr hj
        · rw [touch_other hc]; exact hj
      have hnew : c ∈ Assoc.keys (touch k.chi .static p c {none} .static p) := by
        rw [touch_same, Assoc.mem_keys_set]; exact .inl rfl
      refine ⟨?_, ?_, ?_, addEdge_uniq h.uniq _ _ _ _, ?_, ?_⟩
      · intro x i; rw [(addEdge_same _ _ _ _ _).2.1]; exact h.prev x i
      · intro x i j S hS
        rw [hpar] at hS
        rw [hchi]
        rcases mem_touch hS with hS | ⟨h1, h2, h3, T0, h4, h5⟩
        · obtain ⟨h1, h2, h3, h4, h5⟩ := h.par x i j S hS
          exact ⟨h1, hmem h2, h3, h4, hckeys h5⟩
        · subst h1; subst h2; subst h3
          refine ⟨rfl, List.mem_append_right _ List.mem_cons_self, fun h => hpc h.symm, ?_, hnew⟩
          rcases h4 with rfl | h4
          · rw [h5, Finset.empty_union]
          · rw [h5, (h.par _ _ _ _ h4).2.2.2.1, Finset.union_idempotent]
      · intro x i j hj
        rcases addEdge_chi hj with hj | ⟨h1, h2, h3⟩
        · obtain ⟨h1, h2⟩ := h.chi x i j hj
          exact ⟨h1, hmem h2⟩
        · subst h1; subst h2; subst h3
          exact ⟨rfl, List.mem_append_right _ List.mem_cons_self⟩
      · intro i j hj hi
        rw [hpar, hkeys] at hj hi
        rcases hj with hj | ⟨_, hj1, hj2⟩
        · rcases hi with hi | ⟨_, hi1, hi2⟩
          · exact h.apart i j hj hi
          · subst hi1; subst hi2
            obtain ⟨S, hS⟩ := key_mem hj
            exact hb (h.par _ _ _ _ hS).2.2.2.2
        · subst hj1; subst hj2
          rcases hi with hi | ⟨_, hi1, _⟩
          · obtain ⟨S, hS⟩ := key_mem hi
            exact hb (h.par _ _ _ _ hS).2.2.2.2
          · exact hpc hi1
      · intro a b hab hne hn
        rw [hpar, hkeys]
        rcases List.mem_append.1 hab with hab | hab
        · exact .inl (h.must a b hab hne (fun hh => hn (hmem hh)))
        · rw [List.mem_singleton] at hab
          injection hab with h1 h2
          exact .inr ⟨rfl, h1, h2⟩

theorem init_adds (ps : List (Id × Id)) : ∀ (qs : List (Id × Id)) (k : Kern), Init qs k → Init (qs ++ ps) (adds k ps) := by
  induction ps with
  | nil => intro qs k h; rw [List.append_nil]; exact h
  | cons a ps ih =>
    intro qs k h
    have := ih (qs ++ [a]) _ (init_step h a.1 a.2)
    rw [List.append_assoc] at this
    exact this

theorem adds_same (ps : List (Id × Id)) : ∀ k, (adds k ps).pos = k.pos ∧ (adds k ps).ctr = k.ctr ∧ (adds k ps).runs = k.runs ∧ (adds k ps).flow = k.flow := by
  induction ps with
  | nil => intro k; exact ⟨rfl, rfl, rfl, rfl⟩
  | cons a ps ih =>
    intro k
    obtain ⟨h1, h2, h3, h4⟩ := ih (addEdge k .static a.1 a.2 none)
    obtain ⟨_, _, g1, g2, g3, g4⟩ := addEdge_same k .static a.1 a.2 none
    exact ⟨h1.trans g1, h2.trans g2, h3.trans g3, h4.trans g4⟩

theorem told_fresh_cells (f : Flow) (nb : List Id) : (tell (fresh f) nb).cells = nb := by
  show [] ++ nb.filter _ = nb
  rw [List.nil_append, List.filter_eq_self]
  intro a _
  simp [fresh]

theorem connect_init (f : Flow) (nb : List Id) (saved : List (Id × Finset Id)) : Init (pairs nb saved) (connect f nb saved) := by
  have h0 : Init [] (tell (fresh f) nb) := by
    refine ⟨fun _ _ => rfl, fun x i j S h => (by cases h), fun x i j h => (by cases h), fun _ _ => List.nodup_nil, fun i j h => (by cases h), fun c p h => (by cases h)⟩
  have := init_adds (pairs nb saved) [] _ h0
  unfold connect
  rw [initParents_eq, told_fresh_cells]
  exact this

theorem connect_same (f : Flow) (nb : List Id) (saved : List (Id × Finset Id)) :
    (connect f nb saved).cells = nb ∧ (connect f nb saved).pos = (fun i => if i ∈ nb then ((nb.idxOf i : Int) : Pos) else ⊤) ∧
      (connect f nb saved).ctr = (fun _ => -1) ∧ (connect f nb saved).runs = 0 ∧ (connect f nb saved).flow = f := by
  unfold connect
  rw [initParents_eq]
  obtain ⟨h1, h2, h3, h4⟩ := adds_same (pairs (tell (fresh f) nb).cells saved) (tell (fresh f) nb)
  exact ⟨(adds_cells _ _).trans (told_fresh_cells f nb), h1, h2, h3, h4⟩

/-! ## The end of a run -/

/-- What the end of a run of `c` may change. -/
structure Less (c : Id) (k k' : Kern) : Prop where
  same : k'.cells = k.cells ∧ k'.prev = k.prev ∧ k'.pos = k.pos ∧ k'.ctr = k.ctr ∧ k'.runs = k.runs ∧ k'.flow = k.flow
  other : ∀ x i, i ≠ c → k'.par x i = k.par x i
  chi : ∀ x i j, j ∈ Assoc.keys (k'.chi x i) → j ∈ Assoc.keys (k.chi x i)
  mem : ∀ x i j T, (j, T) ∈ k'.par x i → ∃ T0, (j, T0) ∈ k.par x i ∧ T ⊆ T0
  uniq : Uniq k.par → Uniq k'.par

theorem Less.refl (c : Id) (k : Kern) : Less c k k :=
  ⟨⟨rfl, rfl, rfl, rfl, rfl, rfl⟩, fun _ _ _ => rfl, fun _ _ _ h => h, fun _ _ _ T h => ⟨T, h, fun _ h => h⟩, fun h => h⟩

theorem Less.trans {c : Id} {k k' k'' : Kern} (h : Less c k k') (h' : Less c k' k'') : Less c k k'' := by
  obtain ⟨a1, a2, a3, a4, a5, a6⟩ := h.same
  obtain ⟨b1, b2, b3, b4, b5, b6⟩ := h'.same
  refine ⟨⟨b1.trans a1, b2.trans a2, b3.trans a3, b4.trans a4, b5.trans a5, b6.trans a6⟩, fun x i hi => (h'.other x i hi).trans (h.other x i hi),
    fun x i j hj => h.chi x i j (h'.chi x i j hj), ?_, fun hu => h'.uniq (h.uniq hu)⟩
  intro x i j T hT
  obtain ⟨T1, h1, h2⟩ := h'.mem x i j T hT
  obtain ⟨T0, h3, h4⟩ := h.mem x i j T1 h1
  exact ⟨T0, h3, fun a ha => h4 (h2 ha)⟩

theorem less_dropGone (k : Kern) (x : Ctx) (c : Id) (e : Id × Finset Sym) : Less c k (dropGone k x c e) := by
  unfold dropGone
  dsimp only
  split
  · exact Less.refl c k
  · refine ⟨⟨rfl, rfl, rfl, rfl, rfl, rfl⟩, fun y i hi => drop_other (fun h => hi h.2), ?_, fun y i j T hT => mem_drop hT, fun hu => uniq_drop hu _ _ _ _⟩
    intro y i j hj
    obtain ⟨S, hS⟩ := key_mem hj
    obtain ⟨T0, h1, _⟩ := mem_drop hS
    exact mem_key h1

theorem less_fold (x : Ctx) (c : Id) (l : List (Id × Finset Sym)) : ∀ k, Less c k (l.foldl (fun k e => dropGone k x c e) k) := by
  induction l with
  | nil => intro k; exact Less.refl c k
  | cons a l ih => intro k; exact (less_dropGone k x c a).trans (ih _)

theorem less_done (k : Kern) (c : Id) : Less c k (done k c) := (less_fold .dynamic c _ k).trans (less_fold .static c _ _)

theorem done_id {k : Kern} {c : Id} (h : ∀ x, k.prev x c = []) : done k c = k := by
  unfold done
  rw [h, h]
  rfl

end Verif.Saved
