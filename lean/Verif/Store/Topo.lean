import Verif.Store.Push

/-! # C50: the order in which the client executes cells -/

namespace Verif.Store
open Verif

/-! ## Specification -/

/-- An edge of the reported graph between code cells of the notebook. -/
structure Edge (cs : Cells) (children : Nat → Option (List Nat)) (x y : Nat) : Prop where
  lists : Lists children x y
  src : x ∈ cs.keys ∧ cs.code x = true
  dst : y ∈ cs.keys ∧ cs.code y = true

/-- No cell depends on itself through code cells. -/
def Acyclic (cs : Cells) (children : Nat → Option (List Nat)) : Prop := ∀ x, ¬ Relation.TransGen (Edge cs children) x x

/-! ## The search -/

/-- Every member is followed by the targets of its edges. -/
def Sorted (cs : Cells) (children : Nat → Option (List Nat)) : List Nat → Prop
  | [] => True
  | x :: l => (∀ y, Edge cs children x y → y ∈ l) ∧ Sorted cs children l

/-- The state while the calls on `T` are running. -/
structure Inv (cs : Cells) (children : Nat → Option (List Nat)) (T : List Nat) (st : List Nat × List Nat) : Prop where
  sorted : Sorted cs children st.1
  nodup : st.1.Nodup
  seen : ∀ x, x ∈ st.2 ↔ x ∈ st.1 ∨ x ∈ T
  disj : ∀ x ∈ T, x ∉ st.1
  keys : ∀ x ∈ st.2, x ∈ cs.keys ∧ cs.code x = true

theorem topo_inv (cs : Cells) (children : Nat → Option (List Nat)) (ha : Acyclic cs children) (n : Nat) :
    ∀ (T : List Nat) (st st' : List Nat × List Nat) (x : Nat), Inv cs children T st →
    (∀ t ∈ T, x ∈ cs.keys ∧ cs.code x = true → Relation.TransGen (Edge cs children) t x) → topo cs children n st x = .ok st' →
    Inv cs children T st' ∧ (∀ y ∈ st.2, y ∈ st'.2) ∧ (x ∈ cs.keys ∧ cs.code x = true → x ∈ st'.2) := by
  induction n with
  | zero => intro T st st' x _ _ h; simp [topo] at h
  | succ n ih =>
    intro T st st' x hi hT h
    unfold topo at h
    by_cases hc : x ∈ st.2 ∨ ¬ (x ∈ cs.keys ∧ cs.code x = true)
    · rw [if_pos hc] at h
      cases h
      exact ⟨hi, fun _ hy => hy, fun hx => hc.resolve_right (not_not.2 hx)⟩
    · rw [if_neg hc] at h
      rw [not_or, not_not] at hc
      obtain ⟨hx, hk⟩ := hc
      have hxo : x ∉ st.1 := fun hm => hx ((hi.seen x).2 (.inl hm))
      have hxT : x ∉ T := fun hm => hx ((hi.seen x).2 (.inr hm))
      have hi0 : Inv cs children (x :: T) (st.1, st.2 ++ [x]) := by
        refine ⟨hi.sorted, hi.nodup, fun y => ?_, fun y hy => ?_, fun y hy => ?_⟩
        · rw [List.mem_append, List.mem_singleton, hi.seen, List.mem_cons]
          tauto
        · rcases List.mem_cons.1 hy with rfl | hy
          · exact hxo
          · exact hi.disj y hy
        · rcases List.mem_append.1 hy with hy | hy
          · exact hi.keys y hy
          · rw [List.mem_singleton] at hy; rw [hy]; exact hk
      have fold : ∀ (l : List Nat) (s s' : List Nat × List Nat), (∀ y ∈ l, Lists children x y) → Inv cs children (x :: T) s →
          l.foldlM (fun st y => topo cs children n st y) s = .ok s' →
          Inv cs children (x :: T) s' ∧ (∀ y ∈ s.2, y ∈ s'.2) ∧ ∀ y ∈ l, y ∈ cs.keys ∧ cs.code y = true → y ∈ s'.2 := by
        intro l
        induction l with
        | nil =>
          intro s s' _ hs h
          simp only [List.foldlM_nil, pure, Except.pure, Except.ok.injEq] at h
          subst h
          exact ⟨hs, fun _ hy => hy, by simp⟩
        | cons y l ihl =>
          intro s s' hl hs h
          rw [List.foldlM_cons] at h
          cases h1 : topo cs children n s y with
          | error e => rw [h1] at h; simp [bind, Except.bind] at h
          | ok mid =>
            rw [h1] at h
            obtain ⟨g1, g2, g3⟩ := ih (x :: T) s mid y hs (fun t ht hy => by
              have he : Edge cs children x y := ⟨hl y (List.mem_cons_self ..), hk, hy⟩
              rcases List.mem_cons.1 ht with rfl | ht
              · exact .single he
              · exact (hT t ht hk).tail he) h1
            obtain ⟨g4, g5, g6⟩ := ihl mid s' (fun y hy => hl y (List.mem_cons_of_mem _ hy)) g1 h
            refine ⟨g4, fun z hz => g5 z (g2 z hz), fun z hz hzk => ?_⟩
            rcases List.mem_cons.1 hz with rfl | hz
            · exact g5 z (g3 hzk)
            · exact g6 z hz hzk
      cases h1 : ((children x).getD []).foldlM (fun st y => topo cs children n st y) (st.1, st.2 ++ [x]) with
      | error e => rw [h1] at h; simp [bind, Except.bind] at h
      | ok mid =>
        rw [h1] at h
        simp only [bind, Except.bind, pure, Except.pure, Except.ok.injEq] at h
        subst h
        have hlist : ∀ y, y ∈ (children x).getD [] ↔ Lists children x y := by
          intro y
          unfold Lists
          cases children x <;> simp
        obtain ⟨g1, g2, g3⟩ := fold _ _ _ (fun y hy => (hlist y).1 hy) hi0 h1
        have hxm : x ∉ mid.1 := g1.disj x (List.mem_cons_self ..)
        refine ⟨⟨⟨fun y hy => ?_, g1.sorted⟩, List.nodup_cons.2 ⟨hxm, g1.nodup⟩, fun y => ?_, fun y hy hm => ?_, g1.keys⟩, fun y hy => ?_,
          fun _ => ?_⟩
        · rcases (g1.seen y).1 (g3 y ((hlist y).2 hy.lists) hy.dst) with h2 | h2
          · exact h2
          · exfalso
            rcases List.mem_cons.1 h2 with rfl | h2
            · exact ha y (.single hy)
            · exact ha y ((hT y h2 hk).tail hy)
        · show y ∈ mid.2 ↔ y ∈ x :: mid.1 ∨ y ∈ T
          rw [g1.seen y, List.mem_cons, List.mem_cons]
          tauto
        · rcases List.mem_cons.1 hm with rfl | hm
          · exact hxT hy
          · exact g1.disj y (List.mem_cons_of_mem _ hy) hm
        · exact g2 y (List.mem_append_left _ hy)
        · exact g2 x (List.mem_append_right _ (List.mem_singleton.2 rfl))

theorem topoOrder_sorted (cs : Cells) (children : Nat → Option (List Nat)) (ha : Acyclic cs children) (n : Nat) (order : List Nat)
    (h : topoOrder cs children n = .ok order) :
    Sorted cs children order ∧ order.Nodup ∧ ∀ x, x ∈ order ↔ x ∈ cs.keys ∧ cs.code x = true := by
  have fold : ∀ (l : List Nat) (s s' : List Nat × List Nat), Inv cs children [] s →
      l.foldlM (fun st y => topo cs children n st y) s = .ok s' →
      Inv cs children [] s' ∧ (∀ y ∈ s.2, y ∈ s'.2) ∧ ∀ y ∈ l, y ∈ cs.keys ∧ cs.code y = true → y ∈ s'.2 := by
    intro l
    induction l with
    | nil =>
      intro s s' hs h
      simp only [List.foldlM_nil, pure, Except.pure, Except.ok.injEq] at h
      subst h
      exact ⟨hs, fun _ hy => hy, by simp⟩
    | cons y l ihl =>
      intro s s' hs h
      rw [List.foldlM_cons] at h
      cases h1 : topo cs children n s y with
      | error e => rw [h1] at h; simp [bind, Except.bind] at h
      | ok mid =>
        rw [h1] at h
        obtain ⟨g1, g2, g3⟩ := topo_inv cs children ha n [] s mid y hs (by simp) h1
        obtain ⟨g4, g5, g6⟩ := ihl mid s' g1 h
        refine ⟨g4, fun z hz => g5 z (g2 z hz), fun z hz hzk => ?_⟩
        rcases List.mem_cons.1 hz with rfl | hz
        · exact g5 z (g3 hzk)
        · exact g6 z hz hzk
  unfold topoOrder at h
  cases h1 : cs.keys.foldlM (fun st x => topo cs children n st x) ([], []) with
  | error e => rw [h1] at h; simp [Except.map] at h
  | ok st =>
    rw [h1] at h
    simp only [Except.map, Except.ok.injEq] at h
    subst h
    obtain ⟨g1, _, g3⟩ := fold cs.keys ([], []) st ⟨trivial, List.nodup_nil, by simp, by simp, by simp⟩ h1
    refine ⟨g1.sorted, g1.nodup, fun x => ⟨fun hx => g1.keys x ((g1.seen x).2 (.inl hx)), fun hx => ?_⟩⟩
    simpa using (g1.seen x).1 (g3 x hx.1 hx)

/-- The search ends, on any graph. -/
theorem topo_ok (cs : Cells) (children : Nat → Option (List Nat)) (n : Nat) : ∀ (st : List Nat × List Nat) (x : Nat),
    (cs.keys.toFinset \ st.2.toFinset).card + 1 ≤ n →
    ∃ st', topo cs children n st x = .ok st' ∧ ∀ y ∈ st.2, y ∈ st'.2 := by
  induction n with
  | zero => intro st x h; omega
  | succ n ih =>
    intro st x hn
    unfold topo
    by_cases hc : x ∈ st.2 ∨ ¬ (x ∈ cs.keys ∧ cs.code x = true)
    · exact ⟨st, by rw [if_pos hc], fun _ h => h⟩
    · rw [if_neg hc]
      rw [not_or, not_not] at hc
      have fold : ∀ (l : List Nat) (s : List Nat × List Nat), (∀ y ∈ st.2 ++ [x], y ∈ s.2) →
          ∃ s', l.foldlM (fun st y => topo cs children n st y) s = .ok s' ∧ ∀ y ∈ s.2, y ∈ s'.2 := by
        intro l
        induction l with
        | nil => intro s _; exact ⟨s, rfl, fun _ h => h⟩
        | cons y l ihl =>
          intro s hs
          have hlt : (cs.keys.toFinset \ s.2.toFinset).card < (cs.keys.toFinset \ st.2.toFinset).card := by
            refine Finset.card_lt_card ⟨Finset.sdiff_subset_sdiff (Finset.Subset.refl _) fun z hz =>
              List.mem_toFinset.2 (hs z (List.mem_append_left _ (List.mem_toFinset.1 hz))), fun hh => ?_⟩
            have h1 : x ∈ cs.keys.toFinset \ st.2.toFinset := Finset.mem_sdiff.2 ⟨List.mem_toFinset.2 hc.2.1, by simpa using hc.1⟩
            exact (Finset.mem_sdiff.1 (hh h1)).2
              (List.mem_toFinset.2 (hs x (List.mem_append_right _ (List.mem_singleton.2 rfl))))
          obtain ⟨mid, h1, h2⟩ := ih s y (by omega)
          obtain ⟨s', h3, h4⟩ := ihl mid fun z hz => h2 z (hs z hz)
          exact ⟨s', by rw [List.foldlM_cons, h1]; exact h3, fun z hz => h4 z (h2 z hz)⟩
      obtain ⟨s', h1, h2⟩ := fold ((children x).getD []) (st.1, st.2 ++ [x]) fun _ h => h
      refine ⟨(x :: s'.1, s'.2), by rw [h1]; rfl, fun y hy => h2 y (List.mem_append_left _ hy)⟩

theorem topoOrder_ok (cs : Cells) (children : Nat → Option (List Nat)) (n : Nat) (hn : cs.keys.length + 1 ≤ n) :
    ∃ order, topoOrder cs children n = .ok order := by
  have fold : ∀ (l : List Nat) (s : List Nat × List Nat), ∃ s', l.foldlM (fun st y => topo cs children n st y) s = .ok s' := by
    intro l
    induction l with
    | nil => intro s; exact ⟨s, rfl⟩
    | cons y l ihl =>
      intro s
      have h1 : (cs.keys.toFinset \ s.2.toFinset).card ≤ cs.keys.length :=
        (Finset.card_le_card Finset.sdiff_subset).trans (List.toFinset_card_le _)
      obtain ⟨mid, h1, _⟩ := topo_ok cs children n s y (by omega)
      obtain ⟨s', h3⟩ := ihl mid
      exact ⟨s', by rw [List.foldlM_cons, h1]; exact h3⟩
  obtain ⟨s, hs⟩ := fold cs.keys ([], [])
  exact ⟨s.1, by unfold topoOrder; rw [hs]; rfl⟩

/-! ## The order -/

theorem idxOf_edge (cs : Cells) (children : Nat → Option (List Nat)) (order : List Nat) (hs : Sorted cs children order)
    (hn : order.Nodup) (x y : Nat) (hx : x ∈ order) (he : Edge cs children x y) : order.idxOf x < order.idxOf y := by
  induction order with
  | nil => simp at hx
  | cons a l ih =>
    obtain ⟨h1, h2⟩ := hs
    rw [List.nodup_cons] at hn
    by_cases hxa : x = a
    · subst hxa
      have hy := h1 y he
      have : y ≠ x := fun e => hn.1 (e ▸ hy)
      rw [List.idxOf_cons_self, List.idxOf_cons_ne _ (Ne.symm this)]
      omega
    · have hxl : x ∈ l := (List.mem_cons.1 hx).resolve_left hxa
      have hyl : y ∈ l := by
        -- targets of edges from members of a sorted list are members
        have : ∀ l : List Nat, Sorted cs children l → x ∈ l → y ∈ l := by
          intro l
          induction l with
          | nil => intro _ h; simp at h
          | cons b l ihl =>
            rintro ⟨g1, g2⟩ hm
            rcases List.mem_cons.1 hm with rfl | hm
            · exact List.mem_cons_of_mem _ (g1 y he)
            · exact List.mem_cons_of_mem _ (ihl g2 hm)
        exact this l h2 hxl
      have hya : y ≠ a := fun e => hn.1 (e ▸ hyl)
      rw [List.idxOf_cons_ne _ (Ne.symm hxa), List.idxOf_cons_ne _ (Ne.symm hya)]
      have := ih h2 hn.2 hxl
      omega

theorem sortBy_spec (idx : Nat → Option Nat) (l out : List Nat) (h : sortBy idx l = some out) :
    out.Perm l ∧ out.Pairwise fun a b => (idx a).getD 0 ≤ (idx b).getD 0 := by
  unfold sortBy at h
  split at h
  · injection h with h
    subst h
    refine ⟨List.perm_insertionSort _ l, ?_⟩
    have : Std.Total (fun a b : Nat => (idx a).getD 0 ≤ (idx b).getD 0) := ⟨fun _ _ => Nat.le_total _ _⟩
    have : IsTrans Nat (fun a b : Nat => (idx a).getD 0 ≤ (idx b).getD 0) := ⟨fun _ _ _ => Nat.le_trans⟩
    exact List.pairwise_insertionSort _ l
  · cases h

/-- **C50** (partial: the requested cells are code cells). With any-order semantics and an acyclic reported graph, the requested cells of
the notebook are executed, each as often as requested, and no cell is executed after one that depends on it, directly or through code cells
that are not requested. -/
theorem any_order_partial (cs : Cells) (children : Nat → Option (List Nat)) (ha : Acyclic cs children) (n : Nat)
    (hn : cs.keys.length + 1 ≤ n) (ids : List Nat) (hcode : ∀ x ∈ ids, x ∈ cs.keys → (cs.pos x).isSome → cs.code x = true) :
    ∃ out, toCells cs children true n ids = .ok (some out) ∧
      out.Perm (ids.filter fun x => x ∈ cs.keys ∧ (cs.pos x).isSome) ∧
      out.Pairwise fun a b => ¬ Relation.TransGen (Edge cs children) b a := by
  obtain ⟨order, ho⟩ := topoOrder_ok cs children n hn
  obtain ⟨h1, h2, h3⟩ := topoOrder_sorted cs children ha n order ho
  have hmem : ∀ x ∈ (ids.filter fun x => x ∈ cs.keys).filter fun x => (cs.pos x).isSome, x ∈ order := by
    intro x hx
    simp only [List.mem_filter, decide_eq_true_eq] at hx
    exact (h3 x).2 ⟨hx.1.2, hcode x hx.1.1 hx.1.2 hx.2⟩
  have hsome : ∃ out, sortBy (idxOf order) ((ids.filter fun x => x ∈ cs.keys).filter fun x => (cs.pos x).isSome) = some out := by
    unfold sortBy
    rw [if_pos]
    · exact ⟨_, rfl⟩
    · rw [Bool.or_eq_true, List.all_eq_true]
      refine .inr fun x hx => ?_
      unfold idxOf
      rw [if_pos (hmem x hx)]
      rfl
  obtain ⟨out, hout⟩ := hsome
  obtain ⟨g1, g2⟩ := sortBy_spec _ _ _ hout
  refine ⟨out, ?_, ?_, ?_⟩
  · unfold toCells
    simp only [if_true, ho, Except.map, bind, Except.bind, pure, Except.pure, hout]
  · rw [List.filter_filter] at g1
    refine g1.trans (List.Perm.of_eq (List.filter_congr fun x _ => ?_))
    simp [Bool.and_comm]
  · have hin : ∀ x ∈ out, x ∈ order := fun x hx => hmem x (g1.mem_iff.1 hx)
    refine List.Pairwise.imp_of_mem ?_ g2
    intro a b ha' hb' hle hbad
    have hlt : ∀ y, Relation.TransGen (Edge cs children) b y → order.idxOf b < order.idxOf y := by
      intro y hy
      induction hy with
      | single h => exact idxOf_edge cs children order h1 h2 b _ (hin b hb') h
      | @tail c y _ h ih => exact ih.trans (idxOf_edge cs children order h1 h2 c _ ((h3 c).2 h.src) h)
    have h4 := hlt a hbad
    unfold idxOf at hle
    rw [if_pos (hin a ha'), if_pos (hin b hb')] at hle
    simp only [Option.getD_some] at hle
    omega

/-- **C50 is violated** when a Markdown cell is among several requested cells: differences of positions are `NaN`, the order is up to the
implementation of `sort`. -/
theorem any_order_violated (cs : Cells) (children : Nat → Option (List Nat)) (n : Nat) (hn : cs.keys.length + 1 ≤ n)
    (ha : Acyclic cs children) (ids : List Nat) (x y : Nat) (hx : x ∈ ids) (hy : y ∈ ids) (hxy : x ≠ y)
    (hkx : x ∈ cs.keys ∧ (cs.pos x).isSome) (hky : y ∈ cs.keys ∧ (cs.pos y).isSome) (hc : cs.code x = false) :
    toCells cs children true n ids = .ok none := by
  obtain ⟨order, ho⟩ := topoOrder_ok cs children n hn
  obtain ⟨_, _, h3⟩ := topoOrder_sorted cs children ha n order ho
  have hxo : x ∉ order := fun h => by have := (h3 x).1 h; rw [hc] at this; simp at this
  have hmx : x ∈ (ids.filter fun x => x ∈ cs.keys).filter fun x => (cs.pos x).isSome := by simp [hx, hkx]
  have hmy : y ∈ (ids.filter fun x => x ∈ cs.keys).filter fun x => (cs.pos x).isSome := by simp [hy, hky]
  have hl : ¬ ((ids.filter fun x => x ∈ cs.keys).filter fun x => (cs.pos x).isSome).length ≤ 1 := by
    generalize (ids.filter fun x => x ∈ cs.keys).filter (fun x => (cs.pos x).isSome) = l at hmx hmy
    match l, hmx, hmy with
    | [], h, _ => simp at h
    | [z], h, h' => simp only [List.mem_singleton] at h h'; exact absurd (h.trans h'.symm) hxy
    | _ :: _ :: _, _, _ => simp
  unfold toCells
  simp only [if_true, ho, Except.map, bind, Except.bind, pure, Except.pure]
  congr 1
  unfold sortBy
  rw [if_neg]
  rw [Bool.or_eq_true, not_or, List.all_eq_true]
  refine ⟨by simpa using hl, fun hall => ?_⟩
  have := hall x hmx
  unfold idxOf at this
  rw [if_neg hxo] at this
  simp at this

/-- **C77**. With in-order semantics, the requested cells are executed in the order of the notebook. -/
theorem in_order (cs : Cells) (children : Nat → Option (List Nat)) (n : Nat) (ids : List Nat) :
    ∃ out, toCells cs children false n ids = .ok (some out) ∧
      out.Perm (ids.filter fun x => x ∈ cs.keys ∧ (cs.pos x).isSome) ∧
      out.Pairwise fun a b => ∀ p q, cs.pos a = some p → cs.pos b = some q → p ≤ q := by
  have hsome : ∃ out, sortBy cs.pos ((ids.filter fun x => x ∈ cs.keys).filter fun x => (cs.pos x).isSome) = some out := by
    unfold sortBy
    rw [if_pos]
    · exact ⟨_, rfl⟩
    · rw [Bool.or_eq_true, List.all_eq_true]
      exact .inr fun x hx => (List.mem_filter.1 hx).2
  obtain ⟨out, hout⟩ := hsome
  obtain ⟨g1, g2⟩ := sortBy_spec _ _ _ hout
  refine ⟨out, by unfold toCells; simp only [Bool.false_eq_true, if_false, bind, Except.bind, pure, Except.pure, hout], ?_, ?_⟩
  · rw [List.filter_filter] at g1
    refine g1.trans (List.Perm.of_eq (List.filter_congr fun x _ => ?_))
    simp [Bool.and_comm]
  · refine g2.imp fun h p q hp hq => ?_
    rw [hp, hq] at h
    exact h

/-! ## Cases -/

/-- Four code cells and a Markdown cell (4); 3 defines what 0 and 1 use, 0 what 1 uses; requested are 0, 1, 3. -/
def five : Cells := ⟨[0, 1, 2, 3, 4], fun x => x ≠ 4, fun x => if x < 5 then some x else none⟩

/-- Edges from definitions to uses. -/
def fiveChildren (x : Nat) : Option (List Nat) := if x = 3 then some [1, 0] else if x = 0 then some [1] else none

theorem acyclic_five : Acyclic five fiveChildren := by
  have key : ∀ x y, Relation.TransGen (Edge five fiveChildren) x y → (y = 0 ∨ y = 1) ∧ (x = 3 ∨ x = 0 ∧ y = 1) := by
    intro x y h
    have one : ∀ x y, Edge five fiveChildren x y → (y = 0 ∨ y = 1) ∧ (x = 3 ∨ x = 0 ∧ y = 1) := by
      rintro x y ⟨⟨l, hl, hy⟩, _, _⟩
      unfold fiveChildren at hl
      split at hl
      · injection hl with hl; subst hl; simp at hy; omega
      · split at hl
        · injection hl with hl; subst hl; simp at hy; omega
        · cases hl
    induction h with
    | single h => exact one _ _ h
    | tail _ h ih => have := one _ _ h; omega
  intro x hx
  have := key x x hx
  omega

example : toCells five fiveChildren true 6 [0, 1, 3] = .ok (some [3, 0, 1]) ∧ toCells five fiveChildren false 6 [3, 1, 0] = .ok (some [0, 1, 3]) ∧
    toCells five fiveChildren true 6 [0, 1, 3, 4] = .ok none := by decide +kernel

example : (∀ x ∈ [0, 1, 3], x ∈ five.keys → (five.pos x).isSome → five.code x = true) ∧ five.keys.length + 1 ≤ 6 := by decide

end Verif.Store
