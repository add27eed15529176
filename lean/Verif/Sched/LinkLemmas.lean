import Verif.Sched.CheckLemmas

set_option linter.unusedSectionVars false

/-! The two fixpoint loops of the schedule (`frontend.py` 137-157, 228-252), for `Verif.Sched.Props`. -/

namespace Verif.Sched
open Verif Verif.Slice

variable {ι σ : Type} [DecidableEq ι] [DecidableEq σ]

/-! ## DAG waiters -/

theorem dagPass_mono (w : World ι σ) (ready : Finset ι) : ∀ (cells : List ι) (W : Finset ι),
    W ⊆ dagPass w cells ready W := by
  intro cells
  induction cells with
  | nil => intro W; exact subset_rfl
  | cons x cells ih =>
    intro W
    unfold dagPass
    rw [List.foldl_cons]
    refine Finset.Subset.trans ?_ (ih _)
    split
    · exact subset_rfl
    · split
      · exact Finset.subset_insert _ _
      · exact subset_rfl

theorem dagPass_ind (w : World ι σ) (ready : Finset ι) (P : ι → Prop) (all : List ι)
    (hstep : ∀ x ∈ all, ∀ p, DependsOn w x p → (p ∈ ready ∨ P p) → P x) :
    ∀ (cells : List ι) (W : Finset ι), (∀ x ∈ cells, x ∈ all) → (∀ x ∈ W, P x) →
      ∀ x ∈ dagPass w cells ready W, P x := by
  intro cells
  induction cells with
  | nil => intro W _ h; exact h
  | cons x cells ih =>
    intro W hall h
    unfold dagPass
    rw [List.foldl_cons]
    refine ih _ (fun y hy => hall y (by simp [hy])) ?_
    split
    · exact h
    · split
      · rename_i h1 h2
        obtain ⟨p, hp⟩ := h2
        rw [Finset.mem_inter, Finset.mem_union, mem_parentIds] at hp
        intro y hy
        rcases Finset.mem_insert.1 hy with rfl | hy
        · exact hstep y (hall y (by simp)) p hp.1 (hp.2.imp_right (h p))
        · exact h y hy
      · exact h

theorem dagPass_fix (w : World ι σ) (ready : Finset ι) : ∀ (cells : List ι) (W : Finset ι),
    dagPass w cells ready W = W → ∀ x ∈ cells, ∀ p, DependsOn w x p → (p ∈ ready ∨ p ∈ W) → x ∈ W := by
  intro cells
  induction cells with
  | nil => intro W _ x hx; cases hx
  | cons a cells ih =>
    intro W hfix x hx p hp hmem
    unfold dagPass at hfix
    rw [List.foldl_cons] at hfix
    set W1 := (if a ∈ W then W
      else if (w.parentIds a ∩ (ready ∪ W)).Nonempty then insert a W else W) with hW1
    have hsub : W1 ⊆ W := by
      have := dagPass_mono w ready cells W1
      unfold dagPass at this
      rw [hfix] at this
      exact this
    have hsup : W ⊆ W1 := by
      rw [hW1]
      split
      · exact subset_rfl
      · split
        · exact Finset.subset_insert _ _
        · exact subset_rfl
    have heq : W1 = W := Finset.Subset.antisymm hsub hsup
    rcases List.mem_cons.1 hx with rfl | hx
    · by_contra hx'
      apply hx'
      have : (w.parentIds x ∩ (ready ∪ W)).Nonempty :=
        ⟨p, by rw [Finset.mem_inter, mem_parentIds, Finset.mem_union]; exact ⟨hp, hmem⟩⟩
      rw [if_neg hx', if_pos this] at hW1
      rw [← heq, hW1]
      exact Finset.mem_insert_self _ _
    · rw [heq] at hfix
      exact ih W hfix x hx p hp hmem

theorem dagLoop_spec {w : World ι σ} {cells : List ι} {ready : Finset ι} : ∀ {n : Nat} {prev W W' : Finset ι},
    (prev = W ∨ prev = ∅) → dagLoop w cells ready n prev W = some W' →
    W ⊆ W' ∧ (∀ x ∈ cells, ∀ p, DependsOn w x p → (p ∈ ready ∨ p ∈ W') → x ∈ W') ∧
    (∀ P : ι → Prop, (∀ x ∈ W, P x) → (∀ x ∈ cells, ∀ p, DependsOn w x p → (p ∈ ready ∨ P p) → P x) →
      ∀ x ∈ W', P x) := by
  intro n
  induction n with
  | zero => intro prev W W' _ h; cases h
  | succ n ih =>
    intro prev W W' hprev h
    unfold dagLoop at h
    simp only at h
    have hmono := dagPass_mono w ready cells W
    split at h
    · rename_i hex
      injection h with h
      subst h
      have hfix : dagPass w cells ready W = W := by
        rcases hprev with hp | hp
        · rw [← hex, hp]
        · have h0 : dagPass w cells ready W = ∅ := by rw [← hex, hp]
          rw [h0] at hmono
          rw [h0, Finset.subset_empty.1 hmono]
      refine ⟨hmono, ?_, ?_⟩
      · rw [hfix]; exact dagPass_fix w ready cells W hfix
      · intro P h1 h2; exact dagPass_ind w ready P cells h2 cells W (fun _ h => h) h1
    · obtain ⟨h1, h2, h3⟩ := ih (.inl rfl) h
      refine ⟨hmono.trans h1, h2, fun P hP hs => h3 P ?_ hs⟩
      exact dagPass_ind w ready P cells hs cells W (fun _ h => h) hP

theorem dagLoop_total {w : World ι σ} {cells : List ι} {ready : Finset ι} : ∀ {n : Nat} {prev W : Finset ι},
    (prev = W ∨ prev = ∅) → (if prev = W then 0 else 1) + (cells.toFinset \ W).card < n →
    ∃ W', dagLoop w cells ready n prev W = some W' := by
  intro n
  induction n with
  | zero => intro prev W _ h; omega
  | succ n ih =>
    intro prev W hprev hn
    unfold dagLoop
    simp only
    split
    · exact ⟨_, rfl⟩
    · rename_i hne
      apply ih (.inl rfl)
      simp only [if_true]
      have hmono := dagPass_mono w ready cells W
      by_cases hpw : prev = W
      · have hlt : (cells.toFinset \ dagPass w cells ready W).card < (cells.toFinset \ W).card := by
          apply Finset.card_lt_card
          rw [Finset.ssubset_iff_subset_ne]
          refine ⟨Finset.sdiff_subset_sdiff subset_rfl hmono, ?_⟩
          intro heq
          apply hne
          rw [hpw]
          refine Finset.Subset.antisymm hmono ?_
          intro x hx
          by_contra hxW
          have hxc : x ∈ W ∨ x ∈ cells := dagPass_ind w ready (fun x => x ∈ W ∨ x ∈ cells) cells
            (fun x hx _ _ _ => .inr hx) cells W (fun _ h => h) (fun x hx => .inl hx) x hx
          have hxc : x ∈ cells := hxc.resolve_left hxW
          have : x ∈ cells.toFinset \ W := by simp [hxc, hxW]
          rw [← heq] at this
          simp [hx] at this
        simp only [if_pos hpw] at hn
        omega
      · simp only [if_neg hpw] at hn
        have hle : (cells.toFinset \ dagPass w cells ready W).card ≤ (cells.toFinset \ W).card :=
          Finset.card_le_card (Finset.sdiff_subset_sdiff subset_rfl hmono)
        omega

/-! ## Links -/

theorem LinkReach.trans {W : Finset ι} {R : ι → ι → Prop} {x y r : ι} (h1 : LinkReach W R x y) (hy : y ∈ W)
    (h2 : LinkReach W R y r) : LinkReach W R x r := by
  induction h1 with
  | direct h => exact .through h hy h2
  | through h hz _ ih => exact .through h hz (ih hy h2)

/-- No waiting cell is linked to itself. -/
def NoSelf (W : Finset ι) (L : ι → Finset ι) : Prop := ∀ x ∈ W, x ∉ L x

/-- The links of `x` after one step. -/
def newLinks (W : Finset ι) (L : ι → Finset ι) (x : ι) : Finset ι :=
  (L x ∪ ((L x).filter (· ∈ W)).biUnion L).erase x

theorem linkStep_eq (W : Finset ι) (L : ι → Finset ι) (b : Bool) (x : ι) :
    linkStep W (L, b) x = (Function.update L x (newLinks W L x), b || decide ((L x).card ≠ (newLinks W L x).card)) := rfl

theorem mem_newLinks {W : Finset ι} {L : ι → Finset ι} {x r : ι} :
    r ∈ newLinks W L x ↔ r ≠ x ∧ (r ∈ L x ∨ ∃ y ∈ L x, y ∈ W ∧ r ∈ L y) := by
  simp only [newLinks, Finset.mem_erase, Finset.mem_union, Finset.mem_biUnion, Finset.mem_filter, and_assoc]

theorem subset_newLinks {W : Finset ι} {L : ι → Finset ι} {x : ι} (h : x ∉ L x) : L x ⊆ newLinks W L x := by
  intro r hr
  rw [mem_newLinks]
  refine ⟨?_, .inl hr⟩
  rintro rfl; exact h hr

theorem linkStep_noSelf {W : Finset ι} {L : ι → Finset ι} {x : ι} (h : NoSelf W L) :
    NoSelf W (Function.update L x (newLinks W L x)) := by
  intro y hy
  by_cases hyx : y = x
  · subst hyx; rw [Function.update_self, mem_newLinks]; simp
  · rw [Function.update_of_ne hyx]; exact h y hy

/-- What a whole pass does to a table without self links. -/
theorem linkPass_facts {W : Finset ι} : ∀ (order : List ι) (L : ι → Finset ι) (b : Bool), (∀ x ∈ order, x ∈ W) →
    NoSelf W L →
    NoSelf W (order.foldl (linkStep W) (L, b)).1 ∧
    (∀ y, L y ⊆ (order.foldl (linkStep W) (L, b)).1 y) ∧
    ((order.foldl (linkStep W) (L, b)).2 = true → b = true ∨
      ∃ y ∈ W, (L y).card < ((order.foldl (linkStep W) (L, b)).1 y).card) ∧
    ((order.foldl (linkStep W) (L, b)).2 = false →
      b = false ∧ (order.foldl (linkStep W) (L, b)).1 = L ∧ ∀ x ∈ order, newLinks W L x = L x) := by
  intro order
  induction order with
  | nil => intro L b _ h; exact ⟨h, fun _ => subset_rfl, fun h => .inl h, fun h => ⟨h, rfl, by simp⟩⟩
  | cons x order ih =>
    intro L b hord hns
    have hxW : x ∈ W := hord x (by simp)
    have hsub : L x ⊆ newLinks W L x := subset_newLinks (hns x hxW)
    rw [List.foldl_cons, linkStep_eq]
    obtain ⟨h1, h2, h3, h4⟩ := ih (Function.update L x (newLinks W L x))
      (b || decide ((L x).card ≠ (newLinks W L x).card)) (fun y hy => hord y (by simp [hy])) (linkStep_noSelf hns)
    have hle : ∀ y, L y ⊆ Function.update L x (newLinks W L x) y := by
      intro y
      by_cases hyx : y = x
      · subst hyx; rw [Function.update_self]; exact hsub
      · rw [Function.update_of_ne hyx]
    refine ⟨h1, fun y => (hle y).trans (h2 y), ?_, ?_⟩
    · intro hb
      rcases h3 hb with hb | ⟨y, hy, hlt⟩
      · rw [Bool.or_eq_true] at hb
        rcases hb with hb | hb
        · exact .inl hb
        · right
          refine ⟨x, hxW, ?_⟩
          have hne := of_decide_eq_true hb
          have h5 : (L x).card < (newLinks W L x).card := lt_of_le_of_ne (Finset.card_le_card hsub) hne
          have h6 := Finset.card_le_card (h2 x)
          rw [Function.update_self] at h6
          omega
      · right
        exact ⟨y, hy, lt_of_le_of_lt (Finset.card_le_card (hle y)) hlt⟩
    · intro hb
      obtain ⟨h5, h6, h7⟩ := h4 hb
      rw [Bool.or_eq_false_iff] at h5
      have hcard : (L x).card = (newLinks W L x).card := by
        by_contra hne; simp [hne] at h5
      have hnew : newLinks W L x = L x := (Finset.eq_of_subset_of_card_le hsub hcard.ge).symm
      have hupd : Function.update L x (newLinks W L x) = L := by rw [hnew]; exact Function.update_eq_self x L
      rw [hupd] at h7
      refine ⟨h5.1, by rw [hupd] at h6 ⊢; exact h6, ?_⟩
      intro y hy
      rcases List.mem_cons.1 hy with rfl | hy
      · exact hnew
      · exact h7 y hy

/-- Steps keep the table inside a closed relation. -/
theorem linkPass_sound {W : Finset ι} (Q : ι → ι → Prop)
    (hQ : ∀ x y r, Q x y → y ∈ W → Q y r → Q x r) : ∀ (order : List ι) (L : ι → Finset ι) (b : Bool),
    (∀ x, ∀ r ∈ L x, Q x r) → ∀ x, ∀ r ∈ (order.foldl (linkStep W) (L, b)).1 x, Q x r := by
  intro order
  induction order with
  | nil => intro L b h; exact h
  | cons a order ih =>
    intro L b h
    rw [List.foldl_cons, linkStep_eq]
    apply ih
    intro x r hr
    by_cases hxa : x = a
    · subst hxa
      rw [Function.update_self, mem_newLinks] at hr
      rcases hr.2 with hr | ⟨y, hy, hyW, hr⟩
      · exact h x r hr
      · exact hQ x y r (h x y hy) hyW (h y r hr)
    · rw [Function.update_of_ne hxa] at hr; exact h x r hr

theorem linkLoop_sound {W : Finset ι} {order : List ι} (Q : ι → ι → Prop)
    (hQ : ∀ x y r, Q x y → y ∈ W → Q y r → Q x r) : ∀ {n : Nat} {L L' : ι → Finset ι},
    (∀ x, ∀ r ∈ L x, Q x r) → linkLoop W order n L = some L' → ∀ x, ∀ r ∈ L' x, Q x r := by
  intro n
  induction n with
  | zero => intro L L' _ h; cases h
  | succ n ih =>
    intro L L' h he
    unfold linkLoop at he
    simp only at he
    have hp := linkPass_sound Q hQ order L false h
    split at he
    · exact ih hp he
    · injection he with he; subst he; exact hp

theorem linkLoop_complete {W : Finset ι} {order : List ι} (hord : ∀ x, x ∈ order ↔ x ∈ W) :
    ∀ {n : Nat} {L L' : ι → Finset ι}, NoSelf W L → linkLoop W order n L = some L' →
    (∀ y, L y ⊆ L' y) ∧ ∀ x ∈ W, ∀ y ∈ L' x, y ∈ W → ∀ r ∈ L' y, r ≠ x → r ∈ L' x := by
  intro n
  induction n with
  | zero => intro L L' _ h; cases h
  | succ n ih =>
    intro L L' hns he
    unfold linkLoop at he
    simp only at he
    obtain ⟨h1, h2, h3, h4⟩ := linkPass_facts order L false (fun x hx => (hord x).1 hx) hns
    split at he
    · obtain ⟨h5, h6⟩ := ih h1 he
      exact ⟨fun y => (h2 y).trans (h5 y), h6⟩
    · rename_i hb
      injection he with he
      subst he
      refine ⟨h2, ?_⟩
      obtain ⟨_, h6, h7⟩ := h4 (Bool.eq_false_iff.2 hb)
      unfold linkPass
      rw [h6]
      intro x hx y hy hyW r hr hrx
      have := h7 x ((hord x).2 hx)
      rw [← this, mem_newLinks]
      exact ⟨hrx, .inr ⟨y, hy, hyW, hr⟩⟩

theorem linkLoop_total_noSelf {W U : Finset ι} {order : List ι} (hord : ∀ x ∈ order, x ∈ W) :
    ∀ {n : Nat} {L : ι → Finset ι}, NoSelf W L → (∀ x ∈ W, L x ⊆ U) →
    (∑ x ∈ W, (U.card - (L x).card)) < n → ∃ L', linkLoop W order n L = some L' := by
  intro n
  induction n with
  | zero => intro L _ _ h; omega
  | succ n ih =>
    intro L hns hU hn
    unfold linkLoop
    simp only
    obtain ⟨h1, h2, h3, h4⟩ := linkPass_facts order L false hord hns
    have hU' : ∀ x ∈ W, (linkPass W order L).1 x ⊆ U := by
      intro x hx r hr
      have := linkPass_sound (W := W) (fun x r => x ∈ W → r ∈ U) (fun x y r _ hy h2 _ => h2 hy) order L false
        (fun x r hr hx => hU x hx hr) x r hr
      exact this hx
    split
    · rename_i hb
      apply ih h1 hU'
      rcases h3 hb with h | ⟨y, hy, hlt⟩
      · cases h
      · have : ∑ x ∈ W, (U.card - ((linkPass W order L).1 x).card) < ∑ x ∈ W, (U.card - (L x).card) := by
          apply Finset.sum_lt_sum
          · intro x hx
            have := Finset.card_le_card (h2 x)
            unfold linkPass
            omega
          · refine ⟨y, hy, ?_⟩
            have := Finset.card_le_card (hU' y hy)
            unfold linkPass at this ⊢
            omega
        unfold linkPass at this
        omega
    · exact ⟨_, rfl⟩

/-- After one whole pass no waiting cell is linked to itself. -/
theorem linkPass_makes_noSelf {W : Finset ι} : ∀ (order : List ι) (L : ι → Finset ι) (b : Bool),
    (∀ x ∈ W, x ∉ order → x ∉ L x) → NoSelf W (order.foldl (linkStep W) (L, b)).1 := by
  intro order
  induction order with
  | nil => intro L b h x hx; exact h x hx (by simp)
  | cons a order ih =>
    intro L b h
    rw [List.foldl_cons, linkStep_eq]
    apply ih
    intro x hx hxo
    by_cases hxa : x = a
    · subst hxa; rw [Function.update_self, mem_newLinks]; simp
    · rw [Function.update_of_ne hxa]; exact h x hx (by simp [hxa, hxo])

theorem linkLoop_total {W : Finset ι} {order : List ι} (hord : ∀ x, x ∈ order ↔ x ∈ W) {L : ι → Finset ι} {n : Nat}
    (hn : W.card * (W.biUnion L).card + 2 ≤ n) : ∃ L', linkLoop W order n L = some L' := by
  obtain ⟨n, rfl⟩ : ∃ m, n = m + 1 := ⟨n - 1, by omega⟩
  unfold linkLoop
  simp only
  split
  · have hns : NoSelf W (linkPass W order L).1 := linkPass_makes_noSelf order L false
      (fun x hx hxo => absurd ((hord x).2 hx) hxo)
    have hU : ∀ x ∈ W, (linkPass W order L).1 x ⊆ W.biUnion L := by
      intro x hx r hr
      have := linkPass_sound (W := W) (fun x r => x ∈ W → r ∈ W.biUnion L) (fun x y r _ hy h2 _ => h2 hy) order L false
        (fun x r hr hx => Finset.mem_biUnion.2 ⟨x, hx, hr⟩) x r hr
      exact this hx
    apply linkLoop_total_noSelf (fun x hx => (hord x).1 hx) hns hU
    have : ∑ x ∈ W, ((W.biUnion L).card - ((linkPass W order L).1 x).card) ≤ ∑ x ∈ W, (W.biUnion L).card :=
      Finset.sum_le_sum (fun x _ => Nat.sub_le _ _)
    rw [Finset.sum_const, Nat.nsmul_eq_mul] at this
    omega
  · exact ⟨_, rfl⟩

end Verif.Sched
