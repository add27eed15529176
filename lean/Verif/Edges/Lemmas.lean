import Verif.Edges.Spec

set_option linter.unusedSectionVars false

/-! # Helper lemmas for the edge tables -/

namespace Verif.Edges
open Verif
variable {ι σ : Type} [DecidableEq ι] [DecidableEq σ]

theorem run_snoc (s : St ι σ) (ops : List (Op ι σ)) (o : Op ι σ) : run s (ops ++ [o]) = step (run s ops) o := by
  simp [run]

theorem snoc_split {α : Type} {l a b : List α} {o x : α} :
    l ++ [o] = a ++ x :: b ↔ (b = [] ∧ l = a ∧ o = x) ∨ ∃ b', b = b' ++ [o] ∧ l = a ++ x :: b' := by
  constructor
  · intro h
    rcases List.eq_nil_or_concat b with rfl | ⟨b', y, rfl⟩
    · have := List.append_inj' h (by simp)
      exact .inl ⟨rfl, this.1, by simpa using this.2⟩
    · have h' : l ++ [o] = (a ++ x :: b') ++ [y] := by simpa using h
      have := List.append_inj' h' (by simp)
      have hy : o = y := by simpa using this.2
      subst hy
      exact .inr ⟨b', by simp, this.1⟩
  · rintro (⟨rfl, rfl, rfl⟩ | ⟨b', rfl, rfl⟩) <;> simp

theorem fresh_snoc {hist : List (Op ι σ)} {o : Op ι σ} {c : ι} :
    Fresh (hist ++ [o]) c ↔ o = .rerun c ∨ (Fresh hist c ∧ ¬ Disturbs o c) := by
  constructor
  · rintro ⟨a, b, h, hb⟩
    rcases snoc_split.1 h with ⟨rfl, rfl, rfl⟩ | ⟨b', rfl, rfl⟩
    · exact .inl rfl
    · exact .inr ⟨⟨a, b', rfl, fun o' ho' => hb o' (by simp [ho'])⟩, hb o (by simp)⟩
  · rintro (rfl | ⟨⟨a, b, rfl, hb⟩, hd⟩)
    · exact ⟨hist, [], by simp, by simp⟩
    · refine ⟨a, b ++ [o], by simp, ?_⟩
      intro o' ho'
      simp only [List.mem_append, List.mem_singleton] at ho'
      rcases ho' with h | rfl
      · exact hb _ h
      · exact hd

theorem pending_snoc {hist : List (Op ι σ)} {o : Op ι σ} {c : ι} :
    Pending (hist ++ [o]) c ↔ o = .rerun c ∨ (Pending hist c ∧ o ≠ .adopt c ∧ ∀ d, o ≠ .cleanup c d) := by
  constructor
  · rintro ⟨a, b, h, hb⟩
    rcases snoc_split.1 h with ⟨rfl, rfl, rfl⟩ | ⟨b', rfl, rfl⟩
    · exact .inl rfl
    · exact .inr ⟨⟨a, b', rfl, fun o' ho' => hb o' (by simp [ho'])⟩, hb o (by simp)⟩
  · rintro (rfl | ⟨⟨a, b, rfl, hb⟩, hd⟩)
    · exact ⟨hist, [], by simp, by simp⟩
    · refine ⟨a, b ++ [o], by simp, ?_⟩
      intro o' ho'
      simp only [List.mem_append, List.mem_singleton] at ho'
      rcases ho' with h | rfl
      · exact hb _ h
      · exact hd

theorem selfEarly_snoc {ops : List (Op ι σ)} {o : Op ι σ} (h : SelfEdgesEarly (ops ++ [o])) :
    SelfEdgesEarly ops ∧ ∀ c syms, o = .add c c syms →
      (∀ o' ∈ ops, o' ≠ .rerun c ∧ o' ≠ .adopt c) ∨ Fresh ops c := by
  constructor
  · intro a c syms b hab
    exact h a c syms (b ++ [o]) (by simp [hab])
  · rintro c syms rfl
    exact h ops c syms [] rfl

theorem runsFinish_snoc {ops : List (Op ι σ)} {o : Op ι σ} (h : RunsFinish (ops ++ [o])) :
    RunsFinish ops ∧ ∀ c, o = .rerun c → ¬ Pending ops c := by
  constructor
  · intro a c b hab
    exact h a c (b ++ [o]) (by simp [hab])
  · rintro c rfl
    exact h ops c [] rfl

/-! ## Forward symmetry and absence of short cycles -/

/-- The invariant for histories in which self edges come early. `F` is the set of edges of the current version plus those
of an undisturbed previous version. -/
structure Inv (hist : List (Op ι σ)) (s : St ι σ) : Prop where
  sym : ∀ c p, s.par c p ⊆ s.chi p c
  symOld : ∀ c, Fresh hist c → ∀ p, s.old c p ⊆ s.chi p c
  unshared : ∀ c, Fresh hist c → s.shared c = false
  self : ∀ c, s.par c c = ∅
  selfOld : ∀ c, s.old c c = ∅
  two : ∀ c p, s.par c p ≠ ∅ → s.par p c = ∅
  twoOld : ∀ c p, Fresh hist c → s.old c p ≠ ∅ → s.par p c = ∅
  twoOldOld : ∀ c p, Fresh hist c → Fresh hist p → s.old c p ≠ ∅ → s.old p c = ∅
  never : ∀ c, (∀ o ∈ hist, o ≠ .rerun c ∧ o ≠ .adopt c) → s.shared c = false ∧ ∀ p, s.old c p = ∅

theorem inv_init : Inv ([] : List (Op ι σ)) St.init where
  sym := by simp [St.init]
  symOld := by simp [St.init]
  unshared := by simp [St.init]
  self := by simp [St.init]
  selfOld := by simp [St.init]
  two := by simp [St.init]
  twoOld := by simp [St.init]
  twoOldOld := by simp [St.init]
  never := by simp [St.init]

theorem set2_apply (f : ι → ι → Finset σ) (a b x y : ι) (v : Finset σ) :
    set2 f a b v x y = if x = a ∧ y = b then v else f x y := rfl

theorem eq_empty_of_sdiff_ne {A B : Finset σ} (h : A \ B ≠ ∅) : A ≠ ∅ := by
  rintro rfl; simp at h

theorem inv_add {hist : List (Op ι σ)} {s : St ι σ} (h : Inv hist s) (c p : ι) (syms : Finset σ)
    (hself : p = c → (∀ o ∈ hist, o ≠ .rerun c ∧ o ≠ .adopt c) ∨ Fresh hist c) :
    Inv (hist ++ [.add c p syms]) (addParent s c p syms) := by
  have hfr : ∀ d, Fresh (hist ++ [.add c p syms]) d → Fresh hist d := by
    intro d hd
    rcases fresh_snoc.1 hd with h' | ⟨h', _⟩
    · exact absurd h' (by simp)
    · exact h'
  have hnever : ∀ d, (∀ o ∈ hist ++ [Op.add c p syms], o ≠ .rerun d ∧ o ≠ .adopt d) →
      ∀ o ∈ hist, o ≠ .rerun d ∧ o ≠ .adopt d := fun d hd o ho => hd o (by simp [ho])
  have hkeep : Inv (hist ++ [.add c p syms]) s :=
    ⟨h.sym, fun d hd => h.symOld d (hfr d hd), fun d hd => h.unshared d (hfr d hd), h.self, h.selfOld, h.two,
      fun d q hd => h.twoOld d q (hfr d hd), fun d q hd hq => h.twoOldOld d q (hfr d hd) (hfr q hq),
      fun d hd => h.never d (hnever d hd)⟩
  unfold addParent
  split
  · exact hkeep
  split
  · exact hkeep
  rename_i hne hchi
  have hchi : s.chi c p = ∅ := by simpa using hchi
  split
  · -- self edge
    rename_i hpc
    rcases hself hpc with hn | hf
    · obtain ⟨h1, h2⟩ := h.never c hn
      have : inherit s c syms = s := by
        unfold inherit St.prevPar
        have : (fun x p => if x = c then s.par c p ∪ (syms ∩ (if s.shared c = true then s.par c else s.old c) p)
            else s.par x p) = s.par := by
          funext x q
          split
          · rename_i hx; subst hx; simp [h1, h2]
          · rfl
        rw [this]
      rw [this]; exact hkeep
    · have hsh := h.unshared c hf
      have hprev : ∀ q, s.prevPar c q = s.old c q := by intro q; simp [St.prevPar, hsh]
      have hpar : ∀ x q, (inherit s c syms).par x q = if x = c then s.par c q ∪ (syms ∩ s.old c q) else s.par x q := by
        intro x q; simp [inherit, hprev]
      have hsub : ∀ x q, (inherit s c syms).par x q ≠ ∅ → s.par x q ≠ ∅ ∨ (x = c ∧ s.old c q ≠ ∅) := by
        intro x q hx
        rw [hpar] at hx
        by_cases hxc : x = c
        · subst hxc
          simp only [if_true] at hx
          by_cases hp : s.par x q = ∅
          · right; refine ⟨rfl, ?_⟩; rintro ho; rw [hp, ho] at hx; simp at hx
          · exact .inl hp
        · rw [if_neg hxc] at hx; exact .inl hx
      refine ⟨?_, fun d hd => h.symOld d (hfr d hd), fun d hd => h.unshared d (hfr d hd), ?_, h.selfOld, ?_, ?_,
        fun d q hd hq => h.twoOldOld d q (hfr d hd) (hfr q hq), fun d hd => h.never d (hnever d hd)⟩
      · intro x q
        rw [hpar]
        split
        · rename_i hx; subst hx
          exact Finset.union_subset (h.sym x q) (Finset.inter_subset_right.trans (h.symOld x hf q))
        · exact h.sym x q
      · intro x
        by_contra hx
        rcases hsub x x hx with h1 | ⟨rfl, h1⟩
        · exact h1 (h.self x)
        · exact h1 (h.selfOld x)
      · intro x q hx
        by_contra hq
        rcases hsub x q hx with h1 | ⟨rfl, h1⟩ <;> rcases hsub q x hq with h2 | ⟨rfl, h2⟩
        · exact h2 (h.two x q h1)
        · exact h1 (h.twoOld q x hf h2)
        · exact h2 (h.twoOld x q hf h1)
        · exact h1 (h.selfOld q)
      · intro x q hx ho
        by_contra hq
        rcases hsub q x hq with h2 | ⟨rfl, h2⟩
        · exact h2 (h.twoOld x q (hfr x hx) ho)
        · exact h2 (h.twoOldOld x q (hfr x hx) hf ho)
  · -- proper edge
    rename_i hpc
    have hparPC : s.par p c = ∅ := Finset.subset_empty.1 (hchi ▸ h.sym p c)
    have holdPC : Fresh hist p → s.old p c = ∅ := fun hf => Finset.subset_empty.1 (hchi ▸ h.symOld p hf c)
    refine ⟨?_, ?_, fun d hd => h.unshared d (hfr d hd), ?_, h.selfOld, ?_, ?_,
      fun d q hd hq => h.twoOldOld d q (hfr d hd) (hfr q hq), fun d hd => h.never d (hnever d hd)⟩
    · intro x q
      simp only [set2_apply]
      by_cases hx : x = c ∧ q = p
      · obtain ⟨rfl, rfl⟩ := hx
        simp only [and_self, if_true]
        exact Finset.union_subset_union (h.sym x q) (Finset.Subset.refl _)
      · rw [if_neg hx, if_neg (fun h' => hx ⟨h'.2, h'.1⟩)]; exact h.sym x q
    · intro x hx q
      simp only [set2_apply]
      by_cases hq : q = p ∧ x = c
      · obtain ⟨rfl, rfl⟩ := hq
        simp only [and_self, if_true]
        exact (h.symOld x (hfr x hx) q).trans Finset.subset_union_left
      · rw [if_neg hq]; exact h.symOld x (hfr x hx) q
    · intro x
      simp only [set2_apply]
      rw [if_neg (fun h' : x = c ∧ x = p => hpc (h'.2 ▸ h'.1))]; exact h.self x
    · intro x q hx
      simp only [set2_apply] at hx ⊢
      by_cases h1 : x = c ∧ q = p
      · obtain ⟨rfl, rfl⟩ := h1
        rw [if_neg (fun h' => hpc h'.1)]; exact hparPC
      · rw [if_neg h1] at hx
        by_cases h2 : q = c ∧ x = p
        · obtain ⟨rfl, rfl⟩ := h2; exact absurd hparPC hx
        · rw [if_neg h2]; exact h.two x q hx
    · intro x q hx ho
      simp only [set2_apply]
      by_cases h2 : q = c ∧ x = p
      · obtain ⟨rfl, rfl⟩ := h2; exact absurd (holdPC (hfr x hx)) ho
      · rw [if_neg h2]; exact h.twoOld x q (hfr x hx) ho

theorem inv_remove {hist : List (Op ι σ)} {s : St ι σ} (h : Inv hist s) (c p : ι) (syms : Finset σ) :
    Inv (hist ++ [.remove c p syms]) (removeParent s c p syms) := by
  have hfr : ∀ d, Fresh (hist ++ [.remove c p syms]) d → Fresh hist d ∧ d ≠ c := by
    intro d hd
    rcases fresh_snoc.1 hd with h' | ⟨h', h''⟩
    · exact absurd h' (by simp)
    · exact ⟨h', fun e => h'' e.symm⟩
  have hne : ∀ x q, (removeParent s c p syms).par x q ≠ ∅ → s.par x q ≠ ∅ := by
    intro x q hx
    simp only [removeParent, set2_apply] at hx
    split at hx
    · rename_i h'; obtain ⟨rfl, rfl⟩ := h'; exact eq_empty_of_sdiff_ne hx
    · exact hx
  have he : ∀ x q, s.par x q = ∅ → (removeParent s c p syms).par x q = ∅ := by
    intro x q hx; by_contra h'; exact hne x q h' hx
  refine ⟨?_, ?_, fun d hd => h.unshared d (hfr d hd).1, fun x => he x x (h.self x), h.selfOld,
    fun x q hx => he q x (h.two x q (hne x q hx)), fun x q hx ho => he q x (h.twoOld x q (hfr x hx).1 ho),
    fun d q hd hq => h.twoOldOld d q (hfr d hd).1 (hfr q hq).1,
    fun d hd => h.never d (fun o ho => hd o (by simp [ho]))⟩
  · intro x q
    simp only [removeParent, set2_apply]
    by_cases hx : x = c ∧ q = p
    · obtain ⟨rfl, rfl⟩ := hx
      simp only [and_self, if_true]
      exact Finset.sdiff_subset_sdiff (h.sym x q) (Finset.Subset.refl _)
    · rw [if_neg hx, if_neg (fun h' => hx ⟨h'.2, h'.1⟩)]; exact h.sym x q
  · intro x hx q
    simp only [removeParent, set2_apply]
    rw [if_neg (fun h' => (hfr x hx).2 h'.2)]; exact h.symOld x (hfr x hx).1 q

theorem inv_rerun {hist : List (Op ι σ)} {s : St ι σ} (h : Inv hist s) (c : ι) :
    Inv (hist ++ [.rerun c]) (rerun s c) := by
  have hfr : ∀ d, Fresh (hist ++ [.rerun c]) d → d = c ∨ (Fresh hist d ∧ d ≠ c) := by
    intro d hd
    by_cases hdc : d = c
    · exact .inl hdc
    rcases fresh_snoc.1 hd with h' | ⟨h', _⟩
    · exact .inl (by injection h' with h'; exact h'.symm)
    · exact .inr ⟨h', hdc⟩
  have hpar : ∀ x q, (rerun s c).par x q = if x = c then ∅ else s.par x q := by
    intro x q; simp only [rerun]; split <;> rfl
  have hold : ∀ x q, (rerun s c).old x q = if x = c then s.par c q else s.old x q := by
    intro x q; simp only [rerun]; split <;> rfl
  refine ⟨?_, ?_, ?_, ?_, ?_, ?_, ?_, ?_, ?_⟩
  · intro x q; rw [hpar]; split
    · simp
    · exact h.sym x q
  · intro x hx q
    rw [hold]
    rcases hfr x hx with rfl | ⟨hx, hxc⟩
    · simp only [if_true]; exact h.sym x q
    · rw [if_neg hxc]; exact h.symOld x hx q
  · intro x hx
    simp only [rerun]
    rcases hfr x hx with rfl | ⟨hx, hxc⟩
    · simp
    · rw [if_neg hxc]; exact h.unshared x hx
  · intro x; rw [hpar]; split
    · rfl
    · exact h.self x
  · intro x; rw [hold]; split
    · rename_i hx; subst hx; exact h.self x
    · exact h.selfOld x
  · intro x q hx
    rw [hpar] at hx ⊢
    split
    · rfl
    · split at hx
      · exact absurd rfl hx
      · exact h.two x q hx
  · intro x q hx ho
    rw [hpar]
    rw [hold] at ho
    split
    · rfl
    · rename_i hqc
      rcases hfr x hx with rfl | ⟨hx, hxc⟩
      · simp only [if_true] at ho; exact h.two x q ho
      · rw [if_neg hxc] at ho; exact h.twoOld x q hx ho
  · intro x q hx hq ho
    rw [hold] at ho ⊢
    rcases hfr x hx with rfl | ⟨hx, hxc⟩
    · simp only [if_true] at ho
      rcases hfr q hq with rfl | ⟨hq, hqc⟩
      · simp only [if_true]; exact h.self q
      · rw [if_neg hqc]
        by_contra h'
        exact ho (h.twoOld q x hq h')
    · rw [if_neg hxc] at ho
      rcases hfr q hq with rfl | ⟨hq, hqc⟩
      · simp only [if_true]
        exact h.twoOld x q ‹Fresh hist x› ho
      · rw [if_neg hqc]; exact h.twoOldOld x q ‹Fresh hist x› hq ho
  · intro x hx
    have hxc : x ≠ c := by
      rintro rfl; exact (hx (.rerun x) (by simp)).1 rfl
    have := h.never x (fun o ho => hx o (by simp [ho]))
    refine ⟨by simp [rerun, hxc, this.1], fun q => by rw [hold, if_neg hxc]; exact this.2 q⟩

theorem inv_adopt {hist : List (Op ι σ)} {s : St ι σ} (h : Inv hist s) (c : ι)
    (hok : Fresh hist c) : Inv (hist ++ [.adopt c]) (adopt s c) := by
  have hfr : ∀ d, Fresh (hist ++ [.adopt c]) d → Fresh hist d ∧ d ≠ c := by
    intro d hd
    rcases fresh_snoc.1 hd with h' | ⟨h', h''⟩
    · exact absurd h' (by simp)
    · exact ⟨h', fun e => h'' e.symm⟩
  have hsh := h.unshared c hok
  have hpar : ∀ x q, (adopt s c).par x q = if x = c then s.old c q else s.par x q := by
    intro x q; simp only [adopt, St.prevPar, hsh]; split <;> simp
  refine ⟨?_, fun d hd => h.symOld d (hfr d hd).1, ?_, ?_, h.selfOld, ?_, ?_,
    fun d q hd hq => h.twoOldOld d q (hfr d hd).1 (hfr q hq).1, ?_⟩
  · intro x q; rw [hpar]; split
    · rename_i hx; subst hx; exact h.symOld x hok q
    · exact h.sym x q
  · intro x hx
    simp only [adopt]; rw [if_neg (hfr x hx).2]; exact h.unshared x (hfr x hx).1
  · intro x; rw [hpar]; split
    · rename_i hx; subst hx; exact h.selfOld x
    · exact h.self x
  · intro x q hx
    rw [hpar] at hx ⊢
    split at hx
    · rename_i hxc; subst hxc
      split
      · rename_i hqx; subst hqx; exact h.selfOld q
      · exact h.twoOld x q hok hx
    · split
      · rename_i hqc; subst hqc
        by_contra h'
        exact hx (h.twoOld q x hok h')
      · exact h.two x q hx
  · intro x q hx ho
    rw [hpar]
    split
    · rename_i hqc; subst hqc; exact h.twoOldOld x q (hfr x hx).1 hok ho
    · exact h.twoOld x q (hfr x hx).1 ho
  · intro x hx
    have hxc : x ≠ c := by
      rintro rfl; exact (hx (.adopt x) (by simp)).2 rfl
    have := h.never x (fun o ho => hx o (by simp [ho]))
    exact ⟨by simp [adopt, hxc, this.1], this.2⟩

theorem inv_cleanup {hist : List (Op ι σ)} {s : St ι σ} (h : Inv hist s) (c : ι) (d : Finset σ) :
    Inv (hist ++ [.cleanup c d]) (cleanup s c d) := by
  have hfr : ∀ x, ¬ Fresh (hist ++ [.cleanup c d]) x := by
    intro x hx
    rcases fresh_snoc.1 hx with h' | ⟨_, h''⟩
    · exact absurd h' (by simp)
    · exact h'' trivial
  have hpar : ∀ x q, (cleanup s c d).par x q = s.par x q \ d := by
    intro x q
    simp only [cleanup, dropOld, dropDangling]
    split
    · rename_i hx; subst hx
      ext a; simp; tauto
    · rfl
  have hne : ∀ x q, (cleanup s c d).par x q ≠ ∅ → s.par x q ≠ ∅ := by
    intro x q hx; rw [hpar] at hx; exact eq_empty_of_sdiff_ne hx
  have he : ∀ x q, s.par x q = ∅ → (cleanup s c d).par x q = ∅ := by
    intro x q hx; by_contra h'; exact hne x q h' hx
  refine ⟨?_, fun x hx => absurd hx (hfr x), fun x hx => absurd hx (hfr x), fun x => he x x (h.self x), h.selfOld,
    fun x q hx => he q x (h.two x q (hne x q hx)), fun x _ hx => absurd hx (hfr x),
    fun x _ hx => absurd hx (hfr x), fun x hx => h.never x (fun o ho => hx o (by simp [ho]))⟩
  intro x q a ha
  have hap : a ∈ s.par x q \ d := by rw [hpar] at ha; exact ha
  have hnep : s.par x q ≠ ∅ := by
    rintro h'; rw [h'] at hap; simp at hap
  have hac : a ∈ s.chi q x := h.sym x q (Finset.mem_sdiff.1 hap).1
  simp only [cleanup, dropOld, dropDangling]
  split
  · rename_i hx; subst hx
    simp only [hnep, ne_eq, not_false_eq_true, if_true, Finset.mem_sdiff]
    refine ⟨⟨hac, (Finset.mem_sdiff.1 hap).2⟩, ?_⟩
    rintro ⟨_, h'⟩
    exact h' (Finset.mem_sdiff.1 hap)
  · exact Finset.mem_sdiff.2 ⟨hac, (Finset.mem_sdiff.1 hap).2⟩

theorem untouched_snoc {hist : List (Op ι σ)} {o : Op ι σ} {c : ι} :
    Untouched (hist ++ [o]) c ↔ o = .rerun c ∨ (Untouched hist c ∧ ¬ Disturbs o c ∧ ∀ p syms, o ≠ .add c p syms) := by
  constructor
  · rintro ⟨a, b, h, hb⟩
    rcases snoc_split.1 h with ⟨rfl, rfl, rfl⟩ | ⟨b', rfl, rfl⟩
    · exact .inl rfl
    · exact .inr ⟨⟨a, b', rfl, fun o' ho' => hb o' (by simp [ho'])⟩, hb o (by simp)⟩
  · rintro (rfl | ⟨⟨a, b, rfl, hb⟩, hd⟩)
    · exact ⟨hist, [], by simp, by simp⟩
    · refine ⟨a, b ++ [o], by simp, ?_⟩
      intro o' ho'
      simp only [List.mem_append, List.mem_singleton] at ho'
      rcases ho' with h | rfl
      · exact hb _ h
      · exact hd

theorem Untouched.fresh {hist : List (Op ι σ)} {c : ι} : Untouched hist c → Fresh hist c := by
  rintro ⟨a, b, h, hb⟩
  exact ⟨a, b, h, fun o ho => (hb o ho).1⟩

theorem Untouched.pending {hist : List (Op ι σ)} {c : ι} : Untouched hist c → Pending hist c := by
  rintro ⟨a, b, h, hb⟩
  refine ⟨a, b, h, fun o ho => ⟨?_, ?_⟩⟩
  · rintro rfl; exact (hb _ ho).1 rfl
  · rintro d rfl; exact (hb _ ho).1 trivial

theorem adopts_snoc {ops : List (Op ι σ)} {o : Op ι σ} (h : AdoptsAtOnce (ops ++ [o])) :
    AdoptsAtOnce ops ∧ ∀ c, o = .adopt c → Untouched ops c := by
  constructor
  · intro a c b hab
    exact h a c (b ++ [o]) (by simp [hab])
  · rintro c rfl
    exact h ops c [] rfl

theorem inv_run (ops : List (Op ι σ)) (h1 : SelfEdgesEarly ops) (h2 : AdoptsAtOnce ops) : Inv ops (run St.init ops) := by
  induction ops using List.reverseRecOn with
  | nil => exact inv_init
  | append_singleton ops o ih =>
    obtain ⟨h1, h1'⟩ := selfEarly_snoc h1
    obtain ⟨h2, h2'⟩ := adopts_snoc h2
    have hI := ih h1 h2
    rw [run_snoc]
    cases o with
    | add c p syms => exact inv_add hI c p syms (by rintro rfl; exact h1' p syms rfl)
    | remove c p syms => exact inv_remove hI c p syms
    | rerun c => exact inv_rerun hI c
    | adopt c => exact inv_adopt hI c (h2' c rfl).fresh
    | cleanup c d => exact inv_cleanup hI c d

/-! ## No self edge, in every history -/

theorem noSelf_run (ops : List (Op ι σ)) :
    ∀ c, (run St.init ops : St ι σ).par c c = ∅ ∧ (run St.init ops : St ι σ).old c c = ∅ := by
  induction ops using List.reverseRecOn with
  | nil => intro c; simp [run, St.init]
  | append_singleton ops o ih =>
    rw [run_snoc]
    intro x
    obtain ⟨h1, h2⟩ := ih x
    generalize run St.init ops = s at h1 h2
    have hp : s.prevPar x x = ∅ := by unfold St.prevPar; split <;> assumption
    cases o with
    | add c p syms =>
      simp only [step, addParent]
      split
      · exact ⟨h1, h2⟩
      split
      · exact ⟨h1, h2⟩
      split
      · refine ⟨?_, h2⟩
        simp only [inherit]
        split
        · rename_i hx; subst hx; simp [h1, hp]
        · exact h1
      · rename_i hpc
        refine ⟨?_, h2⟩
        show set2 _ _ _ _ _ _ = _
        rw [set2_apply, if_neg (fun h' : x = c ∧ x = p => hpc (h'.2 ▸ h'.1))]; exact h1
    | remove c p syms =>
      refine ⟨?_, h2⟩
      simp only [step, removeParent, set2_apply]
      split
      · rename_i h; obtain ⟨rfl, rfl⟩ := h; simp [h1]
      · exact h1
    | rerun c =>
      simp only [step, rerun]
      split
      · rename_i h; subst h; exact ⟨rfl, h1⟩
      · exact ⟨h1, h2⟩
    | adopt c =>
      simp only [step, adopt]
      split
      · rename_i h; subst h; exact ⟨hp, h2⟩
      · exact ⟨h1, h2⟩
    | cleanup c d =>
      simp only [step, cleanup, dropOld, dropDangling]
      refine ⟨?_, h2⟩
      split
      · rename_i h; subst h; simp [h1]
      · simp [h1]

/-! ## Backward symmetry -/

/-- Invariant for the other direction. -/
structure InvBack (hist : List (Op ι σ)) (s : St ι σ) : Prop where
  back : ∀ c p a, a ∈ s.chi p c → a ∈ s.par c p ∨ (Pending hist c ∧ a ∈ s.old c p)
  unshared : ∀ c, Pending hist c → s.shared c = false
  fresh : ∀ c, Untouched hist c → ∀ p, s.par c p = ∅

theorem invBack_run (ops : List (Op ι σ)) (h1 : RunsFinish ops) (h2 : AdoptsAtOnce ops) :
    InvBack ops (run St.init ops) := by
  induction ops using List.reverseRecOn with
  | nil =>
    refine ⟨by simp [run, St.init], by simp [run, St.init], by simp [run, St.init]⟩
  | append_singleton ops o ih =>
    obtain ⟨h1, h1'⟩ := runsFinish_snoc h1
    obtain ⟨h2, h2'⟩ := adopts_snoc h2
    have h := ih h1 h2
    rw [run_snoc]
    generalize run St.init ops = s at h
    cases o with
    | add c p syms =>
      have hP : ∀ x, Pending (ops ++ [.add c p syms]) x ↔ Pending ops x := by
        intro x; rw [pending_snoc]; simp
      have hU : ∀ x, Untouched (ops ++ [.add c p syms]) x → Untouched ops x ∧ x ≠ c := by
        intro x hx
        rcases untouched_snoc.1 hx with h' | ⟨h', _, h''⟩
        · exact absurd h' (by simp)
        · exact ⟨h', by rintro rfl; exact h'' p syms rfl⟩
      have hkeep : InvBack (ops ++ [.add c p syms]) s :=
        ⟨fun x q a ha => by rw [hP]; exact h.back x q a ha, fun x hx => h.unshared x ((hP x).1 hx),
          fun x hx => h.fresh x (hU x hx).1⟩
      simp only [step, addParent]
      split
      · exact hkeep
      split
      · exact hkeep
      split
      · refine ⟨?_, fun x hx => h.unshared x ((hP x).1 hx), ?_⟩
        · intro x q a ha
          rcases h.back x q a ha with h' | h'
          · left; simp only [inherit]; split
            · rename_i hx; subst hx; exact Finset.mem_union_left _ h'
            · exact h'
          · right; rw [hP]; exact h'
        · intro x hx q
          simp only [inherit]
          rw [if_neg (hU x hx).2]; exact h.fresh x (hU x hx).1 q
      · refine ⟨?_, fun x hx => h.unshared x ((hP x).1 hx), ?_⟩
        · intro x q a ha
          simp only [set2_apply] at ha ⊢
          rw [hP]
          by_cases hx : q = p ∧ x = c
          · obtain ⟨rfl, rfl⟩ := hx
            simp only [and_self, if_true, Finset.mem_union] at ha ⊢
            rcases ha with ha | ha
            · rcases h.back x q a ha with h' | h'
              · exact .inl (.inl h')
              · exact .inr h'
            · exact .inl (.inr ha)
          · rw [if_neg hx] at ha
            rw [if_neg (fun h' : x = c ∧ q = p => hx ⟨h'.2, h'.1⟩)]
            exact h.back x q a ha
        · intro x hx q
          simp only [set2_apply]
          rw [if_neg (fun h' : x = c ∧ q = p => (hU x hx).2 h'.1)]; exact h.fresh x (hU x hx).1 q
    | remove c p syms =>
      have hP : ∀ x, Pending (ops ++ [.remove c p syms]) x ↔ Pending ops x := by
        intro x; rw [pending_snoc]; simp
      have hU : ∀ x, Untouched (ops ++ [.remove c p syms]) x → Untouched ops x := by
        intro x hx
        rcases untouched_snoc.1 hx with h' | ⟨h', _, _⟩
        · exact absurd h' (by simp)
        · exact h'
      refine ⟨?_, fun x hx => h.unshared x ((hP x).1 hx), ?_⟩
      · intro x q a ha
        simp only [step, removeParent, set2_apply] at ha ⊢
        rw [hP]
        by_cases hx : q = p ∧ x = c
        · obtain ⟨rfl, rfl⟩ := hx
          simp only [and_self, if_true, Finset.mem_sdiff] at ha ⊢
          rcases h.back x q a ha.1 with h' | h'
          · exact .inl ⟨h', ha.2⟩
          · exact .inr h'
        · rw [if_neg hx] at ha
          rw [if_neg (fun h' : x = c ∧ q = p => hx ⟨h'.2, h'.1⟩)]
          exact h.back x q a ha
      · intro x hx q
        have := h.fresh x (hU x hx)
        simp only [step, removeParent, set2_apply]
        split
        · rename_i h'; obtain ⟨rfl, rfl⟩ := h'; simp [this]
        · exact this q
    | rerun c =>
      have hnp := h1' c rfl
      refine ⟨?_, ?_, ?_⟩
      · intro x q a ha
        simp only [step, rerun] at ha ⊢
        by_cases hx : x = c
        · subst hx
          right
          refine ⟨pending_snoc.2 (.inl rfl), ?_⟩
          simp only [if_true]
          rcases h.back x q a ha with h' | h'
          · exact h'
          · exact absurd h'.1 hnp
        · rw [if_neg hx, if_neg hx]
          rcases h.back x q a ha with h' | h'
          · exact .inl h'
          · exact .inr ⟨pending_snoc.2 (.inr ⟨h'.1, by simp, by simp⟩), h'.2⟩
      · intro x hx
        simp only [step, rerun]
        split
        · rfl
        · rename_i hxc
          rcases pending_snoc.1 hx with h' | h'
          · injection h' with h'; exact absurd h'.symm hxc
          · exact h.unshared x h'.1
      · intro x hx q
        simp only [step, rerun]
        split
        · rfl
        · rename_i hxc
          rcases untouched_snoc.1 hx with h' | h'
          · injection h' with h'; exact absurd h'.symm hxc
          · exact h.fresh x h'.1 q
    | adopt c =>
      have hu := h2' c rfl
      have hsh := h.unshared c hu.pending
      have hnP : ¬ Pending (ops ++ [.adopt c]) c := by rw [pending_snoc]; simp
      refine ⟨?_, ?_, ?_⟩
      · intro x q a ha
        simp only [step, adopt] at ha ⊢
        by_cases hx : x = c
        · subst hx
          left
          simp only [if_true, St.prevPar, hsh]
          rcases h.back x q a ha with h' | h'
          · rw [h.fresh x hu q] at h'; simp at h'
          · exact h'.2
        · rw [if_neg hx]
          rcases h.back x q a ha with h' | h'
          · exact .inl h'
          · exact .inr ⟨pending_snoc.2 (.inr ⟨h'.1, by simp; exact fun e => hx e.symm, by simp⟩), h'.2⟩
      · intro x hx
        have hxc : x ≠ c := by rintro rfl; exact hnP hx
        simp only [step, adopt]
        rw [if_neg hxc]
        rcases pending_snoc.1 hx with h' | h'
        · exact absurd h' (by simp)
        · exact h.unshared x h'.1
      · intro x hx q
        have hxc : x ≠ c := by rintro rfl; exact hnP hx.pending
        simp only [step, adopt]
        rw [if_neg hxc]
        rcases untouched_snoc.1 hx with h' | h'
        · exact absurd h' (by simp)
        · exact h.fresh x h'.1 q
    | cleanup c d =>
      have hnP : ¬ Pending (ops ++ [.cleanup c d]) c := by rw [pending_snoc]; simp
      have hP : ∀ x, x ≠ c → Pending ops x → Pending (ops ++ [.cleanup c d]) x := by
        intro x hx h'
        exact pending_snoc.2 (.inr ⟨h', by simp, by simp; exact fun e => absurd e.symm hx⟩)
      refine ⟨?_, ?_, ?_⟩
      · intro x q a ha
        simp only [step, cleanup, dropOld, dropDangling] at ha ⊢
        by_cases hx : x = c
        · subst hx
          simp only [if_true] at ha ⊢
          left
          obtain ⟨ha1, ha2⟩ := Finset.mem_sdiff.1 ha
          have hac : a ∈ s.chi q x ∧ (s.par x q ≠ ∅ → a ∉ d) := by
            split at ha1
            · exact ⟨(Finset.mem_sdiff.1 ha1).1, fun _ => (Finset.mem_sdiff.1 ha1).2⟩
            · rename_i h'; exact ⟨ha1, fun h'' => absurd h'' h'⟩
          have hmem : a ∈ s.par x q \ d := by
            rcases h.back x q a hac.1 with h' | h'
            · have : s.par x q ≠ ∅ := by rintro e; rw [e] at h'; simp at h'
              exact Finset.mem_sdiff.2 ⟨h', hac.2 this⟩
            · by_contra hn
              apply ha2
              have hsh := h.unshared x h'.1
              simp only [St.prevPar, hsh, Finset.mem_sdiff]
              exact ⟨h'.2, fun h'' => hn (Finset.mem_sdiff.2 h'')⟩
          rw [Finset.mem_sdiff]
          refine ⟨hmem, ?_⟩
          intro h'
          exact (Finset.mem_sdiff.1 h').2 hmem
        · simp only [if_neg hx] at ha ⊢
          have hac : a ∈ s.chi q x ∧ (s.par x q ≠ ∅ → a ∉ d) := by
            split at ha
            · exact ⟨(Finset.mem_sdiff.1 ha).1, fun _ => (Finset.mem_sdiff.1 ha).2⟩
            · rename_i h'; exact ⟨ha, fun h'' => absurd h'' h'⟩
          rcases h.back x q a hac.1 with h' | h'
          · left
            have : s.par x q ≠ ∅ := by rintro e; rw [e] at h'; simp at h'
            exact Finset.mem_sdiff.2 ⟨h', hac.2 this⟩
          · exact .inr ⟨hP x hx h'.1, h'.2⟩
      · intro x hx
        rcases pending_snoc.1 hx with h' | h'
        · exact absurd h' (by simp)
        · exact h.unshared x h'.1
      · intro x hx
        rcases untouched_snoc.1 hx with h' | h'
        · exact absurd h' (by simp)
        · exact absurd trivial h'.2.1

/-! ## Statement override -/

/-- First loop of the override: after the children in `cs`, the edges to `p` from `cs` point to `q`. -/
theorem replaceParents_ok (p q : ι) (hpq : p ≠ q) : ∀ (cs : List ι) (s : St ι σ), cs.Nodup →
    (∀ x y, s.par x y = s.chi y x) → (∀ c ∈ cs, s.par c p ≠ ∅) → (∀ c ∈ cs, s.par c q = ∅) →
    ∃ s', cs.foldlM (fun s c => replaceParent s c p q) s = .ok s' ∧ (∀ x y, s'.par x y = s'.chi y x) ∧
      ∀ x y, s'.par x y = if x ∈ cs then (if y = p then ∅ else if y = q then s.par x p else s.par x y) else s.par x y := by
  intro cs
  induction cs with
  | nil => intro s _ hs _ _; exact ⟨s, rfl, hs, by simp⟩
  | cons c cs ih =>
    intro s hnd hs hp hq
    obtain ⟨hc, hnd⟩ := List.nodup_cons.1 hnd
    have hcp := hp c (by simp)
    have hcq := hq c (by simp)
    set s1 : St ι σ := { s with
      par := set2 (set2 s.par c p ∅) c q (set2 s.par c p ∅ c q ∪ s.par c p)
      chi := set2 (set2 s.chi p c ∅) q c (set2 s.chi p c ∅ q c ∪ s.par c p) } with hs1
    have hstep : replaceParent s c p q = .ok s1 := by
      unfold replaceParent
      rw [if_neg (by rw [← hs]; simpa using hcp)]
    have hpar1 : ∀ x y, s1.par x y = if x = c then (if y = p then ∅ else if y = q then s.par c p else s.par c y)
        else s.par x y := by
      intro x y
      simp only [hs1, set2_apply]
      by_cases hx : x = c
      · subst hx
        by_cases hy : y = q
        · subst hy
          simp [hpq.symm, hcq]
        · simp [hy]
      · simp [hx]
    have hchi1 : ∀ x y, s1.par x y = s1.chi y x := by
      intro x y
      rw [hpar1]
      simp only [hs1, set2_apply]
      by_cases hx : x = c
      · subst hx
        by_cases hy : y = q
        · subst hy
          have hcq' : s.chi y x = ∅ := by rw [← hs]; exact hcq
          simp [hpq.symm, hcq']
        · simp [hy, hs]
      · simp [hx, hs]
    obtain ⟨s', h1, h2, h3⟩ := ih s1 hnd hchi1
      (fun d hd => by rw [hpar1, if_neg (fun e : d = c => hc (e ▸ hd))]; exact hp d (by simp [hd]))
      (fun d hd => by rw [hpar1, if_neg (fun e : d = c => hc (e ▸ hd))]; exact hq d (by simp [hd]))
    refine ⟨s', by rw [List.foldlM_cons, hstep]; exact h1, h2, ?_⟩
    intro x y
    rw [h3, hpar1, hpar1]
    by_cases hx : x = c
    · subst hx
      simp [hc]
    · simp [hx]

/-- Second loop of the override. -/
theorem replaceChildren_ok (p q : ι) (hpq : p ≠ q) : ∀ (ps : List ι) (s : St ι σ), ps.Nodup →
    (∀ x y, s.par x y = s.chi y x) → (∀ r ∈ ps, s.par p r ≠ ∅) → (∀ r ∈ ps, s.par q r = ∅) →
    ∃ s', ps.foldlM (fun s r => replaceChild s r p q) s = .ok s' ∧ (∀ x y, s'.par x y = s'.chi y x) ∧
      ∀ x y, s'.par x y = if y ∈ ps then (if x = p then ∅ else if x = q then s.par p y else s.par x y) else s.par x y := by
  intro ps
  induction ps with
  | nil => intro s _ hs _ _; exact ⟨s, rfl, hs, by simp⟩
  | cons r ps ih =>
    intro s hnd hs hp hq
    obtain ⟨hr, hnd⟩ := List.nodup_cons.1 hnd
    have hpr := hp r (by simp)
    have hqr := hq r (by simp)
    set s1 : St ι σ := { s with
      par := set2 (set2 s.par p r ∅) q r (set2 s.par p r ∅ q r ∪ s.chi r p)
      chi := set2 (set2 s.chi r p ∅) r q (set2 s.chi r p ∅ r q ∪ s.chi r p) } with hs1
    have hstep : replaceChild s r p q = .ok s1 := by
      unfold replaceChild
      rw [if_neg (by rw [← hs]; simpa using hpr)]
    have hpar1 : ∀ x y, s1.par x y = if y = r then (if x = p then ∅ else if x = q then s.par p r else s.par x r)
        else s.par x y := by
      intro x y
      simp only [hs1, set2_apply]
      by_cases hy : y = r
      · subst hy
        by_cases hx : x = q
        · subst hx
          simp [hpq.symm, hqr, hs]
        · simp [hx]
      · simp [hy]
    have hchi1 : ∀ x y, s1.par x y = s1.chi y x := by
      intro x y
      rw [hpar1]
      simp only [hs1, set2_apply]
      by_cases hy : y = r
      · subst hy
        by_cases hx : x = q
        · subst hx
          have hqr' : s.chi y x = ∅ := by rw [← hs]; exact hqr
          simp [hpq.symm, hqr', hs]
        · simp [hx, hs]
      · simp [hy, hs]
    obtain ⟨s', h1, h2, h3⟩ := ih s1 hnd hchi1
      (fun d hd => by rw [hpar1, if_neg (ne_of_mem_of_not_mem hd hr)]; exact hp d (by simp [hd]))
      (fun d hd => by rw [hpar1, if_neg (ne_of_mem_of_not_mem hd hr)]; exact hq d (by simp [hd]))
    refine ⟨s', by rw [List.foldlM_cons, hstep]; exact h1, h2, ?_⟩
    intro x y
    rw [h3, hpar1, hpar1]
    by_cases hy : y = r
    · subst hy
      simp [hr]
    · simp [hy]

end Verif.Edges
