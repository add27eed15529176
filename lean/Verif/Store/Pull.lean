import Verif.Store.Push
import Mathlib.Data.Finset.Lattice.Fold

/-! # C74-C76: closures with pulling -/

namespace Verif.Store
open Verif

/-! ## Specification -/

/-- The cell must be run again: it never ran in this session, the kernel reported it ready or waiting, or it was edited. -/
def MustRun (d : Data) (x : Nat) : Prop := d.executed x = false ∨ d.ready x = true ∨ d.waiting x = true ∨ d.dirty x = true

theorem stale_iff (d : Data) (x : Nat) : d.stale x = true ↔ MustRun d x := by
  simp only [Data.stale, MustRun, Bool.or_eq_true, Bool.not_eq_true', or_assoc]

/-- A set that a reactive run must cover if it covers its members: `stale` asks for ancestors that must be run again, the other two for
parents whose values the kernel reported overwritten, or overwritten if another member runs. -/
structure Pulls (d : Data) (S : Nat → Prop) : Prop where
  stale : ∀ x a, S x → Relation.TransGen (Lists d.parents) x a → (d.parents a).isSome → MustRun d a → S a
  told : ∀ x r, S x → Lists d.parents x r → r ∈ d.staleParents x → S r
  made : ∀ x r e ps, S x → Lists d.parents x r → (e, ps) ∈ d.byExec x → S e → r ∈ ps → S r

/-- Moreover, dependents of members are members. -/
structure Closed (d : Data) (S : Nat → Prop) : Prop extends Pulls d S where
  child : ∀ x y, S x → Lists d.children x y → S y

/-- What the tables are supposed to satisfy: parents list their children, the two tables of overwritten parents are transposed, and cells
in them have a list of parents, possibly empty. -/
structure Consistent (d : Data) : Prop where
  listed : ∀ x p, Lists d.parents x p → Lists d.children p x
  transpose : ∀ x e r, (∃ ps, (x, ps) ∈ d.byChild e ∧ r ∈ ps) ↔ ∃ ps, (e, ps) ∈ d.byExec x ∧ r ∈ ps
  entry : ∀ x e ps, (e, ps) ∈ d.byExec x → (d.parents e).isSome

/-! ## Soundness -/

/-- The cell is a member or an ancestor of one. -/
def Anc (d : Data) (S : Nat → Prop) (x : Nat) : Prop := ∃ z, S z ∧ Relation.ReflTransGen (Lists d.parents) z x

/-- What every step guarantees: the list is only extended, and stays within closed sets that meet the condition. -/
structure Post (d : Data) (P : (Nat → Prop) → Prop) (c c' : List Nat) : Prop where
  pre : c <+: c'
  nodup : c.Nodup → c'.Nodup
  sound : Consistent d → ∀ S, Closed d S → P S → (∀ y ∈ c, S y) → ∀ y ∈ c', S y

theorem Post.refl (d : Data) (P : (Nat → Prop) → Prop) (c : List Nat) : Post d P c c := ⟨List.prefix_rfl, id, fun _ _ _ _ h => h⟩

theorem Post.trans {d : Data} {P : (Nat → Prop) → Prop} {a b c : List Nat} (h1 : Post d P a b) (h2 : Post d P b c) : Post d P a c :=
  ⟨h1.pre.trans h2.pre, fun h => h2.nodup (h1.nodup h), fun hd S hS hP ha => h2.sound hd S hS hP (h1.sound hd S hS hP ha)⟩

theorem fold_post {β : Type} (d : Data) (P : (Nat → Prop) → Prop) (f : List Nat → β → Except Err (List Nat)) (l : List β)
    (hf : ∀ r ∈ l, ∀ c c', f c r = .ok c' → Post d P c c') (c c' : List Nat) (h : l.foldlM f c = .ok c') : Post d P c c' := by
  induction l generalizing c with
  | nil =>
    simp only [List.foldlM_nil, pure, Except.pure, Except.ok.injEq] at h
    subst h
    exact Post.refl d P c
  | cons r l ih =>
    rw [List.foldlM_cons] at h
    cases hm : f c r with
    | error e => rw [hm] at h; simp [bind, Except.bind] at h
    | ok mid =>
      rw [hm] at h
      exact (hf r (List.mem_cons_self ..) c mid hm).trans (ih (fun r hr => hf r (List.mem_cons_of_mem _ hr)) mid h)

/-- Each element of the list was processed, between prefixes of the outcome. -/
theorem fold_each {β : Type} (f : List Nat → β → Except Err (List Nat)) (l : List β)
    (hf : ∀ r ∈ l, ∀ c c', f c r = .ok c' → c <+: c') (c c' : List Nat) (h : l.foldlM f c = .ok c') (r : β) (hr : r ∈ l) :
    ∃ a b, f a r = .ok b ∧ c <+: a ∧ b <+: c' := by
  induction l generalizing c with
  | nil => simp at hr
  | cons r' l ih =>
    rw [List.foldlM_cons] at h
    cases hm : f c r' with
    | error e => rw [hm] at h; simp [bind, Except.bind] at h
    | ok mid =>
      rw [hm] at h
      have hpre : ∀ (l : List β) (c c' : List Nat), (∀ r ∈ l, ∀ c c', f c r = .ok c' → c <+: c') → l.foldlM f c = .ok c' → c <+: c' := by
        intro l
        induction l with
        | nil =>
          intro c c' _ h
          simp only [List.foldlM_nil, pure, Except.pure, Except.ok.injEq] at h
          subst h; exact List.prefix_rfl
        | cons s l ih =>
          intro c c' hf h
          rw [List.foldlM_cons] at h
          cases hm : f c s with
          | error e => rw [hm] at h; simp [bind, Except.bind] at h
          | ok mid =>
            rw [hm] at h
            exact (hf s (List.mem_cons_self ..) c mid hm).trans (ih mid c' (fun r hr => hf r (List.mem_cons_of_mem _ hr)) h)
      rcases List.mem_cons.1 hr with rfl | hr
      · exact ⟨c, mid, hm, List.prefix_rfl, hpre l mid c' (fun r hr => hf r (List.mem_cons_of_mem _ hr)) h⟩
      · obtain ⟨a, b, h1, h2, h3⟩ := ih (fun r hr => hf r (List.mem_cons_of_mem _ hr)) mid h hr
        exact ⟨a, b, h1, (hf r' (List.mem_cons_self ..) c mid hm).trans h2, h3⟩

theorem prefix_add (x : Nat) (c : List Nat) : c <+: add x c := by
  unfold add
  split
  · exact List.prefix_rfl
  · exact ⟨[x], rfl⟩

/-- What a call guarantees. -/
structure CallPost (d : Data) (c : List Nat) (x : Nat) (c' : List Nat) : Prop extends Post d (fun S => Anc d S x) c c' where
  grew : c' = c ∨ x ∈ c'

theorem related_post (d : Data) (rec : List Nat → Nat → Except Err (List Nat)) (hrec : ∀ c x c', rec c x = .ok c' → CallPost d c x c')
    (x r : Nat) (hr : Lists d.parents x r) (c c' : List Nat) (h : pullRelated d rec x c r = .ok c') : Post d (fun S => S x) c c' := by
  unfold pullRelated at h
  by_cases h1 : r ∈ c
  · rw [if_pos h1] at h; cases h; exact Post.refl d _ c
  · rw [if_neg h1] at h
    by_cases h2 : d.included x c r = true
    · rw [if_pos h2] at h
      have hp := hrec _ _ _ h
      refine ⟨(prefix_add r c).trans hp.pre, fun hn => hp.nodup (nodup_add hn), fun hd S hS hx hc => ?_⟩
      have hSr : S r := by
        unfold Data.included at h2
        rw [Bool.or_eq_true, List.contains_iff_mem, List.any_eq_true] at h2
        rcases h2 with h2 | ⟨⟨e, ps⟩, h3, h4⟩
        · exact hS.told x r hx hr h2
        · rw [Bool.and_eq_true, decide_eq_true_eq, List.contains_iff_mem] at h4
          exact hS.made x r e ps hx hr h3 (hc e h4.1) h4.2
      refine hp.sound hd S hS ⟨r, hSr, .refl⟩ fun y hy => ?_
      rcases mem_add.1 hy with rfl | hy
      · exact hSr
      · exact hc y hy
    · rw [if_neg h2] at h; cases h; exact Post.refl d _ c

theorem makers_post (d : Data) (rec : List Nat → Nat → Except Err (List Nat)) (hrec : ∀ c x c', rec c x = .ok c' → CallPost d c x c')
    (x : Nat) (e : Nat × List Nat) (he : e ∈ d.byChild x) (c c' : List Nat) (h : pullMakers d rec c e = .ok c') :
    Post d (fun S => S x) c c' := by
  obtain ⟨child, ps⟩ := e
  unfold pullMakers at h
  by_cases h1 : child ∈ c
  · rw [if_pos h1] at h
    have key : ∀ p ∈ ps, ∀ a b, pullMaker d rec child a p = .ok b → Post d (fun S => S x ∧ S child) a b := by
      intro p hp a b hab
      unfold pullMaker at hab
      by_cases h2 : (decide (p ∈ a) || !((d.parents child).getD []).contains p) = true
      · rw [if_pos h2] at hab; cases hab; exact Post.refl d _ a
      · rw [if_neg h2] at hab
        have hp' := hrec _ _ _ hab
        rw [Bool.or_eq_true, not_or, decide_eq_true_eq, Bool.not_eq_true', Bool.not_eq_false, List.contains_iff_mem] at h2
        have hl : Lists d.parents child p := by
          cases hpc : d.parents child with
          | none => rw [hpc] at h2; simp at h2
          | some l => rw [hpc] at h2; exact ⟨l, hpc, h2.2⟩
        refine ⟨(prefix_add p a).trans hp'.pre, fun hn => hp'.nodup (nodup_add hn), fun hd S hS hx hc => ?_⟩
        obtain ⟨ps', h3, h4⟩ := (hd.transpose child x p).1 ⟨ps, he, hp⟩
        have hSp : S p := hS.made child p x ps' hx.2 hl h3 hx.1 h4
        refine hp'.sound hd S hS ⟨p, hSp, .refl⟩ fun y hy => ?_
        rcases mem_add.1 hy with rfl | hy
        · exact hSp
        · exact hc y hy
    have hp := fold_post d _ _ ps key c c' h
    exact ⟨hp.pre, hp.nodup, fun hd S hS hx hc => hp.sound hd S hS ⟨hx, hc child h1⟩ hc⟩
  · rw [if_neg h1] at h; cases h; exact Post.refl d _ c

/-- The parts of a call that got past the first checks. -/
theorem pull_unfold (d : Data) (n : Nat) (c : List Nat) (x : Nat) (skip : Bool) (c' : List Nat) (l : List Nat)
    (hl : d.parents x = some l) (hs : skip = true ∨ x ∉ c) (h : pull d (n + 1) c x skip = .ok c') :
    ∃ c1, l.foldlM (fun c r => pull d n c r false) c = .ok c1 ∧
      ((x ∉ c1 ∧ c1.length ≤ c.length ∧ d.stale x = false ∧ c' = c1) ∨
       (∃ c2 c3, (c2 = c1 ∧ x ∈ c1 ∨ c2 = add x c1 ∧ (c1.length > c.length ∨ d.stale x = true)) ∧ x ∈ c2 ∧
        l.foldlM (pullRelated d (fun c r => pull d n c r true) x) c2 = .ok c3 ∧
        (d.byChild x).foldlM (pullMakers d (fun c r => pull d n c r true)) c3 = .ok c')) := by
  unfold pull at h
  have h0 : (!skip && decide (x ∈ c)) = false := by
    rcases hs with rfl | hs
    · rfl
    · simp [hs]
  rw [h0] at h
  simp only [Bool.false_eq_true, if_false, hl] at h
  cases h1 : l.foldlM (fun c r => pull d n c r false) c with
  | error e => rw [h1] at h; simp [bind, Except.bind] at h
  | ok c1 =>
    rw [h1] at h
    simp only [bind, Except.bind] at h
    refine ⟨c1, rfl, ?_⟩
    by_cases hg : (decide (c1.length > c.length) || d.stale x) = true
    · rw [if_pos hg] at h
      have hm : x ∈ add x c1 := mem_add.2 (.inl rfl)
      rw [if_pos hm] at h
      cases h3 : l.foldlM (pullRelated d (fun c r => pull d n c r true) x) (add x c1) with
      | error e => rw [h3] at h; simp at h
      | ok c3 =>
        rw [h3] at h
        refine .inr ⟨add x c1, c3, .inr ⟨rfl, ?_⟩, hm, h3, h⟩
        simpa using hg
    · rw [if_neg hg] at h
      have hg' : c1.length ≤ c.length ∧ d.stale x = false := by simpa using hg
      by_cases hm : x ∈ c1
      · rw [if_pos hm] at h
        cases h3 : l.foldlM (pullRelated d (fun c r => pull d n c r true) x) c1 with
        | error e => rw [h3] at h; simp at h
        | ok c3 =>
          rw [h3] at h
          exact .inr ⟨c1, c3, .inl ⟨rfl, hm⟩, hm, h3, h⟩
      · rw [if_neg hm] at h
        injection h with h
        exact .inl ⟨hm, hg'.1, hg'.2, h.symm⟩

/-- If nothing in the list is there afterwards, nothing was added. -/
theorem fold_grew (d : Data) (f : List Nat → Nat → Except Err (List Nat)) (l : List Nat)
    (hf : ∀ r ∈ l, ∀ c c', f c r = .ok c' → CallPost d c r c') (c c' : List Nat) (h : l.foldlM f c = .ok c') :
    c' = c ∨ ∃ r ∈ l, r ∈ c' := by
  induction l generalizing c with
  | nil =>
    simp only [List.foldlM_nil, pure, Except.pure, Except.ok.injEq] at h
    exact .inl h.symm
  | cons r l ih =>
    rw [List.foldlM_cons] at h
    cases hm : f c r with
    | error e => rw [hm] at h; simp [bind, Except.bind] at h
    | ok mid =>
      rw [hm] at h
      have hpost := fold_post d (fun S => ∀ r ∈ l, Anc d S r) f l (fun r hr c c' hc => by
        have := hf r (List.mem_cons_of_mem _ hr) c c' hc
        exact ⟨this.pre, this.nodup, fun hd S hS hP => this.sound hd S hS (hP r hr)⟩) mid c' h
      rcases (hf r (List.mem_cons_self ..) c mid hm).grew with h1 | h1
      · subst h1
        rcases ih (fun r hr => hf r (List.mem_cons_of_mem _ hr)) mid h with h2 | ⟨s, hs, h2⟩
        · exact .inl h2
        · exact .inr ⟨s, List.mem_cons_of_mem _ hs, h2⟩
      · exact .inr ⟨r, List.mem_cons_self .., hpost.pre.subset h1⟩

theorem pull_post (d : Data) (n : Nat) : ∀ (c : List Nat) (x : Nat) (skip : Bool) (c' : List Nat), pull d n c x skip = .ok c' →
    CallPost d c x c' := by
  induction n with
  | zero => intro c x skip c' h; simp [pull] at h
  | succ n ih =>
    intro c x skip c' h
    by_cases hs : skip = true ∨ x ∉ c
    · cases hl : d.parents x with
      | none =>
        unfold pull at h
        have h0 : (!skip && decide (x ∈ c)) = false := by
          rcases hs with rfl | hs
          · rfl
          · simp [hs]
        rw [h0] at h
        simp only [Bool.false_eq_true, if_false, hl] at h
        cases h
        exact ⟨Post.refl d _ c, .inl rfl⟩
      | some l =>
        obtain ⟨c1, h1, h2⟩ := pull_unfold d n c x skip c' l hl hs h
        have hp1 : Post d (fun S => Anc d S x) c c1 := fold_post d _ _ l (fun r hr a b hab => by
          have := ih a r false b hab
          exact ⟨this.pre, this.nodup, fun hd S hS hP => this.sound hd S hS (by
            obtain ⟨z, hz, hzx⟩ := hP
            exact ⟨z, hz, hzx.tail ⟨l, hl, hr⟩⟩)⟩) c c1 h1
        have hgrew := fold_grew d _ l (fun r _ a b hab => ih a r false b hab) c c1 h1
        rcases h2 with ⟨hx, hlen, hst, rfl⟩ | ⟨c2, c3, hc2, hx2, h3, h4⟩
        · refine ⟨hp1, .inl ?_⟩
          exact (hp1.pre.eq_of_length_le hlen).symm
        · have hp2 : Post d (fun S => Anc d S x) c c2 := by
            rcases hc2 with ⟨rfl, _⟩ | ⟨rfl, hor⟩
            · exact hp1
            · refine ⟨hp1.pre.trans (prefix_add x c1), fun hn => nodup_add (hp1.nodup hn), fun hd S hS hP hc => ?_⟩
              have hS1 := hp1.sound hd S hS hP hc
              intro y hy
              rcases mem_add.1 hy with rfl | hy
              · rcases hor with hlen | hst
                · rcases hgrew with h5 | ⟨r, hr, h5⟩
                  · rw [h5] at hlen; omega
                  · exact hS.child r y (hS1 r h5) (hd.listed y r ⟨l, hl, hr⟩)
                · obtain ⟨z, hz, hzx⟩ := hP
                  rcases Relation.reflTransGen_iff_eq_or_transGen.1 hzx with h5 | h5
                  · rw [h5]; exact hz
                  · exact hS.stale z y hz h5 (by rw [hl]; rfl) ((stale_iff d y).mp hst)
              · exact hS1 y hy
          have hp3 := fold_post d (fun S => S x) _ l (fun r hr a b hab =>
            related_post d _ (fun c x c' hc => ih c x true c' hc) x r ⟨l, hl, hr⟩ a b hab) c2 c3 h3
          have hp4 := fold_post d (fun S => S x) _ (d.byChild x) (fun e he a b hab =>
            makers_post d _ (fun c x c' hc => ih c x true c' hc) x e he a b hab) c3 c' h4
          have hp5 := hp3.trans hp4
          refine ⟨⟨hp2.pre.trans hp5.pre, fun hn => hp5.nodup (hp2.nodup hn), fun hd S hS hP hc => ?_⟩, .inr (hp5.pre.subset hx2)⟩
          have hS2 := hp2.sound hd S hS hP hc
          exact hp5.sound hd S hS (hS2 x hx2) hS2
    · rw [not_or, not_not] at hs
      unfold pull at h
      have h0 : (!skip && decide (x ∈ c)) = true := by simp [hs.1, hs.2]
      rw [if_pos h0] at h
      cases h
      exact ⟨Post.refl d _ c, .inl rfl⟩

/-! ## Completeness -/

/-- The cell was visited by a call whose outcome is part of the final one. -/
def Called (d : Data) (C : List Nat) (r : Nat) : Prop := ∃ n a b, pull d n a r false = .ok b ∧ b <+: C

theorem called_of (d : Data) (n : Nat) (c : List Nat) (x : Nat) (skip : Bool) (c' C l : List Nat) (hl : d.parents x = some l)
    (hs : skip = true ∨ x ∉ c) (h : pull d n c x skip = .ok c') (hC : c' <+: C) (r : Nat) (hr : r ∈ l) : Called d C r := by
  cases n with
  | zero => simp [pull] at h
  | succ n =>
    obtain ⟨c1, h1, h2⟩ := pull_unfold d n c x skip c' l hl hs h
    have hc1 : c1 <+: c' := by
      rcases h2 with ⟨_, _, _, rfl⟩ | ⟨c2, c3, hc2, hx2, h3, h4⟩
      · exact List.prefix_rfl
      · have hp3 := fold_post d (fun S => S x) _ l (fun r hr a b hab =>
          related_post d _ (fun c x c' hc => (pull_post d n c x true c' hc)) x r ⟨l, hl, hr⟩ a b hab) c2 c3 h3
        have hp4 := fold_post d (fun S => S x) _ (d.byChild x) (fun e he a b hab =>
          makers_post d _ (fun c x c' hc => (pull_post d n c x true c' hc)) x e he a b hab) c3 c' h4
        have : c1 <+: c2 := by
          rcases hc2 with ⟨rfl, _⟩ | ⟨rfl, _⟩
          · exact List.prefix_rfl
          · exact prefix_add x c1
        exact this.trans (hp3.pre.trans hp4.pre)
    obtain ⟨a, b, h5, _, h6⟩ := fold_each _ l (fun r _ a b hab => (pull_post d n a r false b hab).pre) c c1 h1 r hr
    exact ⟨n, a, b, h5, h6.trans (hc1.trans hC)⟩

/-- Every member was visited by the sweep, when it was already a member. -/
structure Visit (d : Data) (C : List Nat) (j x : Nat) : Prop where
  ex : ∃ n a b, pull d n a x true = .ok b ∧ a <+: C ∧ b <+: C ∧ j < a.length

theorem sweep_post (d : Data) (n : Nat) : ∀ (m i : Nat) (c C : List Nat), sweep d n m i c = .ok C →
    Post d (fun _ => True) c C ∧ ∀ j x, i ≤ j → C[j]? = some x → Visit d C j x := by
  intro m
  induction m with
  | zero =>
    intro i c C h
    unfold sweep at h
    cases hc : c[i]? with
    | some x => rw [hc] at h; simp at h
    | none =>
      rw [hc] at h
      simp only [Except.ok.injEq] at h
      subst h
      refine ⟨Post.refl d _ c, fun j x hij hj => ?_⟩
      rw [List.getElem?_eq_none_iff] at hc
      rw [List.getElem?_eq_none_iff.2 (by omega)] at hj
      cases hj
  | succ m ih =>
    intro i c C h
    unfold sweep at h
    cases hc : c[i]? with
    | none =>
      rw [hc] at h
      simp only [Except.ok.injEq] at h
      subst h
      refine ⟨Post.refl d _ c, fun j x hij hj => ?_⟩
      rw [List.getElem?_eq_none_iff] at hc
      rw [List.getElem?_eq_none_iff.2 (by omega)] at hj
      cases hj
    | some x =>
      rw [hc] at h
      simp only at h
      cases hp : pull d n c x true with
      | error e => rw [hp] at h; simp [bind, Except.bind] at h
      | ok c' =>
        rw [hp] at h
        simp only [bind, Except.bind] at h
        obtain ⟨h1, h2⟩ := ih (i + 1) c' C h
        have h3 := pull_post d n c x true c' hp
        have hpost : Post d (fun _ => True) c c' := ⟨h3.pre, h3.nodup, fun hd S hS _ hcS =>
          h3.sound hd S hS ⟨x, hcS x (List.mem_of_getElem? hc), .refl⟩ hcS⟩
        refine ⟨hpost.trans h1, fun j y hij hj => ?_⟩
        rcases Nat.lt_or_ge i j with hlt | hge
        · exact h2 j y hlt hj
        · obtain rfl : j = i := by omega
          have hlt : j < c.length := (List.getElem?_eq_some_iff.1 hc).1
          have hpre := h3.pre.trans h1.pre
          have hxy : x = y := by
            obtain ⟨t, rfl⟩ := hpre
            rw [List.getElem?_append_left hlt, hc] at hj
            injection hj
          subst hxy
          exact ⟨n, c, c', hp, hpre, h1.pre, hlt⟩

theorem included_mono (d : Data) (x r : Nat) (a b : List Nat) (h : ∀ y ∈ a, y ∈ b) (hi : d.included x a r = true) :
    d.included x b r = true := by
  unfold Data.included at hi ⊢
  rw [Bool.or_eq_true, List.any_eq_true] at hi ⊢
  rcases hi with hi | ⟨e, h1, h2⟩
  · exact .inl hi
  · refine .inr ⟨e, h1, ?_⟩
    rw [Bool.and_eq_true, decide_eq_true_eq] at h2 ⊢
    exact ⟨h _ h2.1, h2.2⟩

/-- A visit of a member, taken apart. -/
theorem visit_parts (d : Data) (C : List Nat) (j x : Nat) (l : List Nat) (hv : Visit d C j x) (hl : d.parents x = some l) :
    ∃ n a c2 c3 b, a <+: c2 ∧ c2 <+: c3 ∧ c3 <+: b ∧ b <+: C ∧ j < a.length ∧
      (∀ y ∈ a, y ∈ c2) ∧
      l.foldlM (pullRelated d (fun c r => pull d n c r true) x) c2 = .ok c3 ∧
      (d.byChild x).foldlM (pullMakers d (fun c r => pull d n c r true)) c3 = .ok b ∨ C[j]? ≠ some x := by
  by_cases hj : C[j]? = some x
  swap
  · exact ⟨0, [], [], [], [], .inr hj⟩
  obtain ⟨n, a, b, h, ha, hb, hlen⟩ := hv.ex
  have hxa : x ∈ a := by
    obtain ⟨t, rfl⟩ := ha
    rw [List.getElem?_append_left hlen] at hj
    exact List.mem_of_getElem? hj
  cases n with
  | zero => simp [pull] at h
  | succ n =>
    obtain ⟨c1, h1, h2⟩ := pull_unfold d n a x true b l hl (.inl rfl) h
    have hp1 := fold_post d (fun S => ∀ r ∈ l, Anc d S r) _ l (fun r hr u v huv => by
      have := pull_post d n u r false v huv
      exact ⟨this.pre, this.nodup, fun hd S hS hP => this.sound hd S hS (hP r hr)⟩) a c1 h1
    rcases h2 with ⟨hx, _, _, _⟩ | ⟨c2, c3, hc2, hx2, h3, h4⟩
    · exact absurd (hp1.pre.subset hxa) hx
    · have h12 : c1 <+: c2 := by
        rcases hc2 with ⟨rfl, _⟩ | ⟨rfl, _⟩
        · exact List.prefix_rfl
        · exact prefix_add x c1
      have hp3 := fold_post d (fun S => S x) _ l (fun r hr a b hab =>
        related_post d _ (fun c x c' hc => (pull_post d n c x true c' hc)) x r ⟨l, hl, hr⟩ a b hab) c2 c3 h3
      have hp4 := fold_post d (fun S => S x) _ (d.byChild x) (fun e he a b hab =>
        makers_post d _ (fun c x c' hc => (pull_post d n c x true c' hc)) x e he a b hab) c3 b h4
      exact ⟨n, a, c2, c3, b, .inl ⟨hp1.pre.trans h12, hp3.pre, hp4.pre, hb, hlen, fun y hy => (hp1.pre.trans h12).subset hy, h3, h4⟩⟩

theorem visit_told (d : Data) (C : List Nat) (j x r : Nat) (hv : Visit d C j x) (hj : C[j]? = some x) (hr : Lists d.parents x r) :
    ∃ a, a <+: C ∧ j < a.length ∧ (d.included x a r = true → r ∈ C) := by
  obtain ⟨l, hl, hrl⟩ := hr
  obtain ⟨n, a, c2, c3, b, ⟨h1, h2, h3, h4, h5, h6, h7, h8⟩ | h⟩ := visit_parts d C j x l hv hl
  swap
  · exact absurd hj h
  refine ⟨a, h1.trans (h2.trans (h3.trans h4)), h5, fun hi => ?_⟩
  obtain ⟨u, v, h9, h10, h11⟩ := fold_each _ l (fun r hr a b hab =>
    (related_post d _ (fun c x c' hc => (pull_post d n c x true c' hc)) x r ⟨l, hl, hr⟩ a b hab).pre) c2 c3 h7 r hrl
  unfold pullRelated at h9
  have hvC : v <+: C := h11.trans (h3.trans h4)
  by_cases hu : r ∈ u
  · rw [if_pos hu] at h9; cases h9; exact hvC.subset hu
  · rw [if_neg hu, if_pos (included_mono d x r a u (fun y hy => h10.subset (h6 y hy)) hi)] at h9
    exact hvC.subset ((pull_post d n _ _ _ _ h9).pre.subset (mem_add.2 (.inl rfl)))

theorem visit_made (d : Data) (C : List Nat) (j x : Nat) (l : List Nat) (hv : Visit d C j x) (hj : C[j]? = some x)
    (hl : d.parents x = some l) :
    ∃ a, a <+: C ∧ j < a.length ∧
      ∀ child ps r, (child, ps) ∈ d.byChild x → child ∈ a → Lists d.parents child r → r ∈ ps → r ∈ C := by
  obtain ⟨n, a, c2, c3, b, ⟨h1, h2, h3, h4, h5, h6, h7, h8⟩ | h⟩ := visit_parts d C j x l hv hl
  swap
  · exact absurd hj h
  refine ⟨a, h1.trans (h2.trans (h3.trans h4)), h5, fun child ps r hps hc ⟨lc, hlc, hrc⟩ hr => ?_⟩
  have hrec := fun c x c' hc => pull_post d n c x true c' hc
  obtain ⟨u, v, h9, h10, h11⟩ := fold_each _ (d.byChild x) (fun e he a b hab =>
    (makers_post d _ hrec x e he a b hab).pre) c3 b h8 _ hps
  unfold pullMakers at h9
  rw [if_pos (h10.subset (h2.subset (h6 child hc)))] at h9
  have hpre : ∀ p ∈ ps, ∀ a b, pullMaker d (fun c r => pull d n c r true) child a p = .ok b → a <+: b := by
    intro p _ a b hab
    unfold pullMaker at hab
    split at hab
    · cases hab; exact List.prefix_rfl
    · exact (prefix_add p a).trans (hrec _ _ _ hab).pre
  obtain ⟨u', v', h12, _, h13⟩ := fold_each _ ps hpre u v h9 r hr
  have hvC : v' <+: C := h13.trans (h11.trans h4)
  unfold pullMaker at h12
  by_cases hu : r ∈ u'
  · rw [if_pos (by simp [hu])] at h12; cases h12; exact hvC.subset hu
  · rw [if_neg (by simp [hu, hlc, hrc])] at h12
    exact hvC.subset ((hrec _ _ _ h12).pre.subset (mem_add.2 (.inl rfl)))

/-- What a sweep from the start of the list establishes. -/
theorem sweep_pulls (d : Data) (hd : Consistent d) (n m : Nat) (c C : List Nat) (h : sweep d n m 0 c = .ok C) : Pulls d (· ∈ C) := by
  obtain ⟨_, hv⟩ := sweep_post d n m 0 c C h
  have hidx : ∀ x, x ∈ C → ∃ j, C[j]? = some x := fun x hx => List.mem_iff_getElem?.1 hx
  have htold : ∀ x r, x ∈ C → Lists d.parents x r → r ∈ d.staleParents x → r ∈ C := by
    intro x r hx hr ht
    obtain ⟨j, hj⟩ := hidx x hx
    obtain ⟨a, _, _, h3⟩ := visit_told d C j x r (hv j x (Nat.zero_le _) hj) hj hr
    refine h3 ?_
    unfold Data.included
    simp [ht]
  refine ⟨?_, htold, ?_⟩
  · intro x a hx hxa
    -- every proper ancestor is a member or was visited
    have key : ∀ a, Relation.TransGen (Lists d.parents) x a → a ∈ C ∨ Called d C a := by
      have one : ∀ y r, (y ∈ C ∨ Called d C y) → Lists d.parents y r → r ∈ C ∨ Called d C r := by
        rintro y r hy ⟨l, hl, hrl⟩
        by_cases hyC : y ∈ C
        · obtain ⟨j, hj⟩ := hidx y hyC
          obtain ⟨n', a, b, h1, ha, hb, hlen⟩ := (hv j y (Nat.zero_le _) hj).ex
          exact .inr (called_of d n' a y true b C l hl (.inl rfl) h1 hb r hrl)
        · obtain ⟨n', a, b, h1, hb⟩ := hy.resolve_left hyC
          have hya : y ∉ a := fun hm => hyC (hb.subset ((pull_post d n' a y false b h1).pre.subset hm))
          exact .inr (called_of d n' a y false b C l hl (.inr hya) h1 hb r hrl)
      intro a hxa
      induction hxa with
      | single h1 => exact one x _ (.inl hx) h1
      | tail _ h1 ih => exact one _ _ ih h1
    intro hs hst
    by_contra haC
    obtain ⟨n', u, v, h1, hvC⟩ := (key a hxa).resolve_left haC
    have hau : a ∉ u := fun hm => haC (hvC.subset ((pull_post d n' u a false v h1).pre.subset hm))
    obtain ⟨l, hl⟩ := Option.isSome_iff_exists.1 hs
    cases n' with
    | zero => simp [pull] at h1
    | succ n' =>
      obtain ⟨c1, h2, h3⟩ := pull_unfold d n' u a false v l hl (.inr hau) h1
      rcases h3 with ⟨_, _, hns, _⟩ | ⟨c2, c3, hc2, hx2, h3, h4⟩
      · rw [(stale_iff d a).mpr hst] at hns; cases hns
      · have hp3 := fold_post d (fun S => S a) _ l (fun r hr a' b hab =>
          related_post d _ (fun c x c' hc => (pull_post d n' c x true c' hc)) a r ⟨l, hl, hr⟩ a' b hab) c2 c3 h3
        have hp4 := fold_post d (fun S => S a) _ (d.byChild a) (fun e he a' b hab =>
          makers_post d _ (fun c x c' hc => (pull_post d n' c x true c' hc)) a e he a' b hab) c3 v h4
        exact haC (hvC.subset (hp4.pre.subset (hp3.pre.subset hx2)))
  · intro x r e ps hx hr hps he hrps
    obtain ⟨j, hj⟩ := hidx x hx
    obtain ⟨k, hk⟩ := hidx e he
    obtain ⟨a, ha, hja, h3⟩ := visit_told d C j x r (hv j x (Nat.zero_le _) hj) hj hr
    by_cases hea : e ∈ a
    · refine h3 ?_
      unfold Data.included
      rw [Bool.or_eq_true, List.any_eq_true]
      exact .inr ⟨(e, ps), hps, by simp [hea, hrps]⟩
    · obtain ⟨l, hl⟩ := Option.isSome_iff_exists.1 (hd.entry x e ps hps)
      obtain ⟨b, hb, hkb, h4⟩ := visit_made d C k e l (hv k e (Nat.zero_le _) hk) hk hl
      obtain ⟨ps', h5, h6⟩ := (hd.transpose x e r).2 ⟨ps, hps, hrps⟩
      refine h4 x ps' r h5 ?_ hr h6
      -- `e` entered after `x`, so `x` was a member when `e` was visited
      have hka : a.length ≤ k := by
        by_contra hlt
        obtain ⟨t, rfl⟩ := ha
        rw [List.getElem?_append_left (by omega)] at hk
        exact hea (List.mem_of_getElem? hk)
      obtain ⟨t, rfl⟩ := hb
      rw [List.getElem?_append_left (by omega)] at hj
      exact List.mem_of_getElem? hj

/-! ## Rounds -/

theorem rounds_post (d : Data) (cousins : Bool) (n m : Nat) : ∀ (k : Nat) (ids c C : List Nat),
    rounds d cousins (n + 1) m k ids c = .ok C → (∀ x ∈ ids, x ∈ c) → (∀ x ∈ c, x ∈ ids) → c.Nodup →
    c ⊆ C ∧ C.Nodup ∧ (∃ c1, sweep d (n + 1) m 0 c1 = .ok C) ∧
      (Consistent d → ∀ S, Closed d S → (∀ y ∈ c, S y) → ∀ y ∈ C, S y) ∧
      (∀ x ∈ c, ∀ y, Relation.ReflTransGen (Lists d.children) x y → y ∈ C) ∧
      (cousins = true → ids.Nodup → ∀ x ∈ C, ∀ y, Lists d.children x y → y ∈ C) := by
  intro k
  induction k with
  | zero => intro ids c C h; simp [rounds] at h
  | succ k ih =>
    intro ids c C h hic hci hn
    unfold rounds at h
    cases h1 : pushAll d.children (n + 1) c ids with
    | error e => rw [h1] at h; simp [bind, Except.bind] at h
    | ok c1 =>
      rw [h1] at h
      simp only [bind, Except.bind] at h
      cases h2 : sweep d (n + 1) m 0 c1 with
      | error e => rw [h2] at h; simp at h
      | ok c2 =>
        rw [h2] at h
        simp only at h
        obtain ⟨hsub, _, hcl, hn1⟩ := pushAll_post d.children n (fun _ => True) (fun _ _ _ _ => trivial) ids c c1 hic
          (fun _ _ => trivial) (fun x hx => .inl (hci x hx)) h1
        have hsw := (sweep_post d (n + 1) m 0 c1 c2 h2).1
        have hn2 : c2.Nodup := hsw.nodup (hn1 hn)
        have hsub2 : c ⊆ c2 := fun x hx => hsw.pre.subset (hsub hx)
        have hsound : Consistent d → ∀ S, Closed d S → (∀ y ∈ c, S y) → ∀ y ∈ c2, S y := by
          intro hd S hS hc
          refine hsw.sound hd S hS trivial ?_
          exact (pushAll_post d.children n S hS.child ids c c1 hic hc (fun x hx => .inl (hci x hx)) h1).2.1
        have hreach : ∀ x ∈ c, ∀ y, Relation.ReflTransGen (Lists d.children) x y → y ∈ c2 := by
          intro x hx y hxy
          have : y ∈ c1 := by
            induction hxy with
            | refl => exact hsub hx
            | tail _ hs ih => exact hcl _ ih _ hs
          exact hsw.pre.subset this
        by_cases hb : (decide (ids.length = c2.length) || !cousins) = true
        · rw [if_pos hb] at h
          injection h with h
          subst h
          refine ⟨hsub2, hn2, ⟨c1, h2⟩, hsound, hreach, fun hco hin => ?_⟩
          have hlen : ids.length = c2.length := by
            rw [hco] at hb; simpa using hb
          have hle : ids.length ≤ c1.length :=
            (List.subperm_of_subset hin fun x hx => hsub (hic x hx)).length_le
          have heq : c1 = c2 := hsw.pre.eq_of_length_le (by omega)
          subst heq
          exact hcl
        · rw [if_neg hb] at h
          obtain ⟨g1, g2, g3, g4, g5, g6⟩ := ih c2 c2 C h (fun _ hx => hx) (fun _ hx => hx) hn2
          exact ⟨fun x hx => g1 (hsub2 hx), g2, g3, fun hd S hS hc => g4 hd S hS (hsound hd S hS hc),
            fun x hx y hxy => g5 x (hsub2 hx) y hxy, fun hco _ => g6 hco hn2⟩

/-- What a closure with pulling contains: the start cells and all that depend on them, and it pulls in what `Pulls` asks for; and nothing
that any closed set with the start cells could do without. -/
theorem pulled (d : Data) (o : Opts) (ho : o.pull = true) (hd : Consistent d) (n m k : Nat) (start out : List Nat)
    (h : raw d o (n + 1) m k start true false = .ok out) :
    out.Nodup ∧ Pulls d (· ∈ out) ∧ (∀ x ∈ start, ∀ y, Relation.ReflTransGen (Lists d.children) x y → y ∈ out) ∧
      ∀ S, Closed d S → (∀ x ∈ start, S x) → ∀ y ∈ out, S y := by
  unfold raw at h
  simp only [Bool.false_eq_true, if_false, ho, if_true] at h
  cases h1 : rounds d o.cousins (n + 1) m k start (setOf start) with
  | error e => rw [h1] at h; simp [bind, Except.bind] at h
  | ok C =>
    rw [h1] at h
    simp only [bind, Except.bind, pure, Except.pure, Except.ok.injEq] at h
    subst h
    obtain ⟨_, g2, ⟨c1, g3⟩, g4, g5, _⟩ := rounds_post d o.cousins n m k start (setOf start) C h1 (fun x hx => mem_setOf.2 hx)
      (fun x hx => mem_setOf.1 hx) (nodup_setOf start)
    exact ⟨g2, sweep_pulls d hd (n + 1) m c1 C g3, fun x hx => g5 x (mem_setOf.2 hx),
      fun S hS hs => g4 hd S hS fun y hy => hs y (mem_setOf.1 hy)⟩

/-- With updates of cousins and start cells without repetition, the closure is the least closed set with the start cells. -/
theorem pull_least (d : Data) (o : Opts) (ho : o.pull = true) (hc : o.cousins = true) (hd : Consistent d) (n m k : Nat)
    (start out : List Nat) (hs : start.Nodup) (h : raw d o (n + 1) m k start true false = .ok out) :
    out.Nodup ∧ (∀ x ∈ start, x ∈ out) ∧ Closed d (· ∈ out) ∧
      ∀ S, Closed d S → (∀ x ∈ start, S x) → ∀ y ∈ out, S y := by
  obtain ⟨g1, g2, g3, g4⟩ := pulled d o ho hd n m k start out h
  refine ⟨g1, fun x hx => g3 x hx x .refl, ⟨g2, ?_⟩, g4⟩
  unfold raw at h
  simp only [Bool.false_eq_true, if_false, ho, if_true] at h
  cases h1 : rounds d o.cousins (n + 1) m k start (setOf start) with
  | error e => rw [h1] at h; simp [bind, Except.bind] at h
  | ok C =>
    rw [h1] at h
    simp only [bind, Except.bind, pure, Except.pure, Except.ok.injEq] at h
    subst h
    exact fun x y hx => (rounds_post d o.cousins n m k start (setOf start) C h1 (fun x hx => mem_setOf.2 hx)
      (fun x hx => mem_setOf.1 hx) (nodup_setOf start)).2.2.2.2.2 hc hs x hx y

/-- Without the start cells, the same cells are left out. -/
theorem raw_exclusive (d : Data) (o : Opts) (n m k : Nat) (start : List Nat) (parents : Bool) :
    raw d o n m k start false parents = (raw d o n m k start true parents).map fun out => out.filter fun x => x ∉ start := by
  unfold raw
  cases parents
  · cases hp : o.pull
    · cases pushAll d.children n (setOf start) start <;> simp [bind, Except.bind, pure, Except.pure, Except.map]
    · cases rounds d o.cousins n m k start (setOf start) <;> simp [bind, Except.bind, pure, Except.pure, Except.map]
  · cases pushAll d.parents n (setOf start) start <;> simp [bind, Except.bind, pure, Except.pure, Except.map]

/-- **C74** (partial: start cells without repetition). With updates of cousins, the closure is the least set that contains the start
cells, everything that depends on its members and what `Pulls` asks for. -/
theorem pull_exact_partial (d : Data) (o : Opts) (ho : o.pull = true) (hc : o.cousins = true) (hd : Consistent d) (n m k : Nat)
    (start out : List Nat) (hs : start.Nodup) (inclusive : Bool) (h : raw d o (n + 1) m k start inclusive false = .ok out) :
    out.Nodup ∧ ∃ C : Nat → Prop, (∀ x ∈ start, C x) ∧ Closed d C ∧ (∀ S, Closed d S → (∀ x ∈ start, S x) → ∀ y, C y → S y) ∧
      ∀ y, y ∈ out ↔ C y ∧ (inclusive = false → y ∉ start) := by
  cases inclusive with
  | true =>
    obtain ⟨g1, g2, g3, g4⟩ := pull_least d o ho hc hd n m k start out hs h
    exact ⟨g1, (· ∈ out), g2, g3, g4, fun y => by simp⟩
  | false =>
    rw [raw_exclusive] at h
    cases hr : raw d o (n + 1) m k start true false with
    | error e => rw [hr] at h; simp [Except.map] at h
    | ok C =>
      rw [hr] at h
      simp only [Except.map, Except.ok.injEq] at h
      subst h
      obtain ⟨g1, g2, g3, g4⟩ := pull_least d o ho hc hd n m k start C hs hr
      exact ⟨g1.filter _, (· ∈ C), g2, g3, g4, fun y => by simp⟩

/-- **C75** (partial: updates of cousins, no repetition). Every cell between two cells of the closure is in it. -/
theorem between_partial (d : Data) (o : Opts) (ho : o.pull = true) (hc : o.cousins = true) (hd : Consistent d) (n m k : Nat)
    (start out : List Nat) (hs : start.Nodup) (h : raw d o (n + 1) m k start true false = .ok out) (a b c : Nat) (ha : a ∈ out)
    (_ : c ∈ out) (hab : Relation.TransGen (Lists d.parents) b a) (_ : Relation.TransGen (Lists d.parents) c b) : b ∈ out := by
  obtain ⟨_, _, g3, _⟩ := pull_least d o ho hc hd n m k start out hs h
  have : ∀ x, Relation.TransGen (Lists d.parents) x a → x ∈ out := by
    intro x hx
    induction hx using Relation.TransGen.head_induction_on with
    | single h1 => exact g3.child _ _ ha (hd.listed _ _ h1)
    | head h1 _ ih => exact g3.child _ _ ih (hd.listed _ _ h1)
  exact this b hab

/-! ## Termination -/

theorem card_sdiff_mono (U : Finset Nat) {c c' : List Nat} (h : ∀ y ∈ c, y ∈ c') :
    (U \ c'.toFinset).card ≤ (U \ c.toFinset).card :=
  Finset.card_le_card (Finset.sdiff_subset_sdiff (Finset.Subset.refl U) fun y hy => List.mem_toFinset.2 (h y (List.mem_toFinset.1 hy)))

theorem card_add (U : Finset Nat) (c : List Nat) (p : Nat) (hp : p ∈ U) (hc : p ∉ c) :
    (U \ (add p c).toFinset).card + 1 ≤ (U \ c.toFinset).card := by
  have : U \ (add p c).toFinset ⊂ U \ c.toFinset := by
    refine ⟨Finset.sdiff_subset_sdiff (Finset.Subset.refl U) fun y hy =>
      List.mem_toFinset.2 (mem_add.2 (.inr (List.mem_toFinset.1 hy))), fun hh => ?_⟩
    have h1 : p ∈ U \ c.toFinset := Finset.mem_sdiff.2 ⟨hp, by simpa using hc⟩
    have h2 := Finset.mem_sdiff.1 (hh h1)
    exact h2.2 (List.mem_toFinset.2 (mem_add.2 (.inl rfl)))
  exact Finset.card_lt_card this

theorem fold_ok {β : Type} (U : Finset Nat) (N : Nat) (f : List Nat → β → Except Err (List Nat)) (l : List β)
    (hf : ∀ r ∈ l, ∀ a : List Nat, (∀ y ∈ a, y ∈ U) → (U \ a.toFinset).card ≤ N →
      ∃ b, f a r = .ok b ∧ (∀ y ∈ b, y ∈ U) ∧ ∀ y ∈ a, y ∈ b)
    (c : List Nat) (hc : ∀ y ∈ c, y ∈ U) (hN : (U \ c.toFinset).card ≤ N) :
    ∃ b, l.foldlM f c = .ok b ∧ (∀ y ∈ b, y ∈ U) ∧ ∀ y ∈ c, y ∈ b := by
  induction l generalizing c with
  | nil => exact ⟨c, rfl, hc, fun _ h => h⟩
  | cons r l ih =>
    obtain ⟨mid, h1, h2, h3⟩ := hf r (List.mem_cons_self ..) c hc hN
    obtain ⟨b, h4, h5, h6⟩ := ih (fun r hr => hf r (List.mem_cons_of_mem _ hr)) mid h2 ((card_sdiff_mono U h3).trans hN)
    refine ⟨b, ?_, h5, fun y hy => h6 y (h3 y hy)⟩
    rw [List.foldlM_cons, h1]
    exact h4

theorem pull_ok (d : Data) (U : Finset Nat) (hU : ∀ x ∈ U, ∀ y, Lists d.parents x y → y ∈ U) (rk : Nat → Nat) (R : Nat)
    (hR : ∀ x ∈ U, rk x ≤ R) (hrk : ∀ x ∈ U, ∀ p, Lists d.parents x p → rk p < rk x) (n : Nat) :
    ∀ (c : List Nat) (x : Nat) (skip : Bool), x ∈ U → (∀ y ∈ c, y ∈ U) → (U \ c.toFinset).card * (R + 1) + rk x + 1 ≤ n →
    ∃ c', pull d n c x skip = .ok c' ∧ (∀ y ∈ c', y ∈ U) ∧ ∀ y ∈ c, y ∈ c' := by
  induction n with
  | zero => intro c x skip _ _ h; omega
  | succ n ih =>
    intro c x skip hx hc hn
    unfold pull
    by_cases h0 : (!skip && decide (x ∈ c)) = true
    · exact ⟨c, by rw [if_pos h0], hc, fun _ h => h⟩
    · rw [if_neg h0]
      cases hl : d.parents x with
      | none => exact ⟨c, rfl, hc, fun _ h => h⟩
      | some l =>
        have hlU : ∀ r ∈ l, r ∈ U ∧ rk r < rk x := fun r hr => ⟨hU x hx r ⟨l, hl, hr⟩, hrk x hx r ⟨l, hl, hr⟩⟩
        obtain ⟨c1, h1, h2, h3⟩ := fold_ok U (U \ c.toFinset).card (fun c r => pull d n c r false) l (by
          intro r hr a ha hN
          refine ih a r false (hlU r hr).1 ha ?_
          have := (hlU r hr).2
          have := Nat.mul_le_mul_right (R + 1) hN
          omega) c hc (Nat.le_refl _)
        simp only [h1, bind, Except.bind]
        have hc2 : ∀ c2, c2 = (if (decide (c1.length > c.length) || d.stale x) = true then add x c1 else c1) →
            (∀ y ∈ c2, y ∈ U) ∧ ∀ y ∈ c, y ∈ c2 := by
          rintro c2 rfl
          split
          · refine ⟨fun y hy => ?_, fun y hy => mem_add.2 (.inr (h3 y hy))⟩
            rcases mem_add.1 hy with rfl | hy
            · exact hx
            · exact h2 y hy
          · exact ⟨h2, h3⟩
        generalize hg : (if (decide (c1.length > c.length) || d.stale x) = true then add x c1 else c1) = c2
        obtain ⟨h4, h5⟩ := hc2 c2 hg.symm
        by_cases hx2 : x ∈ c2
        · rw [if_pos hx2]
          have hcard2 := card_sdiff_mono U h5
          obtain ⟨c3, h6, h7, h8⟩ := fold_ok U (U \ c.toFinset).card (pullRelated d (fun c r => pull d n c r true) x) l (by
            intro r hr a ha hN
            unfold pullRelated
            by_cases hra : r ∈ a
            · exact ⟨a, by rw [if_pos hra], ha, fun _ h => h⟩
            · rw [if_neg hra]
              by_cases hi : d.included x a r = true
              · rw [if_pos hi]
                have hadd : ∀ y ∈ add r a, y ∈ U := fun y hy => by
                  rcases mem_add.1 hy with rfl | hy
                  · exact (hlU y hr).1
                  · exact ha y hy
                obtain ⟨b, g1, g2, g3⟩ := ih (add r a) r true (hlU r hr).1 hadd (by
                  have := card_add U a r (hlU r hr).1 hra
                  have := (hlU r hr).2
                  have := Nat.mul_le_mul_right (R + 1) (show (U \ (add r a).toFinset).card ≤ (U \ c.toFinset).card by omega)
                  omega)
                exact ⟨b, g1, g2, fun y hy => g3 y (mem_add.2 (.inr hy))⟩
              · exact ⟨a, by rw [if_neg hi], ha, fun _ h => h⟩) c2 h4 hcard2
          simp only [h6]
          have hcard3 := (card_sdiff_mono U h8).trans hcard2
          obtain ⟨c4, g1, g2, g3⟩ := fold_ok U (U \ c.toFinset).card (pullMakers d (fun c r => pull d n c r true)) (d.byChild x) (by
            rintro ⟨child, ps⟩ _ a ha hN
            unfold pullMakers
            by_cases hca : child ∈ a
            · rw [if_pos hca]
              refine fold_ok U (U \ c.toFinset).card _ ps (fun p hp u hu hNu => ?_) a ha hN
              unfold pullMaker
              by_cases hq : (decide (p ∈ u) || !((d.parents child).getD []).contains p) = true
              · exact ⟨u, by rw [if_pos hq], hu, fun _ h => h⟩
              · rw [if_neg hq]
                rw [Bool.or_eq_true, not_or, decide_eq_true_eq, Bool.not_eq_true', Bool.not_eq_false, List.contains_iff_mem] at hq
                have hpU : p ∈ U := by
                  cases hpc : d.parents child with
                  | none => rw [hpc] at hq; simp at hq
                  | some lc => rw [hpc] at hq; exact hU child (ha child hca) p ⟨lc, hpc, hq.2⟩
                have hadd : ∀ y ∈ add p u, y ∈ U := fun y hy => by
                  rcases mem_add.1 hy with rfl | hy
                  · exact hpU
                  · exact hu y hy
                obtain ⟨b, e1, e2, e3⟩ := ih (add p u) p true hpU hadd (by
                  have e1 := card_add U u p hpU hq.1
                  have e2 := hR p hpU
                  have e3 := Nat.mul_le_mul_right (R + 1) (show (U \ (add p u).toFinset).card + 1 ≤ (U \ c.toFinset).card by omega)
                  rw [Nat.add_mul] at e3
                  omega)
                exact ⟨b, e1, e2, fun y hy => e3 y (mem_add.2 (.inr hy))⟩
            · exact ⟨a, by rw [if_neg hca], ha, fun _ h => h⟩) c3 h7 hcard3
          exact ⟨c4, g1, g2, fun y hy => g3 y (h8 y (h5 y hy))⟩
        · exact ⟨c2, by rw [if_neg hx2], h4, h5⟩

theorem length_le_card (U : Finset Nat) (c : List Nat) (hn : c.Nodup) (hc : ∀ y ∈ c, y ∈ U) : c.length ≤ U.card := by
  rw [← List.toFinset_card_of_nodup hn]
  exact Finset.card_le_card fun y hy => hc y (List.mem_toFinset.1 hy)

theorem sweep_ok (d : Data) (U : Finset Nat) (hU : ∀ x ∈ U, ∀ y, Lists d.parents x y → y ∈ U) (rk : Nat → Nat) (R : Nat)
    (hR : ∀ x ∈ U, rk x ≤ R) (hrk : ∀ x ∈ U, ∀ p, Lists d.parents x p → rk p < rk x) (n : Nat) (hn : (U.card + 1) * (R + 1) ≤ n)
    (m : Nat) : ∀ (i : Nat) (c : List Nat), (∀ y ∈ c, y ∈ U) → c.Nodup → U.card ≤ i + m →
    ∃ c', sweep d n m i c = .ok c' ∧ (∀ y ∈ c', y ∈ U) := by
  induction m with
  | zero =>
    intro i c hc hnd hi
    unfold sweep
    have := length_le_card U c hnd hc
    rw [List.getElem?_eq_none_iff.2 (by omega)]
    exact ⟨c, rfl, hc⟩
  | succ m ih =>
    intro i c hc hnd hi
    unfold sweep
    cases hx : c[i]? with
    | none => exact ⟨c, rfl, hc⟩
    | some x =>
      have hxU := hc x (List.mem_of_getElem? hx)
      obtain ⟨c', h1, h2, h3⟩ := pull_ok d U hU rk R hR hrk n c x true hxU hc (by
        have e1 : (U \ c.toFinset).card ≤ U.card := Finset.card_le_card Finset.sdiff_subset
        have e2 := Nat.mul_le_mul_right (R + 1) e1
        have e3 := hR x hxU
        rw [Nat.add_mul] at hn
        omega)
      obtain ⟨C, h4, h5⟩ := ih (i + 1) c' h2 ((pull_post d n c x true c' h1).nodup hnd) (by omega)
      refine ⟨C, ?_, h5⟩
      simp only [h1, bind, Except.bind]
      exact h4

theorem rounds_ok (d : Data) (cousins : Bool) (U : Finset Nat) (hU : ∀ x ∈ U, ∀ y, Lists d.parents x y → y ∈ U)
    (hUc : ∀ x ∈ U, ∀ y, Lists d.children x y → y ∈ U) (rk : Nat → Nat) (R : Nat)
    (hR : ∀ x ∈ U, rk x ≤ R) (hrk : ∀ x ∈ U, ∀ p, Lists d.parents x p → rk p < rk x) (n : Nat) (hn : (U.card + 1) * (R + 1) ≤ n + 2)
    (hn' : U.card ≤ n) (m : Nat) (hm : U.card ≤ m) : ∀ (k : Nat) (ids c : List Nat), (∀ x ∈ ids, x ∈ c) → (∀ x ∈ c, x ∈ ids) →
    c.Nodup → (∀ y ∈ c, y ∈ U) → (U.card + 2 ≤ k ∨ ids = c ∧ U.card + 1 ≤ k + c.length) →
    ∃ C, rounds d cousins (n + 2) m k ids c = .ok C := by
  intro k
  induction k with
  | zero =>
    intro ids c _ _ hnd hc hk
    have := length_le_card U c hnd hc
    omega
  | succ k ih =>
    intro ids c hic hci hnd hc hk
    unfold rounds
    obtain ⟨c1, h1⟩ := pushAll_ok d.children U hUc n hn' ids c fun y hy => hc y (hic y hy)
    have hp := pushAll_post d.children (n + 1) (· ∈ U) (fun x y hx => hUc x hx y) ids c c1 hic hc (fun x hx => .inl (hci x hx)) h1
    obtain ⟨c2, h2, h3⟩ := sweep_ok d U hU rk R hR hrk (n + 2) hn m 0 c1 hp.2.1 (hp.2.2.2 hnd) (by omega)
    simp only [h1, h2, bind, Except.bind]
    have hsw := (sweep_post d (n + 2) m 0 c1 c2 h2).1
    have hn2 := hsw.nodup (hp.2.2.2 hnd)
    by_cases hb : (decide (ids.length = c2.length) || !cousins) = true
    · exact ⟨c2, by rw [if_pos hb]⟩
    · rw [if_neg hb]
      refine ih c2 c2 (fun _ h => h) (fun _ h => h) hn2 h3 (.inr ⟨rfl, ?_⟩)
      rcases hk with hk | ⟨rfl, hk⟩
      · omega
      · have hle : ids.length ≤ c1.length := (List.subperm_of_subset hnd hp.1).length_le
        have hle2 := hsw.pre.length_le
        have hne : ids.length ≠ c2.length := by
          intro he
          rw [he] at hb
          simp at hb
        omega

/-- **C76** (partial: no cycle among the parents). The closure is computed: recursion and loops end. -/
theorem pull_ends_partial (d : Data) (o : Opts) (inclusive : Bool) (start : List Nat) (U : Finset Nat) (hs : ∀ x ∈ start, x ∈ U)
    (hU : ∀ x ∈ U, ∀ y, Lists d.parents x y ∨ Lists d.children x y → y ∈ U)
    (hac : ∃ rk : Nat → Nat, ∀ x p, Lists d.parents x p → rk p < rk x) :
    ∃ N, ∀ n m k, N ≤ n → N ≤ m → N ≤ k → ∃ out, raw d o n m k start inclusive false = .ok out := by
  obtain ⟨rk, hrk⟩ := hac
  obtain ⟨R, hR⟩ : ∃ R, ∀ x ∈ U, rk x ≤ R := ⟨U.sup rk, fun x hx => Finset.le_sup (f := rk) hx⟩
  refine ⟨(U.card + 1) * (R + 1) + U.card + 2, fun n m k hn hm hk => ?_⟩
  obtain ⟨n', rfl⟩ : ∃ n', n = n' + 2 := ⟨n - 2, by omega⟩
  have hin : ∀ x ∈ setOf start, x ∈ U := fun x hx => hs x (mem_setOf.1 hx)
  unfold raw
  simp only [Bool.false_eq_true, if_false]
  by_cases hp : o.pull = true
  · rw [if_pos hp]
    obtain ⟨C, hC⟩ := rounds_ok d o.cousins U (fun x hx y hy => hU x hx y (.inl hy)) (fun x hx y hy => hU x hx y (.inr hy)) rk R hR
      (fun x _ => hrk x) n' (by omega) (by omega) m (by omega) k start (setOf start) (fun x hx => mem_setOf.2 hx)
      (fun x hx => mem_setOf.1 hx) (nodup_setOf start) hin (.inl (by omega))
    rw [hC]
    exact ⟨_, rfl⟩
  · rw [if_neg hp]
    obtain ⟨C, hC⟩ := pushAll_ok d.children U (fun x hx y hy => hU x hx y (.inr hy)) n' (by omega) start (setOf start) hs
    rw [hC]
    exact ⟨_, rfl⟩

/-- A call on a cell from which first parents lead on forever outside the closure does not end, however deep the stack. -/
theorem pull_diverges (d : Data) (Z : Nat → Prop) (hZ : ∀ z, Z z → ∃ r l, d.parents z = some (r :: l) ∧ Z r) (n : Nat) :
    ∀ (c : List Nat) (z : Nat), Z z → (∀ y ∈ c, ¬ Z y) → pull d n c z false = .error .fuel := by
  induction n with
  | zero => intro c z _ _; rfl
  | succ n ih =>
    intro c z hz hc
    obtain ⟨r, l, hl, hr⟩ := hZ z hz
    unfold pull
    have : z ∉ c := fun hm => hc z hm hz
    simp [this, hl, ih c r hr hc, bind, Except.bind]

/-! ## Cases -/

/-- A table given by its entries. -/
def tableOf (t : List (Nat × List Nat)) (x : Nat) : Option (List Nat) := (t.find? fun e => e.1 = x).map (·.2)

theorem lists_tableOf (t : List (Nat × List Nat)) (x y : Nat) (h : Lists (tableOf t) x y) : ∃ l, (x, l) ∈ t ∧ y ∈ l := by
  obtain ⟨l, hl, hy⟩ := h
  unfold tableOf at hl
  rw [Option.map_eq_some_iff] at hl
  obtain ⟨⟨x', l'⟩, h1, rfl⟩ := hl
  have h2 := List.find?_some h1
  simp only [decide_eq_true_eq] at h2
  subst h2
  exact ⟨l', List.mem_of_find?_eq_some h1, hy⟩

/-- A client that only knows edges and which cells are ready. -/
def simple (parents children : List (Nat × List Nat)) (ready : List Nat) : Data :=
  { parents := tableOf parents
    children := tableOf children
    executed := fun _ => true
    ready := ready.contains
    waiting := fun _ => false
    dirty := fun _ => false
    staleParents := fun _ => []
    byExec := fun _ => []
    byChild := fun _ => [] }

theorem consistent_simple (parents children : List (Nat × List Nat)) (ready : List Nat)
    (h : ∀ e ∈ parents, ∀ p ∈ e.2, ∃ l, tableOf children p = some l ∧ e.1 ∈ l) : Consistent (simple parents children ready) where
  listed := fun x p hp => by
    obtain ⟨l, h1, h2⟩ := lists_tableOf parents x p hp
    obtain ⟨l', h3, h4⟩ := h _ h1 p h2
    exact ⟨l', h3, h4⟩
  transpose := fun x e r => by simp [simple]
  entry := fun x e ps h => by simp [simple] at h

/-- Two cells that use cell 0, which is to be run again. -/
def fork : Data := simple [(0, []), (1, [0]), (2, [0])] [(0, [1, 2])] [0]

theorem consistent_fork : Consistent fork := by
  refine consistent_simple _ _ _ ?_
  simp [tableOf]

/-- Running 1 pulls in 0, which pushes to its cousin 2. -/
example : Consistent fork ∧ raw fork ⟨true, true⟩ 10 10 10 [1] true false = .ok [1, 0, 2] := ⟨consistent_fork, by decide +kernel⟩

/-- Parents reported as overwritten are pulled in: 2 uses 0 and 1, executing 1 overwrites what 2 took from 0. -/
def overwritten : Data :=
  { simple [(0, []), (1, []), (2, [0, 1])] [(0, [2]), (1, [2])] [] with
    byExec := fun x => if x = 2 then [(1, [0])] else []
    byChild := fun x => if x = 1 then [(2, [0])] else [] }

theorem consistent_overwritten : Consistent overwritten where
  listed := (consistent_simple [(0, []), (1, []), (2, [0, 1])] [(0, [2]), (1, [2])] [] (by simp [tableOf])).listed
  transpose := fun x e r => by
    unfold overwritten
    dsimp only
    by_cases hx : x = 2 <;> by_cases he : e = 1 <;> simp [hx, he]
  entry := fun x e ps h => by
    unfold overwritten at h ⊢
    dsimp only at h
    by_cases hx : x = 2
    · rw [if_pos hx] at h
      simp only [List.mem_singleton, Prod.mk.injEq] at h
      rw [h.1]; rfl
    · rw [if_neg hx] at h; simp at h

example : raw overwritten ⟨true, true⟩ 10 10 10 [1] true false = .ok [1, 2, 0] ∧
    raw overwritten ⟨true, true⟩ 10 10 10 [2] true false = .ok [2] := by decide +kernel

/-- **C74 is violated** when a start cell is given twice: the loop stops early, and a cell that depends on one that is run is left out. -/
theorem pull_exact_violated : ∃ d : Data, Consistent d ∧ ∃ out, raw d ⟨true, true⟩ 10 10 10 [1, 1] true false = .ok out ∧
    0 ∈ out ∧ Lists d.children 0 2 ∧ 2 ∉ out :=
  ⟨fork, consistent_fork, [1, 0], by decide +kernel, by simp, ⟨[1, 2], rfl, by simp⟩, by simp⟩

/-- Cells 1 and 2 use 0, and 3 uses both; 0 is to be run again. -/
def diamond : Data := simple [(0, []), (1, [0]), (2, [0]), (3, [1, 2])] [(0, [1, 2]), (1, [3]), (2, [3])] [0]

theorem consistent_diamond : Consistent diamond := by
  refine consistent_simple _ _ _ ?_
  simp [tableOf]

/-- **C75 is violated** without updates of cousins: running 3 pulls in 0 and 1, not 2. -/
theorem between_violated : ∃ d : Data, Consistent d ∧ ∃ out, raw d ⟨true, false⟩ 10 10 10 [3] true false = .ok out ∧
    0 ∈ out ∧ 3 ∈ out ∧ Relation.TransGen (Lists d.parents) 2 0 ∧ Relation.TransGen (Lists d.parents) 3 2 ∧ 2 ∉ out :=
  ⟨diamond, consistent_diamond, [3, 0, 1], by decide +kernel, by simp, by simp, .single ⟨[0], rfl, by simp⟩,
    .single ⟨[1, 2], rfl, by simp⟩, by simp⟩

example : raw diamond ⟨true, true⟩ 10 10 10 [3] true false = .ok [3, 0, 1, 2] := by decide +kernel

/-- The hypothesis of `pull_ends_partial`. -/
example : ∃ rk : Nat → Nat, ∀ x p, Lists diamond.parents x p → rk p < rk x :=
  ⟨id, fun x p h => by
    obtain ⟨l, h1, h2⟩ := lists_tableOf _ x p h
    simp only [List.mem_cons, Prod.mk.injEq, List.not_mem_nil, or_false] at h1
    rcases h1 with ⟨rfl, rfl⟩ | ⟨rfl, rfl⟩ | ⟨rfl, rfl⟩ | ⟨rfl, rfl⟩ <;> simp at h2 <;> simp <;> omega⟩

/-- Cells 1 and 2 use each other's variables, 0 uses one of them; nothing needs to be run again. -/
def cyclic : Data := simple [(0, [1]), (1, [2]), (2, [1])] [(1, [0, 2]), (2, [1])] []

theorem consistent_cyclic : Consistent cyclic := by
  refine consistent_simple _ _ _ ?_
  simp [tableOf]

/-- **C76 is violated** by such cells: asking for the closure of 0 exhausts any stack. -/
theorem pull_ends_violated : ∃ d : Data, Consistent d ∧ ∀ (o : Opts) (inclusive : Bool), o.pull = true →
    ∀ n m k, raw d o n m k [0] inclusive false = .error .fuel := by
  refine ⟨cyclic, consistent_cyclic, fun o inclusive ho n m k => ?_⟩
  unfold raw
  simp only [Bool.false_eq_true, if_false, ho, if_true]
  suffices h : rounds cyclic o.cousins n m k [0] (setOf [0]) = .error .fuel by rw [h]; rfl
  cases k with
  | zero => rfl
  | succ k =>
    unfold rounds
    cases n with
    | zero => rfl
    | succ n =>
      have h1 : pushAll cyclic.children (n + 1) (setOf [0]) [0] = .ok [0] := rfl
      have h2 : sweep cyclic (n + 1) m 0 [0] = .error .fuel := by
        cases m with
        | zero => rfl
        | succ m =>
          have h3 : pull cyclic (n + 1) [0] 0 true = .error .fuel := by
            have h4 : pull cyclic n [0] 1 false = .error .fuel :=
              pull_diverges cyclic (fun z => z = 1 ∨ z = 2) (by
                rintro z (rfl | rfl)
                · exact ⟨2, [], rfl, .inr rfl⟩
                · exact ⟨1, [], rfl, .inl rfl⟩) n [0] 1 (.inl rfl) (by simp)
            have hl : cyclic.parents 0 = some [1] := rfl
            unfold pull
            simp [hl, h4, bind, Except.bind]
          unfold sweep
          simp [h3, bind, Except.bind]
      rw [h1]
      simp only [bind, Except.bind]
      rw [h2]

end Verif.Store
