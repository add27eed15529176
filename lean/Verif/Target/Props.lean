import Verif.Target.Spec

/-!
# Assignments and deletions in functions are recorded for the variable they concern
-/

namespace Verif.Target

variable {V : Type}

theorem owner_unique (chain : List Block) (j i i' : Nat) (h : Owner chain j i)
    (h' : Owner chain j i') : i = i' := by
  cases h with
  | own h1 h2 =>
    cases h' with
    | own => rfl
    | global g1 g2 => rw [h1] at g1; cases g1; rw [h2] at g2; cases g2
    | outer g1 g2 => rw [h1] at g1; cases g1; rw [h2] at g2; rcases g2 with g2 | g2 <;> cases g2
  | global h1 h2 =>
    cases h' with
    | own g1 g2 => rw [h1] at g1; cases g1; rw [h2] at g2; cases g2
    | global => rfl
    | outer g1 g2 => rw [h1] at g1; cases g1; rw [h2] at g2; rcases g2 with g2 | g2 <;> cases g2
  | outer h1 h2 h3 h4 h5 h6 h7 =>
    cases h' with
    | own g1 g2 => rw [h1] at g1; cases g1; rw [g2] at h2; rcases h2 with h2 | h2 <;> cases h2
    | global g1 g2 =>
      rw [h1] at g1; cases g1; rw [g2] at h2; rcases h2 with h2 | h2 <;> cases h2
    | outer g1 g2 g3 g4 g5 g6 g7 =>
      rcases Nat.lt_trichotomy i i' with hlt | heq | hgt
      · exact absurd h6 (g7 i _ h3 hlt h4 h5)
      · exact heq
      · exact absurd g6 (h7 i' _ g3 hgt g4 g5)

theorem owner_lt (chain : List Block) (hw : Wf chain) (j i : Nat) (h : Owner chain j i) :
    i < chain.length := by
  have hpos : 0 < chain.length := List.length_pos_iff.2 hw.nonempty
  cases h with
  | own h1 => exact (List.getElem?_eq_some_iff.1 h1).1
  | global => omega
  | outer _ _ _ h4 => exact (List.getElem?_eq_some_iff.1 h4).1

theorem owner_block (chain : List Block) (j i : Nat) (h : Owner chain j i) :
    ∃ b, chain[j]? = some b := by
  cases h with
  | own h1 => exact ⟨_, h1⟩
  | global h1 => exact ⟨_, h1⟩
  | outer h1 => exact ⟨_, h1⟩

theorem storeScope_eq (chain : List Block) (hw : Wf chain) (j i : Nat) (b : Block)
    (v : V) (w : World V) (hb : chain[j]? = some b) (ho : Owner chain j i)
    (hu : b.decl ≠ .uses) (hp : Plain chain (.bind j v)) :
    storeScope b j (chain.length - 1)
      (if chain.length - 1 = i then some v else w (chain.length - 1)).isSome = some i := by
  unfold storeScope
  cases hdecl : b.decl with
  | binds =>
    have : i = j := owner_unique chain j i j ho (.own hb hdecl)
    subst this
    simp [inLocals, hdecl]
  | isGlobal =>
    have : i = chain.length - 1 := owner_unique chain j i _ ho (.global hb hdecl)
    subst this
    by_cases ht : b.hasTab = true
    · simp [ht]
    · simp [ht, inLocals, hdecl]
  | isNonlocal =>
    obtain ⟨h1, h2, h3⟩ := hp b hb hdecl
    have : i = j + 1 := owner_unique chain j i _ ho h3
    subst this
    have hlt := owner_lt chain hw _ _ h3
    have : ¬ j = chain.length - 1 := by omega
    simp [inLocals, hdecl, h1, h2, this]
  | uses => exact absurd hdecl hu

/-- Whatever code binds and deletes, in which functions and classes whatever, and in which
order whatever: what is recorded for the name in each scope is what the variable of the
name in that scope is. -/
theorem recorded_partial (chain : List Block) (hw : Wf chain) (ops : List (Op V))
    (w : World V) (t : Tab V) (h : Runs chain ops w t) (hp : ∀ op ∈ ops, Plain chain op) :
    ∀ i, t i = w i := by
  induction h with
  | start => intro i; rfl
  | @bind ops w t j v w' _ hd ih =>
    have ih := ih (fun op ho => hp op (List.mem_append_left _ ho))
    have hpl := hp (.bind j v) (by simp)
    cases hd with
    | @bind _ _ i ho hu =>
      obtain ⟨b, hb⟩ := owner_block chain j i ho
      intro k
      unfold store
      rw [hb]
      simp only
      rw [storeScope_eq chain hw j i b v w hb ho (hu b hb) hpl]
      simp only [set]
      rw [ih k]
  | @del ops w t j w' _ hd ih =>
    have ih := ih (fun op ho => hp op (List.mem_append_left _ ho))
    have hpl := hp (.del j) (by simp)
    cases hd with
    | @del _ i ho hu =>
      obtain ⟨b, hb⟩ := owner_block chain j i ho
      have : i = j := owner_unique chain j i j ho (.own hb (hpl b hb))
      subst this
      intro k
      simp only [delete, set]
      rw [ih k]

theorem owner_binds (chain : List Block) (hw : Wf chain) (j i : Nat) (h : Owner chain j i) :
    ∃ b, chain[i]? = some b ∧ b.decl = .binds := by
  have hpos : 0 < chain.length := List.length_pos_iff.2 hw.nonempty
  cases h with
  | own h1 h2 => exact ⟨_, h1, h2⟩
  | global =>
    have hlt : chain.length - 1 < chain.length := by omega
    exact ⟨_, List.getElem?_eq_getElem hlt, (hw.top _ (List.getElem?_eq_getElem hlt)).2⟩
  | outer _ _ _ h4 _ h6 => exact ⟨_, h4, h6⟩

/-- Only variables of blocks that bind the name ever have a value. -/
theorem runs_binds (chain : List Block) (hw : Wf chain) (ops : List (Op V)) (w : World V)
    (t : Tab V) (h : Runs chain ops w t) :
    ∀ i, w i ≠ none → ∃ b, chain[i]? = some b ∧ b.decl = .binds := by
  induction h with
  | start => intro i hi; exact absurd rfl hi
  | @bind ops w t j v w' _ hd ih =>
    cases hd with
    | @bind _ _ i ho hu =>
      intro k hk
      by_cases hki : k = i
      · subst hki; exact owner_binds chain hw j k ho
      · exact ih k (by simpa [hki] using hk)
  | @del ops w t j w' _ hd ih =>
    cases hd with
    | @del _ i ho hu =>
      intro k hk
      by_cases hki : k = i
      · simp [hki] at hk
      · exact ih k (by simpa [hki] using hk)

theorem lookupFrom_eq (t : Tab V) (bs : List Block) (n i : Nat) (b : Block) (v : V)
    (hi : bs[i]? = some b) (hc : b.isClass = false) (hv : t (n + i) = some v)
    (hn : ∀ k c, k < i → bs[k]? = some c → c.isClass = false → t (n + k) = none) :
    lookupFrom t bs n = some v := by
  induction bs generalizing n i with
  | nil => simp at hi
  | cons c bs ih =>
    cases i with
    | zero =>
      simp only [List.getElem?_cons_zero, Option.some.injEq] at hi
      subst hi
      simp only [lookupFrom, hc]
      simp only [Nat.add_zero] at hv
      simp [hv]
    | succ i =>
      simp only [List.getElem?_cons_succ] at hi
      have hrec := ih (n + 1) i hi (by rw [← hv]; congr 1; omega) (by
        intro k d hk hd hcl
        have := hn (k + 1) d (by omega) (by simpa using hd) hcl
        rw [← this]; congr 1; omega)
      unfold lookupFrom
      by_cases hcl : c.isClass = true
      · rw [if_pos hcl]; exact hrec
      · rw [if_neg hcl]
        have := hn 0 c (by omega) (by simp) (by simpa using hcl)
        simp only [Nat.add_zero] at this
        rw [this]
        exact hrec

/-- Code that uses the name is taken to use the variable that Python takes, in the state it is
in; unless the code declares the name global and a function around it has a variable of that
name. -/
theorem read_partial (chain : List Block) (hw : Wf chain) (ops : List (Op V))
    (w : World V) (t : Tab V) (h : Runs chain ops w t) (hp : ∀ op ∈ ops, Plain chain op)
    (j i : Nat) (v : V) (ho : Owner chain j i) (hv : w i = some v)
    (hg : ∀ b, chain[j]? = some b → b.decl = .isGlobal →
      ∀ k c, j < k → k < chain.length - 1 → chain[k]? = some c → c.isClass = false →
        w k = none) :
    lookup chain t j = some v := by
  have ht : t = w := funext (recorded_partial chain hw ops w t h hp)
  subst ht
  have hb := runs_binds chain hw ops t t h
  have hpos : 0 < chain.length := List.length_pos_iff.2 hw.nonempty
  have hnone : ∀ k c, chain[k]? = some c → c.decl ≠ .binds → t k = none := by
    intro k c hk hc
    by_cases hn : t k = none
    · exact hn
    · obtain ⟨b, h1, h2⟩ := hb k hn
      rw [hk] at h1; cases h1
      exact absurd h2 hc
  unfold lookup
  cases ho with
  | own h1 h2 => rw [hv]
  | @global b h1 h2 =>
    have hlt : chain.length - 1 < chain.length := by omega
    have htop := hw.top _ (List.getElem?_eq_getElem hlt)
    have hjt : j < chain.length - 1 := by
      have := (List.getElem?_eq_some_iff.1 h1).1
      rcases Nat.lt_or_ge j (chain.length - 1) with hlt' | hge
      · exact hlt'
      · have : j = chain.length - 1 := by omega
        subst this
        rw [(hw.top _ h1).2] at h2; cases h2
    rw [hnone j b h1 (by rw [h2]; simp)]
    refine lookupFrom_eq t _ (j + 1) (chain.length - 1 - (j + 1)) _ v
      (by rw [List.getElem?_drop]; rw [← List.getElem?_eq_getElem hlt]; congr 1; omega) htop.1
      (by rw [← hv]; congr 1; omega) ?_
    intro k c hk hc hcl
    rw [List.getElem?_drop] at hc
    exact hg b h1 h2 (j + 1 + k) c (by omega) (by omega) hc hcl
  | @outer b _ c h1 h2 h3 h4 h5 h6 h7 =>
    rw [hnone j b h1 (by rcases h2 with h2 | h2 <;> rw [h2] <;> simp)]
    refine lookupFrom_eq t _ (j + 1) (i - (j + 1)) c v
      (by rw [List.getElem?_drop, ← h4]; congr 1; omega) h5
      (by rw [← hv]; congr 1; omega) ?_
    intro k d hk hd hcl
    rw [List.getElem?_drop] at hd
    exact hnone _ d hd (h7 _ d (by omega) (by omega) hd hcl)

/-! ## Where it goes wrong -/

/-- A variable of a function that is not the one just around the code: an assignment to it is
recorded for the function just around, and what is recorded for the variable stays as it was. -/
theorem nonlocal_far (chain : List Block) (j i : Nat) (b : Block) (v : V) (t : Tab V)
    (g : Bool) (hb : chain[j]? = some b) (hf : b.isClass = false) (ht : b.hasTab = true)
    (hd : b.decl = .isNonlocal) (ho : Owner chain j i) (hi : i ≠ j + 1) :
    store chain j v g t i = t i ∧ store chain j v g t (j + 1) = some v := by
  have hlt : j < i ∧ i < chain.length := by
    cases ho with
    | own g1 g2 => rw [hb] at g1; cases g1; rw [hd] at g2; cases g2
    | global g1 g2 => rw [hb] at g1; cases g1; rw [hd] at g2; cases g2
    | outer _ _ h3 h4 => exact ⟨h3, (List.getElem?_eq_some_iff.1 h4).1⟩
  have hj : ¬ j = chain.length - 1 := by omega
  simp [store, hb, storeScope, ht, hd, inLocals, hf, hj, set, hi]

/-- The same if nothing is known about the declarations of the function: the assignment is
recorded as one of a variable of the function itself. -/
theorem nonlocal_unknown (chain : List Block) (j i : Nat) (b : Block) (v : V) (t : Tab V)
    (g : Bool) (hb : chain[j]? = some b) (hf : b.isClass = false) (ht : b.hasTab = false)
    (hd : b.decl = .isNonlocal) (ho : Owner chain j i) :
    store chain j v g t i = t i ∧ store chain j v g t j = some v := by
  have hlt : i ≠ j := by
    cases ho with
    | own g1 g2 => rw [hb] at g1; cases g1; rw [hd] at g2; cases g2
    | global g1 g2 => rw [hb] at g1; cases g1; rw [hd] at g2; cases g2
    | outer _ _ h3 => omega
  simp [store, hb, storeScope, ht, hd, inLocals, hf, set, hlt]

/-- In the body of a class: the assignment is recorded as one of the global variable, if there
is one of this name. -/
theorem nonlocal_in_class (chain : List Block) (j : Nat) (b : Block) (v : V) (t : Tab V)
    (hb : chain[j]? = some b) (hf : b.isClass = true) (ht : b.hasTab = false)
    (hd : b.decl = .isNonlocal) :
    store chain j v true t (chain.length - 1) = some v ∧ store chain j v false t = t := by
  simp [store, hb, storeScope, ht, hd, inLocals, hf, set]

/-- A deletion of a variable that is declared global or nonlocal is not recorded. -/
theorem declared_deleted (chain : List Block) (j i : Nat) (t : Tab V)
    (ho : Owner chain j i) (hi : i ≠ j) : delete j t i = t i := by
  have := ho
  simp [delete, set, hi]

end Verif.Target
