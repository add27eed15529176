import Verif.Lookup.Model
import Mathlib.Tactic.NormNum

/-!
# What is found (C52, C53, C81) -/

namespace Verif.Lookup

variable {σ : Type}

/-! ## Names -/

/-- `Visible fs x s`: written against Python's rule. In the code of the innermost of the nested blocks `fs`, the name `x` is bound in that
block itself, or, if it is not, in the innermost of the blocks around it that is not the body of a class and binds it. -/
inductive Outer : List (Frame σ) → Nat → σ → Prop
  | bound {tab : Nat → Option σ} {fs x s} : tab x = some s → Outer (.plain tab :: fs) x s
  | out {tab : Nat → Option σ} {fs x s} : tab x = none → Outer fs x s → Outer (.plain tab :: fs) x s
  | skip {n : Ns σ} {fs x s} : Outer fs x s → Outer (.ns n :: fs) x s

/-- What a class body itself binds. -/
def Binds : Ns σ → Nat → Option σ
  | .mk attrs _ _ _ _, x => attrs x

/-- Python's rule for the block the code is in and those around it. -/
inductive Visible : List (Frame σ) → Nat → σ → Prop
  | func {tab : Nat → Option σ} {fs x s} : Outer (.plain tab :: fs) x s → Visible (.plain tab :: fs) x s
  | own {n : Ns σ} {fs x s} : Binds n x = some s → Visible (.ns n :: fs) x s
  | around {n : Ns σ} {fs x s} : Binds n x = none → Outer fs x s → Visible (.ns n :: fs) x s

theorem outer_nonNs (fs : List (Frame σ)) (x : Nat) (s : σ) : Outer (nonNsParents fs) x s ↔ Outer fs x s := by
  induction fs with
  | nil => simp [nonNsParents]
  | cons f fs ih =>
    cases f with
    | plain tab => simp [nonNsParents, Frame.isNs]
    | ns n =>
      simp only [nonNsParents, Frame.isNs, if_true, ih]
      exact ⟨.skip, fun h => by cases h; assumption⟩

/-- The parents that are left start with a block that is not a class body. -/
theorem nonNs_head (fs : List (Frame σ)) : nonNsParents fs = [] ∨ ∃ tab rest, nonNsParents fs = .plain tab :: rest := by
  induction fs with
  | nil => simp [nonNsParents]
  | cons f fs ih =>
    cases f with
    | plain tab => simp [nonNsParents, Frame.isNs]
    | ns n => simpa [nonNsParents, Frame.isNs] using ih

theorem lookup_plain (m : Nat) : ∀ (fs : List (Frame σ)), fs.length ≤ m → (fs = [] ∨ ∃ tab rest, fs = .plain tab :: rest) →
    ∀ x s, lookup fs (.str x) = some s ↔ Outer fs x s := by
  induction m with
  | zero =>
    intro fs hm _ x s
    have : fs = [] := List.length_eq_zero_iff.mp (by omega)
    subst this
    simp only [lookup]
    exact ⟨fun h => by simp at h, fun h => by cases h⟩
  | succ m ih =>
    intro fs hm hf x s
    rcases hf with rfl | ⟨tab, rest, rfl⟩
    · simp only [lookup]
      exact ⟨fun h => by simp at h, fun h => by cases h⟩
    · rw [lookup]
      simp only [attrAt]
      cases ht : tab x with
      | some t =>
        constructor
        · intro h
          exact .bound (by rw [ht]; exact h)
        · intro h
          cases h with
          | bound hb => rw [ht] at hb; exact hb
          | out hb _ => rw [ht] at hb; cases hb
      | none =>
        have hl := nonNsParents_length rest
        have := ih (nonNsParents rest) (by simp at hm; omega) (nonNs_head rest) x s
        simp only [this, outer_nonNs]
        constructor
        · exact fun h => .out ht h
        · intro h
          cases h with
          | bound hb => rw [ht] at hb; cases hb
          | out _ ho => exact ho

/-- **C52**, for code that is not directly in the body of a class: the symbol found for a name is the one Python's rule gives, none if the
rule gives none. Missing: code directly in the body of a class, see `lookup_violated`. -/
theorem lookup_visible_partial (tab : Nat → Option σ) (fs : List (Frame σ)) (x : Nat) (s : σ) :
    lookup (.plain tab :: fs) (.str x) = some s ↔ Visible (.plain tab :: fs) x s := by
  rw [lookup_plain _ _ (Nat.le_refl _) (.inr ⟨tab, fs, rfl⟩)]
  exact ⟨.func, fun h => by cases h; assumption⟩

/-- Directly in a class body: what is found in the body's own table is right, and nothing else of the rule is missed but what is
around the class. -/
theorem lookup_class (attrs : Nat → Option σ) (len : Option Nat) (dict : Nat → Bool) (fs : List (Frame σ)) (x : Nat) (s : σ) :
    lookup (.ns (.mk attrs (fun _ => none) len dict none) :: fs) (.str x) = some s ↔ attrs x = some s := by
  rw [lookup]
  unfold Ns.here
  cases h : attrs x <;> simp [attrAt, lookupSubscript, h]

/-- A table with one entry. -/
def one (x : Nat) (s : σ) : Nat → Option σ := fun y => if y = x then some s else none

/-- **C52 fails** in class bodies: with `x = 0` in the notebook and `class C: y = x` in a cell, the read of `x` finds nothing, though `x` is
visible there; so `C` does not depend on `x`. -/
theorem lookup_violated : ∃ (fs : List (Frame Nat)) (x s : Nat), Visible fs x s ∧ lookup fs (.str x) = none := by
  refine ⟨[.ns (.mk (fun _ => none) (fun _ => none) none (fun _ => false) none), .plain (one 7 1)], 7, 1, .around rfl (.bound rfl), ?_⟩
  simp [lookup, Ns.here, attrAt, lookupSubscript]

/-- A method of a class in a function: `x` is bound in the class body, in the function and in the notebook, `y` in the class body and in
the notebook. The method sees the function's `x` and the notebook's `y`. -/
example : let fs : List (Frame Nat) := [.plain (one 3 0), .ns (.mk (fun _ => some 9) (fun _ => none) none (fun _ => false) none),
      .plain (one 7 1), .plain (fun y => if y = 7 then some 2 else one 8 4 y)]
    lookup fs (.str 7) = some 1 ∧ lookup fs (.str 8) = some 4 :=
  ⟨(lookup_visible_partial _ _ _ _).mpr (.func (.out rfl (.skip (.bound rfl)))),
    (lookup_visible_partial _ _ _ _).mpr (.func (.out rfl (.skip (.out rfl (.bound rfl)))))⟩

/-! ## Chains -/

/-- The symbol recorded for attribute `a` of an object, or of what it is an instance of, unless the object has an `a` of its own. -/
inductive AttrOf : Ns σ → Nat → σ → Prop
  | own {attrs subs len dict base a s} : attrs a = some s → AttrOf (.mk attrs subs len dict base) a s
  | cls {attrs subs len dict b a s} : attrs a = none → dict a = false → AttrOf b a s → AttrOf (.mk attrs subs len dict (some b)) a s

/-- The symbol recorded for the element `k` of an object: under `k`, or, in a sequence of `n` elements, under `n + k` if `k` is negative. -/
inductive ItemOf : Ns σ → Key → σ → Prop
  | own {attrs subs len dict base k s} : subs k = some s → ItemOf (.mk attrs subs len dict base) k s
  | back {attrs subs n dict base z s} : subs (.int z) = none → z < 0 → subs (.int (n + z)) = some s →
      ItemOf (.mk attrs subs (some n) dict base) (.int z) s

/-- The symbol recorded for a link of a chain: `.a` or `[k]`. -/
def LinkOf (n : Ns σ) (a : Atom) (s : σ) : Prop :=
  if a.subscript then ItemOf n a.value s else ∃ m, a.value = .str m ∧ AttrOf n m s

/-- An element is recorded under the text `a` for the object or for what it is an instance of. -/
inductive HasItem : Ns σ → Nat → Prop
  | own {attrs subs len dict base a s} : subs (.str a) = some s → HasItem (.mk attrs subs len dict base) a
  | cls {attrs subs len dict b a} : HasItem b a → HasItem (.mk attrs subs len dict (some b)) a

/-- What an object is an instance of. -/
def Ns.base : Ns σ → Option (Ns σ)
  | .mk _ _ _ _ b => b

/-- The link cannot be mistaken: if it is `.a` then no element is recorded under the text `a`; if it is `['a']` then no attribute `a` is
recorded, nor an element of the class under that text. -/
def Clear (n : Ns σ) (a : Atom) : Prop :=
  if a.subscript then
    ∀ m, a.value = .str m → (∀ s, ¬ AttrOf n m s) ∧ ∀ b, n.base = some b → ¬ HasItem b m
  else ∃ m, a.value = .str m ∧ ¬ HasItem n m

theorem attr_here : ∀ (n : Ns σ) (m : Nat) (s : σ), ¬ HasItem n m → (n.here (.str m) none = some s ↔ AttrOf n m s)
  | .mk attrs subs len dict base, m, s, hi => by
    have hs : subs (.str m) = none := by
      cases h : subs (.str m) with
      | none => rfl
      | some t => exact absurd (.own h) hi
    unfold Ns.here
    have hl : lookupSubscript subs len (.str m) = none := by
      unfold lookupSubscript
      rw [hs]
      cases len <;> rfl
    cases ha : attrs m with
    | some t =>
      simp only [attrAt, ha, Option.some_or]
      constructor
      · intro h
        exact .own (by rw [ha]; exact h)
      · intro h
        cases h with
        | own h => rw [ha] at h; exact h
        | cls h _ _ => rw [ha] at h; cases h
    | none =>
      simp only [attrAt, ha, hl, Option.or_none]
      cases base with
      | none =>
        constructor
        · intro h
          simp at h
        · intro h
          cases h with
          | own h => rw [ha] at h; cases h
      | some b =>
        have ih := attr_here b m s (fun h => hi (.cls h))
        cases hd : dict m with
        | true =>
          simp only [hd, if_true]
          constructor
          · intro h
            cases h
          · intro h
            cases h with
            | own h => rw [ha] at h; cases h
            | cls _ h _ => rw [hd] at h; cases h
        | false =>
          simp only [hd, Bool.false_eq_true, if_false, ih]
          constructor
          · exact fun h => .cls ha hd h
          · intro h
            cases h with
            | own h => rw [ha] at h; cases h
            | cls _ _ h => exact h

theorem attr_here_false : ∀ (n : Ns σ) (m : Nat) (s : σ), n.here (.str m) (some false) = some s ↔ AttrOf n m s
  | .mk attrs subs len dict base, m, s => by
    unfold Ns.here
    cases ha : attrs m with
    | some t =>
      simp only [attrAt, ha]
      constructor
      · intro h
        exact .own (by rw [ha]; exact h)
      · intro h
        cases h with
        | own h => rw [ha] at h; exact h
        | cls h _ _ => rw [ha] at h; cases h
    | none =>
      simp only [attrAt, ha]
      cases base with
      | none =>
        constructor
        · intro h
          simp at h
        · intro h
          cases h with
          | own h => rw [ha] at h; cases h
      | some b =>
        have ih := attr_here_false b m s
        cases hd : dict m with
        | true =>
          simp only [hd, if_true]
          constructor
          · intro h
            cases h
          · intro h
            cases h with
            | own h => rw [ha] at h; cases h
            | cls _ h _ => rw [hd] at h; cases h
        | false =>
          simp only [hd, Bool.false_eq_true, if_false, ih]
          constructor
          · exact fun h => .cls ha hd h
          · intro h
            cases h with
            | own h => rw [ha] at h; cases h
            | cls _ _ h => exact h

theorem item_lookup (attrs : Nat → Option σ) (subs : Key → Option σ) (len : Option Nat) (dict : Nat → Bool) (base : Option (Ns σ))
    (k : Key) (s : σ) : lookupSubscript subs len k = some s ↔ ItemOf (.mk attrs subs len dict base) k s := by
  unfold lookupSubscript
  cases hs : subs k with
  | some t =>
    constructor
    · intro h
      exact .own (by rw [hs]; exact h)
    · intro h
      cases h with
      | own h => rw [hs] at h; exact h
      | back h _ _ => rw [hs] at h; cases h
  | none =>
    cases len with
    | none =>
      constructor
      · intro h
        simp at h
      · intro h
        cases h with
        | own h => rw [hs] at h; cases h
    | some n =>
      cases k with
      | str m =>
        constructor
        · intro h
          simp at h
        · intro h
          cases h with
          | own h => rw [hs] at h; cases h
      | int z =>
        by_cases hz : z < 0
        · simp only [hz, if_true]
          constructor
          · exact fun h => .back hs hz h
          · intro h
            cases h with
            | own h => rw [hs] at h; cases h
            | back _ _ h => exact h
        · simp only [hz, if_false]
          constructor
          · intro h
            cases h
          · intro h
            cases h with
            | own h => rw [hs] at h; cases h
            | back _ h _ => exact absurd h hz

/-- What the namespace gives for a link that cannot be mistaken. -/
theorem link_here (n : Ns σ) (a : Atom) (h : Clear n a) (s : σ) : n.here a.value none = some s ↔ LinkOf n a s := by
  unfold Clear at h
  unfold LinkOf
  cases hsub : a.subscript with
  | false =>
    simp only [hsub, Bool.false_eq_true, if_false] at h ⊢
    obtain ⟨m, hm, hi⟩ := h
    rw [hm, attr_here n m s hi]
    constructor
    · exact fun h => ⟨m, rfl, h⟩
    · rintro ⟨m', hm', h⟩
      cases hm'
      exact h
  | true =>
    simp only [hsub, if_true] at h ⊢
    obtain ⟨attrs, subs, len, dict, base⟩ := n
    rw [← item_lookup]
    cases hk : a.value with
    | int z =>
      unfold Ns.here
      simp only [attrAt, Option.none_or]
      cases lookupSubscript subs len (.int z) <;> cases base <;> simp
    | str m =>
      obtain ⟨hno, hb⟩ := h m hk
      have ha : attrs m = none := by
        cases h : attrs m with
        | none => rfl
        | some t => exact absurd (.own h) (hno t)
      unfold Ns.here
      simp only [attrAt, ha, Option.none_or]
      cases hl : lookupSubscript subs len (.str m) with
      | some t => simp
      | none =>
        cases base with
        | none => simp
        | some b =>
          cases hd : dict m with
          | true => simp [hd]
          | false =>
            have : b.here (.str m) none = none := by
              cases hh : b.here (.str m) none with
              | none => rfl
              | some t => exact absurd (.cls ha hd ((attr_here b m t (hb b rfl)).mp hh)) (hno t)
            simp [hd, this]

/-- What a chain resolves to: `out` are the symbols of its first links, as far as they are recorded. -/
structure Resolved (nsOf : σ → Option (Ns σ)) (first : Atom → σ → Prop) (chain : List Atom) (out : List σ) : Prop where
  /-- there are no more symbols than links -/
  len : out.length ≤ chain.length
  /-- the first symbol is the one of the name the chain starts with -/
  head : ∀ a s, chain[0]? = some a → out[0]? = some s → first a s
  /-- each further symbol is the one recorded for the link in the symbol before it, and nothing is looked up in what a call returned -/
  link : ∀ i a b s t, chain[i]? = some a → chain[i + 1]? = some b → out[i]? = some s → out[i + 1]? = some t →
    a.callpoint = false ∧ ∃ n, nsOf s = some n ∧ LinkOf n b t
  /-- resolution stops early only if nothing is recorded for the name, -/
  none : ∀ a, chain[0]? = some a → out = [] → ∀ s, ¬ first a s
  /-- or after a call, or if nothing is recorded for the next link. -/
  stop : ∀ i a b s, chain[i]? = some a → chain[i + 1]? = some b → out[i]? = some s → out.length = i + 1 →
    a.callpoint = true ∨ ∀ n, nsOf s = some n → ∀ t, ¬ LinkOf n b t

/-- Every link after the first one that is reached can be told apart. -/
def AllClear (nsOf : σ → Option (Ns σ)) (chain : List Atom) (out : List σ) : Prop :=
  ∀ i s n b, out[i]? = some s → nsOf s = some n → chain[i + 1]? = some b → Clear n b

theorem genFrom_resolved (nsOf : σ → Option (Ns σ)) : ∀ (chain : List Atom) (find : Key → Option σ) (first : Atom → σ → Prop),
    (∀ a, chain[0]? = some a → ∀ s, find a.value = some s ↔ first a s) →
    AllClear nsOf chain ((genFrom nsOf find chain).map (·.1)) →
    Resolved nsOf first chain ((genFrom nsOf find chain).map (·.1)) := by
  intro chain
  induction chain with
  | nil =>
    intro find first _ _
    constructor <;> simp [genFrom]
  | cons a rest ih =>
    intro find first hf hc
    have hfa := hf a rfl
    unfold genFrom at hc ⊢
    cases hx : find a.value with
    | none =>
      constructor <;> simp
      intro s hs
      rw [(hfa s).mpr hs] at hx
      cases hx
    | some s =>
      simp only [hx] at hc ⊢
      have hs := (hfa s).mp hx
      cases hcall : a.callpoint with
      | true =>
        simp only [if_true, List.map_cons, List.map_nil]
        constructor
        · simp
        · intro a' s' h1 h2
          simp at h1 h2
          subst h1 h2
          exact hs
        · intro i a' b s' t _ _ _ h4
          simp at h4
        · simp
        · intro i a' b s' h1 _ h3 h4
          simp at h4
          subst h4
          simp at h1
          subst h1
          exact .inl hcall
      | false =>
        simp only [hcall, Bool.false_eq_true, if_false] at hc ⊢
        cases hn : nsOf s with
        | none =>
          simp only [List.map_cons, List.map_nil]
          constructor
          · simp
          · intro a' s' h1 h2
            simp at h1 h2
            subst h1 h2
            exact hs
          · intro i a' b s' t _ _ _ h4
            simp at h4
          · simp
          · intro i a' b s' h1 _ h3 h4
            simp at h4
            subst h4
            simp at h3
            subst h3
            right
            intro n h
            rw [hn] at h
            cases h
        | some n =>
          simp only [hn, List.map_cons] at hc ⊢
          have R := ih (fun k => n.here k Option.none) (LinkOf n)
            (fun b hb s' => link_here n b (hc 0 s n b rfl hn (by simpa using hb)) s')
            (fun i s' m b h1 h2 h3 => hc (i + 1) s' m b (by simpa using h1) h2 (by simpa using h3))
          generalize ((genFrom nsOf (fun k => n.here k Option.none) rest).map (·.1)) = out at R hc
          constructor
          · simpa using R.len
          · intro a' s' h1 h2
            simp at h1 h2
            subst h1 h2
            exact hs
          · intro i a' b s' t h1 h2 h3 h4
            cases i with
            | zero =>
              simp at h1 h3
              subst h1 h3
              exact ⟨hcall, n, hn, R.head b t (by simpa using h2) (by simpa using h4)⟩
            | succ i => exact R.link i a' b s' t (by simpa using h1) (by simpa using h2) (by simpa using h3) (by simpa using h4)
          · simp
          · intro i a' b s' h1 h2 h3 h4
            cases i with
            | zero =>
              right
              simp at h1 h3 h4
              subst h3
              intro n' hn' t
              rw [hn] at hn'
              cases hn'
              exact R.none b (by simpa using h2) h4 t
            | succ i => exact R.stop i a' b s' (by simpa using h1) (by simpa using h2) (by simpa using h3) (by simpa using h4)

/-- With each symbol come its link and the link that follows. -/
theorem genFrom_atoms (nsOf : σ → Option (Ns σ)) : ∀ (chain : List Atom) (find : Key → Option σ) (i : Nat) (p : σ × Atom × Option Atom),
    (genFrom nsOf find chain)[i]? = some p → chain[i]? = some p.2.1 ∧ p.2.2 = chain[i + 1]? := by
  intro chain
  induction chain with
  | nil =>
    intro find i p h
    simp [genFrom] at h
  | cons a rest ih =>
    intro find i p h
    unfold genFrom at h
    cases hx : find a.value with
    | none => simp [hx] at h
    | some s =>
      simp only [hx] at h
      cases i with
      | zero =>
        simp at h
        subst h
        cases rest <;> simp
      | succ i =>
        cases hcall : a.callpoint with
        | true => simp [hcall] at h
        | false =>
          cases hn : nsOf s with
          | none => simp [hcall, hn] at h
          | some n =>
            simp only [hcall, hn, Bool.false_eq_true, if_false, List.getElem?_cons_succ] at h ⊢
            exact ih _ i p h

/-- **C53**, for names looked up outside of class bodies: the symbols found are those of the first links of the chain, each recorded in
the one before, for as long as something is recorded and nothing was called. Missing: objects with an attribute and an element of one
name, see `chain_violated`, and class bodies, see `lookup_violated`. -/
theorem chain_resolved_partial (nsOf : σ → Option (Ns σ)) (tab : Nat → Option σ) (fs : List (Frame σ)) (chain : List Atom)
    (hname : ∀ a, chain[0]? = some a → ∃ x, a.value = .str x)
    (hc : AllClear nsOf chain ((gen nsOf (.plain tab :: fs) chain).map (·.1))) :
    Resolved nsOf (fun a s => ∃ x, a.value = .str x ∧ Visible (.plain tab :: fs) x s) chain
      ((gen nsOf (.plain tab :: fs) chain).map (·.1)) := by
  refine genFrom_resolved nsOf chain _ _ ?_ hc
  intro a ha s
  obtain ⟨x, hx⟩ := hname a ha
  rw [hx, lookup_visible_partial]
  constructor
  · exact fun h => ⟨x, rfl, h⟩
  · rintro ⟨y, hy, h⟩
    cases hy
    exact h

/-- **C53**, the other half: a chain counts as resolved only if every one of its links is, and then to the symbol of the last one. -/
theorem fully_iff (nsOf : σ → Option (Ns σ)) (scope : List (Frame σ)) (chain : List Atom) (s : σ) :
    fully nsOf scope chain = some s ↔
      chain ≠ [] ∧ (gen nsOf scope chain).length = chain.length ∧ ((gen nsOf scope chain).map (·.1)).getLast? = some s := by
  unfold fully gen
  have hat := genFrom_atoms nsOf chain (lookup scope)
  have hle : (genFrom nsOf (lookup scope) chain).length ≤ chain.length := by
    by_contra h
    have hp : (genFrom nsOf (lookup scope) chain)[chain.length]? = some ((genFrom nsOf (lookup scope) chain)[chain.length]'(by omega)) :=
      List.getElem?_eq_getElem _
    have := (hat _ _ hp).1
    simp at this
  generalize genFrom nsOf (lookup scope) chain = out at hat hle
  cases hl : out.getLast? with
  | none =>
    rw [List.getLast?_eq_none_iff] at hl
    subst hl
    simp
  | some p =>
    obtain ⟨t, a, nx⟩ := p
    have hne : out ≠ [] := by
      rintro rfl
      simp at hl
    have hpos := List.length_pos_iff.mpr hne
    rw [List.getLast?_eq_getElem?] at hl
    have := hat _ _ hl
    simp only at this
    have hmap : (out.map (·.1)).getLast? = some t := by
      rw [List.getLast?_eq_getElem?]
      simp [hl]
    rw [hmap]
    have h1 : out.length - 1 + 1 = out.length := by omega
    rw [h1] at this
    cases nx with
    | none =>
      have h2 : chain.length ≤ out.length := by
        have := this.2.symm
        simpa using this
      have h3 : chain ≠ [] := by
        rintro rfl
        simp at hle
        exact hne hle
      simp only [Option.isNone_none, if_true, Option.some.injEq]
      constructor
      · exact fun h => ⟨h3, by omega, h⟩
      · exact fun h => h.2.2
    | some b =>
      have h2 : out.length < chain.length := by
        by_contra hx
        have h4 := this.2
        rw [List.getElem?_eq_none (by omega)] at h4
        cases h4
      simp
      omega

/-- An object with an attribute `x`, symbol 1, and an element `'x'`, symbol 2. -/
def both : Ns Nat := .mk (one 0 1) (fun k => if k = .str 0 then some 2 else none) none (fun _ => false) none

/-- The same without the element. -/
def attrOnly : Ns Nat := .mk (one 0 1) (fun _ => none) none (fun _ => false) none

/-- **C53 fails**: for an object `d` with an attribute `x`, `d['x']` resolves to the symbol of `d.x`, whether there is a symbol for the
element or not. -/
theorem chain_violated : ∃ d : Ns Nat, ∃ (scope : List (Frame Nat)) (chain : List Atom),
    chain = [{ value := .str 5 }, { value := .str 0, subscript := true }] ∧
    fully (fun s => if s = 9 then some d else none) scope chain = some 1 ∧ ItemOf d (.str 0) 2 ∧ AttrOf d 0 1 ∧ ¬ ItemOf d (.str 0) 1 := by
  refine ⟨both, [.plain (one 5 9)], _, rfl, ?_, .own rfl, .own rfl, ?_⟩
  · simp [fully, gen, genFrom, lookup, attrAt, one, both, Ns.here]
  · intro h
    cases h with
    | own h => simp at h

theorem chain_violated_missing : ∃ d : Ns Nat, ∃ (scope : List (Frame Nat)) (chain : List Atom),
    chain = [{ value := .str 5 }, { value := .str 0, subscript := true }] ∧
    fully (fun s => if s = 9 then some d else none) scope chain = some 1 ∧ ∀ s, ¬ ItemOf d (.str 0) s := by
  refine ⟨attrOnly, [.plain (one 5 9)], _, rfl, ?_, ?_⟩
  · simp [fully, gen, genFrom, lookup, attrAt, one, attrOnly, Ns.here]
  · intro s h
    cases h with
    | own h => simp at h

/-- `a.x[-1].y` where `a.x` is a list of three elements the last of which has an attribute of its class: all four links are found. -/
def lst : Ns Nat := .mk (fun _ => none) (fun k => if k = .int 2 then some 3 else none) (some 3) (fun _ => false) none
def inst : Ns Nat := .mk (fun _ => none) (fun _ => none) none (fun _ => false) (some (.mk (one 1 4) (fun _ => none) none (fun _ => false) none))

example : let nsOf : Nat → Option (Ns Nat) := fun s => if s = 9 then some attrOnly else if s = 1 then some lst else if s = 3 then some inst else none
    let chain : List Atom := [{ value := .str 5 }, { value := .str 0 }, { value := .int (-1), subscript := true }, { value := .str 1 }]
    fully nsOf [.plain (one 5 9)] chain = some 4 ∧
    AllClear nsOf chain ((gen nsOf [.plain (one 5 9)] chain).map (·.1)) := by
  have hg : gen (fun s => if s = 9 then some attrOnly else if s = 1 then some lst else if s = 3 then some inst else none) [.plain (one 5 9)]
      [{ value := .str 5 }, { value := .str 0 }, { value := .int (-1), subscript := true }, { value := .str 1 }] =
      [(9, { value := .str 5 }, some { value := .str 0 }), (1, { value := .str 0 }, some { value := .int (-1), subscript := true }),
        (3, { value := .int (-1), subscript := true }, some { value := .str 1 }), (4, { value := .str 1 }, none)] := by
    simp [gen, genFrom, lookup, attrAt, one, attrOnly, lst, inst, Ns.here, lookupSubscript]
  refine ⟨by simp [fully, hg], ?_⟩
  intro i s n b h1 h2 h3
  rw [hg] at h1
  match i, h1, h3 with
  | 0, h1, h3 =>
    simp at h1 h3
    subst h1 h3
    simp at h2
    subst h2
    refine ⟨0, rfl, fun h => ?_⟩
    cases h with
    | own h => cases h
  | 1, h1, h3 =>
    simp at h1 h3
    subst h1 h3
    simp at h2
    subst h2
    simp [Clear]
  | 2, h1, h3 =>
    simp at h1 h3
    subst h1 h3
    simp at h2
    subst h2
    refine ⟨1, rfl, fun h => ?_⟩
    cases h with
    | own h => cases h
    | cls h =>
      cases h with
      | own h => cases h
  | i + 3, h1, h3 => simp at h3

/-! ## Qualified names -/

/-- `At nsOf s parts t`: following the attributes `parts` from `s` leads to `t`. -/
inductive At (nsOf : σ → Option (Ns σ)) : σ → List Nat → σ → Prop
  | here {s} : At nsOf s [] s
  | attr {s n a t rest u} : nsOf s = some n → AttrOf n a t → At nsOf t rest u → At nsOf s (a :: rest) u

/-- **C81**: a dotted name is found exactly if its first part is bound in the scope and each further part is an attribute of the one
before; elements never take the place of attributes, nor outer scopes that of the scope. -/
theorem qualified_iff (nsOf : σ → Option (Ns σ)) (tab : Nat → Option σ) (x : Nat) (rest : List Nat) (u : σ) :
    qualified nsOf tab (x :: rest) = some u ↔ ∃ s, tab x = some s ∧ At nsOf s rest u := by
  have key : ∀ (rest : List Nat) (s : σ), qualifiedFrom nsOf s rest = some u ↔ At nsOf s rest u := by
    intro rest
    induction rest with
    | nil =>
      intro s
      simp only [qualifiedFrom]
      constructor
      · rintro ⟨⟩
        exact .here
      · rintro ⟨⟩
        rfl
    | cons a rest ih =>
      intro s
      unfold qualifiedFrom
      cases hn : nsOf s with
      | none =>
        constructor
        · intro h
          simp at h
        · intro h
          cases h with
          | attr h _ _ => rw [hn] at h; cases h
      | some n =>
        simp only
        cases hh : n.here (.str a) (some false) with
        | none =>
          constructor
          · intro h
            simp at h
          · intro h
            cases h with
            | attr h1 h2 h3 =>
              rw [hn] at h1
              cases h1
              rw [(attr_here_false _ _ _).mpr h2] at hh
              cases hh
        | some t =>
          simp only [ih]
          constructor
          · exact fun h => .attr hn ((attr_here_false _ _ _).mp hh) h
          · intro h
            cases h with
            | attr h1 h2 h3 =>
              rw [hn] at h1
              cases h1
              rw [(attr_here_false _ _ _).mpr h2] at hh
              cases hh
              exact h3
  unfold qualified
  cases h : tab x with
  | none => simp [h]
  | some s => simp [h, key]

/-- `d.x` with an element `'x'` as well: the attribute. -/
example : qualified (fun s => if s = 9 then some both else none) (one 5 9) [5, 0] = some 1 :=
  (qualified_iff _ _ _ _ _).mpr ⟨9, rfl, .attr rfl (.own rfl) .here⟩

end Verif.Lookup
