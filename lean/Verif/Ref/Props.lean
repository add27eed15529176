import Verif.Ref.Model

/-!
# What references name (C83), assigned symbols (C85), equality (C86) -/

namespace Verif.Ref

/-! ## Chains -/

/-- A step of the way to the object that an expression denotes. -/
inductive Step where
  | attr (a : Nat)
  | key (v : Val)
  /-- an element that is not known before the code is run -/
  | unknown
  | call
deriving DecidableEq

/-- `-c`, if that is a number. -/
def minus : Const → Option Const
  | .int z => some (.int (-z))
  | .num q b => some (.num q (!b))
  | _ => none

/-- The element that an index denotes, `look` giving the values of variables. -/
def element (look : Nat → Option Const) : Index → Step
  | .const c => .key (.one c)
  | .neg c => match minus c with
    | some c' => .key (.one c')
    | none => .unknown
  | .name x => match look x with
    | some c => .key (.one c)
    | none => .unknown
  | .negName x => match (look x).bind minus with
    | some c' => .key (.one c')
    | none => .unknown
  | .tuple cs => .key (.tup cs)
  | .other => .unknown

/-- The way to the object that an expression denotes, from a variable. -/
def path (look : Nat → Option Const) : Exp → Option (Nat × List Step)
  | .name x => some (x, [])
  | .attr e a => (path look e).map fun p => (p.1, p.2 ++ [.attr a])
  | .sub e i => (path look e).map fun p => (p.1, p.2 ++ [element look i])
  | .call f => (path look f).map fun p => (p.1, p.2 ++ [.call])
  | .lit => none
  | .other => none

/-- The links for the steps, up to the first that is not known. What the result of a call returns when called is not known. -/
def links : List Step → List Atom
  | .attr a :: .call :: r => { value := .one (.str a), callpoint := true } :: links r
  | .attr a :: r => { value := .one (.str a) } :: links r
  | .key v :: .call :: r => { value := v, callpoint := true, subscript := true } :: links r
  | .key v :: r => { value := v, subscript := true } :: links r
  | _ => []

/-- The chain for a way. -/
def atoms : Nat × List Step → List Atom
  | (x, .call :: r) => { value := .one (.str x), callpoint := true } :: links r
  | (x, r) => { value := .one (.str x) } :: links r

/-- What the chain of an expression should be: nothing if it does not start with a variable. -/
def named (look : Nat → Option Const) (e : Exp) : List Atom :=
  match path look e with
  | some p => atoms p
  | none => []

/-- The variables the visitor may look up: none, for the static checker. -/
def looks (scope : Option (Nat → Option Const)) : Nat → Option Const := fun x => scope.bind fun l => l x

/-- Indices that are read right. -/
def FineIdx (scope : Option (Nat → Option Const)) : Index → Prop
  | .const _ => True
  | .neg c => ∃ z, c = .int z
  | .name x => (looks scope x).isSome
  | .tuple _ => True
  | _ => False

/-- Texts. -/
def IsText : Const → Prop
  | .str _ => True
  | .digits _ => True
  | _ => False

/-- Expressions that are read right: they start with a variable or a display, their subscripts are known, and what is called is a
variable, an attribute or an element with a text as its key. -/
def Fine (scope : Option (Nat → Option Const)) : Exp → Prop
  | .name _ => True
  | .attr e _ => Fine scope e
  | .sub e i => Fine scope e ∧ FineIdx scope i
  | .call (.name _) => True
  | .call (.attr e _) => Fine scope e
  | .call (.sub e (.const c)) => Fine scope e ∧ IsText c
  | .call _ => False
  | .lit => True
  | .other => False

/-- Ways without unknown elements and without calls of what a call returned. `c`: a call may come first. -/
def Clean : Bool → List Step → Prop
  | _, [] => True
  | c, .call :: r => c = true ∧ Clean false r
  | _, .unknown :: _ => False
  | _, .attr _ :: r => Clean true r
  | _, .key _ :: r => Clean true r

theorem clean_false {l : List Step} (h : Clean false l) : Clean true l := by
  cases l with
  | nil => trivial
  | cons a l => cases a <;> simp_all [Clean]

/-- The next step is no call. -/
def NoCall : List Step → Prop
  | .call :: _ => False
  | _ => True

theorem links_append (t : List Step) (ht : NoCall t) : ∀ (n : Nat) (l : List Step), l.length ≤ n → Clean false l →
    links (l ++ t) = links l ++ links t := by
  intro n
  induction n with
  | zero =>
    intro l hl _
    have : l = [] := List.length_eq_zero_iff.mp (by omega)
    subst this
    simp [links]
  | succ n ih =>
    intro l hl hc
    cases l with
    | nil => simp [links]
    | cons a l =>
      cases a with
      | call => simp [Clean] at hc
      | unknown => simp [Clean] at hc
      | attr a =>
        cases l with
        | nil =>
          cases t with
          | nil => simp [links]
          | cons b t => cases b <;> simp_all [links, NoCall]
        | cons b l =>
          cases b with
          | call =>
            simp only [Clean] at hc
            simp only [List.cons_append, links]
            rw [ih l (by simp at hl; omega) hc.2]
          | unknown => simp [Clean] at hc
          | attr b =>
            have := ih (.attr b :: l) (by simp at hl ⊢; omega) (by simpa [Clean] using hc)
            simp only [List.cons_append] at this ⊢
            simp only [links]
            rw [this, List.cons_append]
          | key b =>
            have := ih (.key b :: l) (by simp at hl ⊢; omega) (by simpa [Clean] using hc)
            simp only [List.cons_append] at this ⊢
            simp only [links]
            rw [this, List.cons_append]
      | key v =>
        cases l with
        | nil =>
          cases t with
          | nil => simp [links]
          | cons b t => cases b <;> simp_all [links, NoCall]
        | cons b l =>
          cases b with
          | call =>
            simp only [Clean] at hc
            simp only [List.cons_append, links]
            rw [ih l (by simp at hl; omega) hc.2]
          | unknown => simp [Clean] at hc
          | attr b =>
            have := ih (.attr b :: l) (by simp at hl ⊢; omega) (by simpa [Clean] using hc)
            simp only [List.cons_append] at this ⊢
            simp only [links]
            rw [this, List.cons_append]
          | key b =>
            have := ih (.key b :: l) (by simp at hl ⊢; omega) (by simpa [Clean] using hc)
            simp only [List.cons_append] at this ⊢
            simp only [links]
            rw [this, List.cons_append]

theorem atoms_append (x : Nat) (l t : List Step) (ht : NoCall t) (hc : Clean true l) :
    atoms (x, l ++ t) = atoms (x, l) ++ links t := by
  cases l with
  | nil =>
    cases t with
    | nil => simp [atoms, links]
    | cons b t => cases b <;> simp_all [atoms, links, NoCall]
  | cons a l =>
    cases a with
    | call =>
      simp only [Clean] at hc
      simp [atoms, links_append t ht _ l (Nat.le_refl _) hc.2]
    | unknown => simp [Clean] at hc
    | attr a =>
      have := links_append t ht _ (.attr a :: l) (Nat.le_refl _) (by simpa [Clean] using hc)
      simp only [List.cons_append] at this
      simp [atoms, this]
    | key a =>
      have := links_append t ht _ (.key a :: l) (Nat.le_refl _) (by simpa [Clean] using hc)
      simp only [List.cons_append] at this
      simp [atoms, this]

theorem clean_append (l : List Step) : ∀ (c : Bool) (t : List Step), Clean c l → Clean false t → Clean c (l ++ t) := by
  induction l with
  | nil =>
    intro c t _ ht
    cases c
    · exact ht
    · exact clean_false ht
  | cons a l ih =>
    intro c t hl ht
    cases a with
    | call => exact ⟨hl.1, ih false t hl.2 ht⟩
    | unknown => exact hl.elim
    | attr a => exact ih true t hl ht
    | key a => exact ih true t hl ht

theorem fine_element (scope : Option (Nat → Option Const)) (i : Index) (h : FineIdx scope i) :
    ∃ v, element (looks scope) i = .key v ∧ subAtoms scope i = [{ value := v, subscript := true }] := by
  cases i with
  | const c => exact ⟨_, rfl, rfl⟩
  | neg c =>
    obtain ⟨z, rfl⟩ := h
    exact ⟨_, rfl, rfl⟩
  | name x =>
    cases scope with
    | none => simp [FineIdx, looks] at h
    | some l =>
      cases hl : l x with
      | none => simp [FineIdx, looks, hl] at h
      | some c => exact ⟨.one c, by simp [element, looks, hl], by simp [subAtoms, resolveSlice, hl]⟩
  | negName x => exact h.elim
  | tuple cs => exact ⟨_, rfl, rfl⟩
  | other => exact h.elim

/-- The visitor's chain is the one of the way, if there is one; otherwise it gives up. -/
theorem visit_fine (scope : Option (Nat → Option Const)) : ∀ (e : Exp), Fine scope e →
    (∃ p, path (looks scope) e = some p ∧ Clean true p.2 ∧ visit scope e = some (atoms p)) ∨
    (path (looks scope) e = none ∧ visit scope e = none)
  | .name x, _ => .inl ⟨(x, []), rfl, trivial, rfl⟩
  | .lit, _ => .inr ⟨rfl, rfl⟩
  | .other, h => h.elim
  | .attr e a, h => by
    rcases visit_fine scope e h with ⟨⟨x, l⟩, h1, h2, h3⟩ | ⟨h1, h2⟩
    · refine .inl ⟨(x, l ++ [.attr a]), by simp [path, h1], clean_append l true _ h2 (by simp [Clean]), ?_⟩
      rw [atoms_append x l [.attr a] trivial h2]
      simp [visit, h3, links]
    · exact .inr ⟨by simp [path, h1], by simp [visit, h2]⟩
  | .sub e i, h => by
    obtain ⟨v, hv, hs⟩ := fine_element scope i h.2
    rcases visit_fine scope e h.1 with ⟨⟨x, l⟩, h1, h2, h3⟩ | ⟨h1, h2⟩
    · refine .inl ⟨(x, l ++ [.key v]), by simp [path, h1, hv], clean_append l true _ h2 (by simp [Clean]), ?_⟩
      rw [atoms_append x l [.key v] trivial h2]
      simp [visit, h3, hs, links]
    · exact .inr ⟨by simp [path, h1], by simp [visit, h2]⟩
  | .call (.name x), _ => .inl ⟨(x, [.call]), rfl, ⟨rfl, trivial⟩, rfl⟩
  | .call (.attr e a), h => by
    rcases visit_fine scope e h with ⟨⟨x, l⟩, h1, h2, h3⟩ | ⟨h1, h2⟩
    · refine .inl ⟨(x, l ++ [.attr a, .call]), by simp [path, h1], clean_append l true _ h2 (by simp [Clean]), ?_⟩
      rw [atoms_append x l [.attr a, .call] trivial h2]
      simp [visit, h3, links]
    · exact .inr ⟨by simp [path, h1], by simp [visit, h2]⟩
  | .call (.sub e (.const c)), h => by
    have hc : str c = c := by
      have := h.2
      cases c <;> first | rfl | exact this.elim
    rcases visit_fine scope e h.1 with ⟨⟨x, l⟩, h1, h2, h3⟩ | ⟨h1, h2⟩
    · refine .inl ⟨(x, l ++ [.key (.one c), .call]), by simp [path, h1, element], clean_append l true _ h2 (by simp [Clean]), ?_⟩
      rw [atoms_append x l [.key (.one c), .call] trivial h2]
      simp [visit, h3, links, hc]
    · exact .inr ⟨by simp [path, h1], by simp [visit, h2]⟩
  | .call (.sub _ (.neg _)), h => h.elim
  | .call (.sub _ (.name _)), h => h.elim
  | .call (.sub _ (.negName _)), h => h.elim
  | .call (.sub _ (.tuple _)), h => h.elim
  | .call (.sub _ .other), h => h.elim
  | .call (.call _), h => h.elim
  | .call .lit, h => h.elim
  | .call .other, h => h.elim

/-- **C83**: the reference for an expression names the variable it starts with and the links that follow, in order and without gaps; there is
no reference if it starts with a display. Missing: unknown subscripts in between, numbers as keys of called elements, calls of
calls and of other expressions, negated variables; each is a counterexample below. -/
theorem chain_named_partial (scope : Option (Nat → Option Const)) (e : Exp) (h : Fine scope e) :
    chain scope e = named (looks scope) e := by
  unfold chain named
  rcases visit_fine scope e h with ⟨p, h1, _, h3⟩ | ⟨h1, h2⟩
  · simp [h1, h3]
  · simp [h1, h2]

/-- The same with an unknown subscript at the end: it is left out. -/
theorem chain_unknown_last (scope : Option (Nat → Option Const)) (e : Exp) (h : Fine scope e) :
    chain scope (.sub e .other) = named (looks scope) (.sub e .other) := by
  unfold chain named
  rcases visit_fine scope e h with ⟨⟨x, l⟩, h1, h2, h3⟩ | ⟨h1, h2⟩
  · simp [path, h1, visit, h3, element, subAtoms, resolveSlice, atoms_append x l [.unknown] trivial h2, links]
  · simp [path, h1, visit, h2]

/-- `a.f(..)['k'][i].b` where `i` is 3. -/
example : Fine (some fun _ => some (.int 3)) (.attr (.sub (.sub (.call (.attr (.name 0) 1)) (.const (.str 2))) (.name 7)) 4) ∧
    chain (some fun _ => some (.int 3)) (.attr (.sub (.sub (.call (.attr (.name 0) 1)) (.const (.str 2))) (.name 7)) 4) =
      [{ value := .one (.str 0) }, { value := .one (.str 1), callpoint := true }, { value := .one (.str 2), subscript := true },
        { value := .one (.int 3), subscript := true }, { value := .one (.str 4) }] := by
  refine ⟨⟨⟨trivial, trivial⟩, rfl⟩, by decide⟩

/-- **C83 fails** for an unknown subscript in between: `m[i][0]` is read as `m[0]` by the static checker. -/
theorem chain_skips : ∃ e e' : Exp, e = .sub (.sub (.name 0) (.name 1)) (.const (.int 0)) ∧ e' = .sub (.name 0) (.const (.int 0)) ∧
    chain none e = chain none e' ∧ named (looks none) e ≠ named (looks none) e' :=
  ⟨_, _, rfl, rfl, by decide, by decide⟩

/-- **C83 fails** for expressions that do not start with a variable: `f()().x`, `(a if b else c).x` and `''().x` are read as the variable
`x`. -/
theorem chain_loses_start : ∀ e ∈ [Exp.attr (.call (.call (.name 0))) 1, Exp.attr .other 1, Exp.attr (.call .lit) 1],
    chain none e = chain none (.name 1) ∧ named (looks none) e ≠ chain none (.name 1) := by decide

/-- **C83 fails** for negated variables: with `i = 1`, `a[-i]` is read as `a[1]`. -/
theorem chain_loses_sign : chain (some fun _ => some (.int 1)) (.sub (.name 0) (.negName 1)) =
      chain none (.sub (.name 0) (.const (.int 1))) ∧
    named (fun _ => some (.int 1)) (.sub (.name 0) (.negName 1)) = chain none (.sub (.name 0) (.neg (.int 1))) := by decide

/-- **C83 fails** for called elements: `a[0]()` is read with the text `'0'` as the key, and `a[-1]()` as `a` alone. -/
theorem chain_called_element : chain none (.call (.sub (.name 0) (.const (.int 0)))) =
      [{ value := .one (.str 0) }, { value := .one (.digits 0), callpoint := true, subscript := true }] ∧
    chain none (.call (.sub (.name 0) (.neg (.int 1)))) = chain none (.name 0) ∧
    named (fun _ => none) (.call (.sub (.name 0) (.const (.int 0)))) ≠ chain none (.call (.sub (.name 0) (.const (.int 0)))) := by decide

variable {σ : Type}

/-! ## Assigned symbols -/

/-- The reference has no reactive mark. -/
def Unreactive (l : List (σ × Marks × Bool)) : Prop := ∀ p ∈ l, p.2.1.reactive = false

theorem resolve_final : ∀ (l : List (σ × Marks × Bool)) (v : Seen) (last : Option (σ × Marks × Bool)), Unreactive l →
    v.all = false → v.reactiveSeen = false → ∀ s, s ∈ (resolveFrom true v last l).map (·.1) ↔
      ∃ m, l.getLast? = some (s, m, false) ∨ (l = [] ∧ last = some (s, m, false)) := by
  intro l
  induction l with
  | nil =>
    intro v last _ ha _ s
    unfold resolveFrom
    rw [if_neg (by simp [ha])]
    rcases last with _ | ⟨s', m, _ | _⟩ <;> simp [eq_comm]
  | cons p l ih =>
    obtain ⟨s0, m, more⟩ := p
    intro v last h ha hr s
    have hm : m.reactive = false := h (s0, m, more) (by simp)
    have hall : (turn v m).1.all = false := by simp [turn, ha, hr, hm]
    have hih := ih (turn v m).1 (some (s0, (turn v m).2, more)) (fun p hp => h p (by simp [hp]))
      hall (by simp [turn, hr, hm]) s
    unfold resolveFrom
    simp only [hall, Bool.false_eq_true, if_false]
    rw [hih]
    cases l with
    | nil => simp
    | cons q l => simp [List.getLast?_cons_cons]

/-- **C85**, for targets without reactive marks: the only symbol said to be assigned is that of the target itself, and it is if every
link was found. Missing: reactive marks, see `assigned_violated`. -/
theorem assigned_partial (l : List (σ × Marks × Bool)) (h : Unreactive l) (s : σ) :
    s ∈ (resolve true false l).map (·.1) ↔ ∃ m, l.getLast? = some (s, m, false) := by
  unfold resolve
  rw [resolve_final l { all := false } none h rfl rfl s]
  simp

example : (resolve true false [(0, ({} : Marks), true), (1, { cascading := true }, false)]).map (·.1) = [1] := by decide

/-- **C85 fails** for marked targets: `$x.y = 1` is said to assign `x` too. -/
theorem assigned_violated : ∃ l : List (Nat × Marks × Bool), l.getLast? = some (1, {}, false) ∧ (resolve true false l).map (·.1) = [0, 1] :=
  ⟨[(0, { reactive := true }, true), (1, {}, false)], rfl, by decide⟩

/-! ## Equality -/

/-- **C86**: equal references have equal chains, which is what is hashed; equality is reflexive and symmetric, and transitive over references
that have a position and a scope. Missing: transitivity over others, see `eq_violated`. -/
theorem eq_partial (r s t : SymRef) : (r.eq s = true → r.chain = s.chain) ∧ r.eq r = true ∧ r.eq s = s.eq r ∧
    (s.range.isSome → s.scope.isSome → r.eq s = true → s.eq t = true → r.eq t = true) := by
  obtain ⟨rc, rs, rr⟩ := r
  obtain ⟨sc, ss, sr⟩ := s
  obtain ⟨tc, ts, tr⟩ := t
  refine ⟨?_, ?_, ?_, ?_⟩
  · unfold SymRef.eq
    simp only
    split
    · simp
    · split
      · simp
      · simp
  · simp [SymRef.eq]
  · have h1 : (rr != sr) = (sr != rr) := by rw [bne_comm]
    have h2 : (rs != ss) = (ss != rs) := by rw [bne_comm]
    have h3 : (rc == sc) = (sc == rc) := by rw [Bool.beq_comm]
    simp only [SymRef.eq, h1, h2, h3, Bool.and_comm (rr.isSome), Bool.and_comm (rs.isSome)]
  · intro h1 h2
    cases sr with
    | none => simp at h1
    | some sr =>
      cases ss with
      | none => simp at h2
      | some ss =>
        cases rr <;> cases rs <;> cases tr <;> cases ts <;> simp [SymRef.eq] <;> intros <;> simp_all

example : let r : SymRef := { chain := [], range := some 1 }
    let s : SymRef := { chain := [], range := some 1, scope := some 2 }
    let t : SymRef := { chain := [], scope := some 2 }
    r.eq s = true ∧ s.eq t = true ∧ r.eq t = true := by decide

/-- **C86 fails**: two references at different positions are both equal to one without a position. -/
theorem eq_violated : ∃ r s t : SymRef, r.eq s = true ∧ s.eq t = true ∧ r.eq t = false :=
  ⟨{ chain := [], range := some 1 }, { chain := [] }, { chain := [], range := some 2 }, by decide⟩

end Verif.Ref
