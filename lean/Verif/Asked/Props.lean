import Verif.Asked.Spec

/-!
# What commands answer about: theorems -/

namespace Verif.Asked
open Verif

/-! ## Chains -/

/-- What one more atom adds to a chain that has been found as a whole, and to one that has not. -/
theorem gen_snoc {w : World} {a : Atom} : ∀ {xs : List Atom} (find : Key → Option Nat), (∀ x ∈ xs, x.callpoint = false) → xs ≠ [] →
    (((gen w find xs).length = xs.length ∧ ∃ s, (gen w find xs).getLast? = some s ∧
        gen w find (xs ++ [a]) = gen w find xs ++ (((w.nsOf s).bind fun ns => ns.here a.key).toList)) ∨
      ((gen w find xs).length < xs.length ∧ gen w find (xs ++ [a]) = gen w find xs))
  | [], _, _, h => absurd rfl h
  | [x], find, hc, _ => by
    have hx := hc x (List.mem_singleton.mpr rfl)
    cases hf : find x.key with
    | none =>
      right
      simp [gen, hf]
    | some s =>
      left
      refine ⟨?_, s, ?_, ?_⟩
      · simp only [gen, hf, hx]
        cases w.nsOf s <;> rfl
      · simp only [gen, hf, hx]
        cases w.nsOf s <;> rfl
      · simp only [List.cons_append, List.nil_append, gen, hf, hx]
        cases hn : w.nsOf s with
        | none => rfl
        | some ns =>
          simp only [Option.bind_some]
          cases ha : ns.here a.key with
          | none => rfl
          | some t =>
            cases a.callpoint
            · simp only [Bool.false_eq_true, if_false]
              cases w.nsOf t <;> rfl
            · rfl
  | x :: y :: ys, find, hc, _ => by
    have hx := hc x (List.mem_cons_self ..)
    have hc' : ∀ z ∈ y :: ys, z.callpoint = false := fun z hz => hc z (List.mem_cons_of_mem _ hz)
    cases hf : find x.key with
    | none =>
      right
      simp [gen, hf]
    | some s =>
      cases hn : w.nsOf s with
      | none =>
        right
        have e : ∀ r, gen w find (x :: r) = [s] := by intro r; simp [gen, hf, hx, hn]
        rw [List.cons_append, e, e]
        exact ⟨by simp, rfl⟩
      | some ns =>
        have e : ∀ r, gen w find (x :: r) = s :: gen w ns.here r := by intro r; simp [gen, hf, hx, hn]
        rw [List.cons_append, e, e]
        rcases gen_snoc (w := w) (a := a) (xs := y :: ys) ns.here hc' (by simp) with ⟨h1, t, h2, h3⟩ | ⟨h1, h2⟩
        · left
          refine ⟨by simp [h1], t, ?_, by rw [h3]; rfl⟩
          cases hg : gen w ns.here (y :: ys) with
          | nil => rw [hg] at h2; cases h2
          | cons g gs => rw [List.getLast?_cons_cons, ← hg, h2]
        · right
          exact ⟨by simp only [List.length_cons] at h1 ⊢; omega, by rw [h2]⟩

/-- The chain of a path. -/
theorem visit_path {e : Expr} (h : Path e) : ∃ xs, visit e = some xs ∧ xs ≠ [] ∧ ∀ x ∈ xs, x.callpoint = false := by
  induction h with
  | name n => exact ⟨_, rfl, by simp, by simp⟩
  | attr n _ ih =>
    obtain ⟨xs, h1, -, h3⟩ := ih
    refine ⟨xs ++ [⟨.name n, false⟩], by simp [visit, h1], by simp, ?_⟩
    intro x hx
    rcases List.mem_append.mp hx with h | h
    · exact h3 x h
    · rw [List.mem_singleton.mp h]
  | sub k _ ih =>
    obtain ⟨xs, h1, -, h3⟩ := ih
    refine ⟨xs ++ [⟨k, false⟩], by simp [visit, h1], by simp, ?_⟩
    intro x hx
    rcases List.mem_append.mp hx with h | h
    · exact h3 x h
    · rw [List.mem_singleton.mp h]

theorem answer_path {w : World} {e : Expr} {xs : List Atom} (h : Path e) (hv : visit e = some xs) : answer w (.expr e) = .ok (gen w w.top xs).getLast? := by
  cases h <;> simp [answer, resolve, hv]

/-- If the symbol of a path is known, the whole chain is found and ends with it. -/
theorem gen_known {w : World} (hA : Apart w) {e : Expr} (h : Path e) : ∀ {xs : List Atom} {s : Nat}, visit e = some xs → means w e = some s →
    (gen w w.top xs).length = xs.length ∧ (gen w w.top xs).getLast? = some s := by
  induction h with
  | name n =>
    intro xs s hv hm
    injection hv with hv
    subst hv
    have hm : w.root n = some s := hm
    simp only [gen, World.top, hm]
    cases w.nsOf s <;> exact ⟨rfl, rfl⟩
  | attr n hp ih =>
    intro xs s hv hm
    obtain ⟨ys, h1, h2, h3⟩ := visit_path hp
    rw [visit, h1] at hv
    injection hv with hv
    subst hv
    rw [means] at hm
    obtain ⟨t, ht, hm⟩ := Option.bind_eq_some_iff.mp hm
    obtain ⟨ns, hn, hm⟩ := Option.bind_eq_some_iff.mp hm
    obtain ⟨g1, g2⟩ := ih h1 ht
    rcases gen_snoc (w := w) (a := ⟨.name n, false⟩) w.top h3 h2 with ⟨-, u, k2, k3⟩ | ⟨k1, -⟩
    · rw [g2] at k2
      have := Option.some.inj k2
      subst this
      have hh : ns.here (.name n) = some s := by unfold Ns.here; dsimp only; rw [hm]
      rw [k3, hn, Option.bind_some, hh]
      exact ⟨by simp [g1], by simp⟩
    · omega
  | sub k hp ih =>
    intro xs s hv hm
    obtain ⟨ys, h1, h2, h3⟩ := visit_path hp
    rw [visit, h1] at hv
    injection hv with hv
    subst hv
    rw [means] at hm
    obtain ⟨t, ht, hm⟩ := Option.bind_eq_some_iff.mp hm
    obtain ⟨ns, hn, hm⟩ := Option.bind_eq_some_iff.mp hm
    obtain ⟨g1, g2⟩ := ih h1 ht
    rcases gen_snoc (w := w) (a := ⟨k, false⟩) w.top h3 h2 with ⟨-, u, k2, k3⟩ | ⟨k1, -⟩
    · rw [g2] at k2
      have := Option.some.inj k2
      subst this
      have hh : ns.here k = some s := by
        unfold Ns.here
        cases k with
        | name n =>
          rcases hA t ns n hn with h | h
          · dsimp only; rw [h]; exact hm
          · rw [hm] at h; cases h
        | index i => exact hm
        | digits i => exact hm
      rw [k3, hn, Option.bind_some, hh]
      exact ⟨by simp [g1], by simp⟩
    · omega

/-- **C198, in part.** If the variable, attribute or element that is asked for is known, the answer is about it, as long as no object has an attribute and an element of the same
name. -/
theorem known_partial {w : World} (hA : Apart w) {e : Expr} (h : Path e) {s : Nat} (hm : means w e = some s) : answer w (.expr e) = .ok (some s) := by
  obtain ⟨xs, h1, -, -⟩ := visit_path h
  rw [answer_path h h1, (gen_known hA h h1 hm).2]

/-- One more atom, if it is looked up as it should be. -/
theorem nearest_step {w : World} {a : Atom} {ys : List Atom} {T : Ns → Option Nat} {m n : Option Nat} (h2 : ys ≠ []) (h3 : ∀ x ∈ ys, x.callpoint = false)
    (hT : ∀ u ns, w.nsOf u = some ns → ns.here a.key = T ns) (i1 : (gen w w.top ys).getLast? = n)
    (i2 : (gen w w.top ys).length = ys.length → m = (gen w w.top ys).getLast?) (i3 : (gen w w.top ys).length < ys.length → m = none) :
    (gen w w.top (ys ++ [a])).getLast? = (m.bind fun s => (w.nsOf s).bind T).or n ∧
    ((gen w w.top (ys ++ [a])).length = (ys ++ [a]).length → (m.bind fun s => (w.nsOf s).bind T) = (gen w w.top (ys ++ [a])).getLast?) ∧
    ((gen w w.top (ys ++ [a])).length < (ys ++ [a]).length → (m.bind fun s => (w.nsOf s).bind T) = none) := by
  rcases gen_snoc (w := w) (a := a) w.top h3 h2 with ⟨k1, u, k2, k3⟩ | ⟨k1, k2⟩
  · have hm := i2 k1
    rw [k2] at hm
    have hh : ((w.nsOf u).bind fun ns => ns.here a.key) = (w.nsOf u).bind T := by
      cases hn : w.nsOf u with
      | none => rfl
      | some ns => exact hT u ns hn
    rw [k3, hh, hm, Option.bind_some]
    cases hx : (w.nsOf u).bind T with
    | none =>
      refine ⟨?_, ?_, ?_⟩
      · simp [← i1]
      · intro h; simp [k1] at h
      · intro _; rfl
    | some v =>
      refine ⟨by simp, ?_, ?_⟩
      · intro _; simp
      · intro h; simp [k1] at h
  · rw [k2, i3 k1]
    refine ⟨by simp [i1], ?_, fun _ => rfl⟩
    intro h
    simp at h
    omega

theorem gen_nearest {w : World} (hN : Numbered w) {e : Expr} (h : Path e) : NoStrings e → ∀ {xs : List Atom}, visit e = some xs →
    (gen w w.top xs).getLast? = nearest w e ∧ ((gen w w.top xs).length = xs.length → means w e = (gen w w.top xs).getLast?) ∧ ((gen w w.top xs).length < xs.length → means w e = none) := by
  induction h with
  | name n =>
    intro _ xs hv
    injection hv with hv
    subst hv
    cases hr : w.root n with
    | none => simp [gen, World.top, hr, nearest, means]
    | some s =>
      have : gen w w.top [⟨.name n, false⟩] = [s] := by
        simp only [gen, World.top, hr]
        cases w.nsOf s <;> rfl
      rw [this]
      simp [nearest, means, hr]
  | attr n hp ih =>
    intro hs xs hv
    obtain ⟨ys, h1, h2, h3⟩ := visit_path hp
    rw [visit, h1] at hv
    injection hv with hv
    subst hv
    obtain ⟨i1, i2, i3⟩ := ih hs h1
    refine nearest_step h2 h3 ?_ i1 i2 i3
    intro u ns hn
    unfold Ns.here
    dsimp only
    cases ha : ns.attrs n with
    | none => exact hN u ns n hn
    | some v => rfl
  | sub k hp ih =>
    intro hs xs hv
    obtain ⟨ys, h1, h2, h3⟩ := visit_path hp
    rw [visit, h1] at hv
    injection hv with hv
    subst hv
    cases k with
    | name n => exact hs.elim
    | index i =>
      obtain ⟨i1, i2, i3⟩ := ih hs h1
      exact nearest_step h2 h3 (fun _ _ _ => rfl) i1 i2 i3
    | digits i =>
      obtain ⟨i1, i2, i3⟩ := ih hs h1
      exact nearest_step h2 h3 (fun _ _ _ => rfl) i1 i2 i3

/-- **C198 is violated** for what is not known: the answer is about the longest part of the expression of which anything is known, such as the object instead of its attribute. (For
objects whose elements have no names.) -/
theorem answers_nearest {w : World} (hN : Numbered w) {e : Expr} (h : Path e) (hs : NoStrings e) : answer w (.expr e) = .ok (nearest w e) := by
  obtain ⟨xs, h1, -, -⟩ := visit_path h
  rw [answer_path h h1, (gen_nearest hN h hs h1).1]

/-- **C198 is violated** by names and calculations between brackets: they are passed over, and what follows is looked up in the object itself. -/
theorem index_dropped {w : World} {e : Expr} (h : Path e) {b : Sub} (hb : ∀ k, b ≠ .const k) (n : Name) :
    answer w (.expr (.sub e b)) = answer w (.expr e) ∧ answer w (.expr (.attr (.sub e b) n)) = answer w (.expr (.attr e n)) := by
  obtain ⟨xs, h1, -, -⟩ := visit_path h
  have hv : visit (.sub e b) = visit e := by
    cases b with
    | const k => exact absurd rfl (hb k)
    | var n => rfl
    | other => rfl
  refine ⟨?_, ?_⟩
  · rw [answer_path h h1]
    simp [answer, resolve, hv, h1]
  · rw [answer_path (.attr n h) (xs := xs ++ [⟨.name n, false⟩]) (by simp [visit, h1])]
    simp [answer, resolve, visit, hv, h1]

/-- **C198 is violated** by attributes and elements of the same name: asked for the attribute that is not known, the answer is about the element, and asked for the element, the
answer is about the attribute. -/
theorem mixed_up {w : World} {v n : Name} {s t : Nat} {ns : Ns} (hr : w.root v = some s) (hn : w.nsOf s = some ns) :
    (ns.attrs n = none → ns.subs (.name n) = some t → means w (.attr (.name v) n) = none ∧ answer w (.expr (.attr (.name v) n)) = .ok (some t)) ∧
    (ns.attrs n = some t → answer w (.expr (.sub (.name v) (.const (.name n)))) = .ok (some t)) := by
  have key : ns.here (.name n) = some t → gen w w.top [⟨.name v, false⟩, ⟨.name n, false⟩] = [s, t] := by
    intro hh
    simp only [gen, World.top, hr, hn, hh]
    cases w.nsOf t <;> rfl
  refine ⟨?_, ?_⟩
  · intro h1 h2
    refine ⟨by simp [means, hr, hn, h1], ?_⟩
    rw [answer_path (.attr n (.name v)) rfl]
    show Except.ok (gen w w.top [⟨.name v, false⟩, ⟨.name n, false⟩]).getLast? = _
    rw [key (by unfold Ns.here; dsimp only; rw [h1]; exact h2)]
    rfl
  · intro h1
    rw [answer_path (.sub (.name n) (.name v)) rfl]
    show Except.ok (gen w w.top [⟨.name v, false⟩, ⟨.name n, false⟩]).getLast? = _
    rw [key (by unfold Ns.here; dsimp only; rw [h1])]
    rfl

/-- **C198 is violated** by calls: the answer is about the function, never about what it returns or a part of that. -/
theorem call_answers_function {w : World} {f : Name} (n : Name) :
    answer w (.expr (.call (.name f))) = .ok (w.root f) ∧ answer w (.expr (.attr (.call (.name f)) n)) = .ok (w.root f) := by
  cases hr : w.root f with
  | none => simp [answer, resolve, visit, gen, World.top, hr]
  | some s => simp [answer, resolve, visit, gen, World.top, hr]

/-- **C198 is violated** by texts that are no reference: instead of a warning, the command fails. -/
theorem text_fails (w : World) : answer w .comment = .error .crash ∧ answer w (.stmts none) = .error .crash ∧ answer w (.expr .literal) = .error .crash ∧
    answer w (.expr .other) = .error .crash ∧ ∀ v, v ≠ .display → answer w (.stmts (some v)) = .error .crash := by
  refine ⟨rfl, rfl, rfl, rfl, ?_⟩
  intro v hv
  show (if v = .display then _ else _) = _
  rw [if_neg hv]

end Verif.Asked
