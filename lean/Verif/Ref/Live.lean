import Verif.Ref.Model

/-!
# Marks on what a cell reads (C84)

Models `LiveSymbolRef.gen_resolved_symbols` of `core/ipyflow/analysis/symbol_ref.py` 521-540 and `is_blocking`, `is_cascading_reactive` and `is_reactive` of
`ResolvedSymbol`, `core/ipyflow/analysis/resolved_symbols.py` 78-105, for references that are not killed. -/

namespace Verif.Ref

variable {σ : Type}

/-- What the kernel knows about symbols from earlier executions: `blocked_reactive_timestamps_by_symbol` is at least the time of the
symbol (`resolved_symbols.py` 103-104), `is_cascading_reactive_at_counter` (82-84), `is_updated_deep_reactive` (`flow.py` 459-463). -/
structure Facts (σ : Type) where
  blocked : σ → Bool := fun _ => false
  cascading : σ → Bool := fun _ => false
  updated : σ → Bool := fun _ => false

/-- `ResolvedSymbol.is_blocking`, `resolved_symbols.py` 99-105. -/
def isBlocking (f : Facts σ) (p : σ × Marks) : Bool := p.2.blocking || f.blocked p.1

/-- `ResolvedSymbol.is_cascading_reactive`, 78-85. -/
def isCascading (f : Facts σ) (p : σ × Marks) : Bool := p.2.cascading || f.cascading p.1

/-- `ResolvedSymbol.is_reactive`, 87-97. `lhs`: the reference is the target of an augmented assignment or part of a target. -/
def isReactive (f : Facts σ) (lhs : Bool) (p : σ × Marks) : Bool :=
  if isBlocking f p then false
  else (p.2.reactive && !lhs) || isCascading f p || f.updated p.1

/-- The loop of `LiveSymbolRef.gen_resolved_symbols`, `symbol_ref.py` 528-540. `seen` is `blocking_seen`. -/
def livePass (f : Facts σ) (seen : Bool) : List (σ × Marks) → List (σ × Marks)
  | [] => []
  | p :: l =>
    let b := seen || isBlocking f p
    (p.1, if b && !isBlocking f p then p.2.toBlocking else p.2) :: livePass f b l

/-- `LiveSymbolRef.gen_resolved_symbols`, 521-540, as called for the references that a cell reads (`live_refs.py` 533-538, 619-623): all
symbols of the chain. -/
def liveMarks (f : Facts σ) (l : List (σ × Marks × Bool)) : List (σ × Marks) := livePass f false (resolve false true l)

/-! ## Specification -/

/-- The `i`-th symbol of the chain is cut off from reactive updates: it or one before it is marked as blocking, or was blocked before. -/
def Cut (f : Facts σ) (l : List (σ × Marks × Bool)) (i : Nat) : Prop :=
  ∃ (j : Nat) (s : σ) (m : Marks) (more : Bool), j ≤ i ∧ l[j]? = some (s, m, more) ∧ (m.blocking = true ∨ f.blocked s = true)

/-- It or one before it is marked as reactive. -/
def MarkedReactive (l : List (σ × Marks × Bool)) (i : Nat) : Prop :=
  ∃ (j : Nat) (s : σ) (m : Marks) (more : Bool), j ≤ i ∧ l[j]? = some (s, m, more) ∧ m.reactive = true

/-- It or one before it is marked as cascading. -/
def MarkedCascading (l : List (σ × Marks × Bool)) (i : Nat) : Prop :=
  ∃ (j : Nat) (s : σ) (m : Marks) (more : Bool), j ≤ i ∧ l[j]? = some (s, m, more) ∧ m.cascading = true

/-- What the marks ought to say about the `i`-th symbol: blocking wins over everything; a mark holds for what is reached through the object
marked. -/
structure Covers (f : Facts σ) (lhs : Bool) (l : List (σ × Marks × Bool)) (i : Nat) (p : σ × Marks) : Prop where
  blocking : isBlocking f p = true ↔ Cut f l i
  reactive : isReactive f lhs p = true ↔
    ¬ Cut f l i ∧ ((MarkedReactive l i ∧ lhs = false) ∨ MarkedCascading l i ∨ f.cascading p.1 = true ∨ f.updated p.1 = true)

/-- No blocking mark comes after, or on, a reactive or cascading one. -/
def BlockFirst (l : List (σ × Marks × Bool)) : Prop :=
  ∀ (i : Nat) (s : σ) (m : Marks) (more : Bool), l[i]? = some (s, m, more) → m.blocking = true →
    ¬ MarkedReactive l i ∧ ¬ MarkedCascading l i

/-! ## Proofs -/

/-- The marks that `resolve` gives. -/
def acc (r c : Bool) : List (σ × Marks × Bool) → List (σ × Marks)
  | [] => []
  | (s, m, _) :: l =>
    (s, { reactive := r || m.reactive, cascading := c || m.cascading, blocking := m.blocking }) :: acc (r || m.reactive) (c || m.cascading) l

theorem turn_spec (all r c : Bool) (m : Marks) (h : m.blocking = true → r = false ∧ c = false ∧ m.reactive = false ∧ m.cascading = false) :
    turn { all := all, reactiveSeen := r, cascadingSeen := c } m =
      ({ all := all || (r || m.reactive), reactiveSeen := r || m.reactive, cascadingSeen := c || m.cascading },
        { reactive := r || m.reactive, cascading := c || m.cascading, blocking := m.blocking }) := by
  obtain ⟨mr, mc, mb⟩ := m
  cases mb
  · cases r <;> cases c <;> cases mr <;> cases mc <;> cases all <;> rfl
  · obtain ⟨rfl, rfl, h3, h4⟩ := h rfl
    cases h3
    cases h4
    cases all <;> rfl

/-- No blocking mark after, or on, another; `r`, `c`: marks seen before. -/
def Ok (r c : Bool) : List (σ × Marks × Bool) → Prop
  | [] => True
  | (_, m, _) :: l => (m.blocking = true → r = false ∧ c = false ∧ m.reactive = false ∧ m.cascading = false) ∧
    Ok (r || m.reactive) (c || m.cascading) l

theorem resolve_acc (only : Bool) : ∀ (l : List (σ × Marks × Bool)) (r c : Bool) (last : Option (σ × Marks × Bool)), Ok r c l →
    resolveFrom only { all := true, reactiveSeen := r, cascadingSeen := c } last l = acc r c l := by
  intro l
  induction l with
  | nil => intro r c last _; simp [resolveFrom, acc]
  | cons p l ih =>
    obtain ⟨s, m, more⟩ := p
    intro r c last h
    rw [resolveFrom, turn_spec _ _ _ _ h.1]
    simp only [Bool.true_or, if_true, acc]
    rw [ih _ _ _ h.2]

theorem ok_of : ∀ (l pre : List (σ × Marks × Bool)) (r c : Bool), (r = true → ∃ p ∈ pre, p.2.1.reactive = true) →
    (c = true → ∃ p ∈ pre, p.2.1.cascading = true) → BlockFirst (pre ++ l) → Ok r c l := by
  intro l
  induction l with
  | nil => intro _ _ _ _ _ _; trivial
  | cons p l ih =>
    obtain ⟨s, m, more⟩ := p
    intro pre r c hr hc h
    have hat : (pre ++ (s, m, more) :: l)[pre.length]? = some (s, m, more) := by simp
    have hin : ∀ q ∈ pre, ∃ j, j ≤ pre.length ∧ (pre ++ (s, m, more) :: l)[j]? = some q := by
      intro q hq
      obtain ⟨j, hj, hjq⟩ := List.getElem_of_mem hq
      exact ⟨j, by omega, by rw [List.getElem?_append_left hj, List.getElem?_eq_getElem hj, hjq]⟩
    refine ⟨fun hb => ?_, ?_⟩
    · obtain ⟨h1, h2⟩ := h _ _ _ _ hat hb
      refine ⟨?_, ?_, ?_, ?_⟩
      · cases hrr : r
        · rfl
        · obtain ⟨q, hq, hqr⟩ := hr hrr
          obtain ⟨j, hj, hjq⟩ := hin q hq
          exact (h1 ⟨j, _, _, _, hj, hjq, hqr⟩).elim
      · cases hcc : c
        · rfl
        · obtain ⟨q, hq, hqr⟩ := hc hcc
          obtain ⟨j, hj, hjq⟩ := hin q hq
          exact (h2 ⟨j, _, _, _, hj, hjq, hqr⟩).elim
      · cases hm : m.reactive
        · rfl
        · exact (h1 ⟨_, _, _, _, Nat.le_refl _, hat, hm⟩).elim
      · cases hm : m.cascading
        · rfl
        · exact (h2 ⟨_, _, _, _, Nat.le_refl _, hat, hm⟩).elim
    · refine ih (pre ++ [(s, m, more)]) _ _ ?_ ?_ (by simpa using h)
      · intro hh
        rcases (by simpa using hh : r = true ∨ m.reactive = true) with h1 | h1
        · obtain ⟨q, hq, hqr⟩ := hr h1
          exact ⟨q, by simp [hq], hqr⟩
        · exact ⟨(s, m, more), by simp, h1⟩
      · intro hh
        rcases (by simpa using hh : c = true ∨ m.cascading = true) with h1 | h1
        · obtain ⟨q, hq, hqr⟩ := hc h1
          exact ⟨q, by simp [hq], hqr⟩
        · exact ⟨(s, m, more), by simp, h1⟩

/-- One of the first `i + 1` has the property. -/
def Upto (P : σ × Marks × Bool → Prop) (l : List (σ × Marks × Bool)) (i : Nat) : Prop := ∃ j p, j ≤ i ∧ l[j]? = some p ∧ P p

theorem upto_zero (P : σ × Marks × Bool → Prop) (p : σ × Marks × Bool) (l : List (σ × Marks × Bool)) : Upto P (p :: l) 0 ↔ P p := by
  constructor
  · rintro ⟨j, q, hj, hq, hP⟩
    have : j = 0 := by omega
    subst this
    simp at hq
    exact hq ▸ hP
  · exact fun h => ⟨0, p, Nat.le_refl _, rfl, h⟩

theorem upto_succ (P : σ × Marks × Bool → Prop) (p : σ × Marks × Bool) (l : List (σ × Marks × Bool)) (i : Nat) :
    Upto P (p :: l) (i + 1) ↔ P p ∨ Upto P l i := by
  constructor
  · rintro ⟨j, q, hj, hq, hP⟩
    cases j with
    | zero =>
      simp at hq
      exact .inl (hq ▸ hP)
    | succ j => exact .inr ⟨j, q, by omega, by simpa using hq, hP⟩
  · rintro (h | ⟨j, q, hj, hq, hP⟩)
    · exact ⟨0, p, by omega, rfl, h⟩
    · exact ⟨j + 1, q, by omega, by simpa using hq, hP⟩

theorem live_get (f : Facts σ) : ∀ (l : List (σ × Marks × Bool)) (r c seen : Bool) (i : Nat) (p : σ × Marks),
    (livePass f seen (acc r c l))[i]? = some p →
    (∃ m more, l[i]? = some (p.1, m, more)) ∧
    (isBlocking f p = true ↔ seen = true ∨ Upto (fun q => q.2.1.blocking = true ∨ f.blocked q.1 = true) l i) ∧
    (isBlocking f p = false → (p.2.reactive = true ↔ r = true ∨ Upto (fun q => q.2.1.reactive = true) l i) ∧
      (p.2.cascading = true ↔ c = true ∨ Upto (fun q => q.2.1.cascading = true) l i)) := by
  intro l
  induction l with
  | nil => intro r c seen i p h; simp [acc, livePass] at h
  | cons q l ih =>
    obtain ⟨s, m, more⟩ := q
    intro r c seen i p h
    simp only [acc, livePass] at h
    cases i with
    | zero =>
      simp only [List.getElem?_cons_zero, Option.some.injEq] at h
      subst h
      rw [upto_zero, upto_zero, upto_zero]
      refine ⟨⟨m, more, rfl⟩, ?_, ?_⟩
      · clear ih
        obtain ⟨mr, mc, mb⟩ := m
        simp only [isBlocking]
        rcases Bool.eq_false_or_eq_true (f.blocked s) with hb | hb <;> cases mb <;> cases seen <;> simp [hb, Marks.toBlocking]
      · clear ih
        obtain ⟨mr, mc, mb⟩ := m
        simp only [isBlocking]
        rcases Bool.eq_false_or_eq_true (f.blocked s) with hb | hb <;> cases mb <;> cases seen <;> simp [hb, Marks.toBlocking]
    | succ i =>
      rw [List.getElem?_cons_succ] at h
      obtain ⟨h1, h2, h3⟩ := ih _ _ _ i p h
      rw [upto_succ, upto_succ, upto_succ]
      refine ⟨by simpa using h1, h2.trans ?_, fun hn => ⟨(h3 hn).1.trans ?_, (h3 hn).2.trans ?_⟩⟩
      · simp only [isBlocking, Bool.or_eq_true]
        exact or_assoc
      · rw [Bool.or_eq_true]
        exact or_assoc
      · rw [Bool.or_eq_true]
        exact or_assoc

theorem live_length (f : Facts σ) (l : List (σ × Marks)) : ∀ seen, (livePass f seen l).length = l.length := by
  induction l with
  | nil => intro seen; rfl
  | cons p l ih => intro seen; simp [livePass, ih]

theorem acc_length (l : List (σ × Marks × Bool)) : ∀ (r c : Bool), (acc r c l).length = l.length := by
  induction l with
  | nil => intro r c; rfl
  | cons p l ih => intro r c; simp [acc, ih]

theorem upto_marked (P : Marks → σ → Prop) (l : List (σ × Marks × Bool)) (i : Nat) : Upto (fun q => P q.2.1 q.1) l i ↔
    ∃ (j : Nat) (s : σ) (m : Marks) (more : Bool), j ≤ i ∧ l[j]? = some (s, m, more) ∧ P m s :=
  ⟨fun ⟨j, ⟨s, m, more⟩, h1, h2, h3⟩ => ⟨j, s, m, more, h1, h2, h3⟩, fun ⟨j, s, m, more, h1, h2, h3⟩ => ⟨j, (s, m, more), h1, h2, h3⟩⟩

/-- **C84**, for references in which no blocking mark follows a reactive one: every symbol of the chain is reported, and the marks hold for what is
reached through the object marked, blocking winning over the others. Missing: blocking marks after others, see `marks_violated`. -/
theorem marks_partial (f : Facts σ) (lhs : Bool) (l : List (σ × Marks × Bool)) (h : BlockFirst l) :
    (liveMarks f l).length = l.length ∧
    ∀ i p, (liveMarks f l)[i]? = some p → (∃ m more, l[i]? = some (p.1, m, more)) ∧ Covers f lhs l i p := by
  have he : resolve false true l = acc false false l := resolve_acc false l false false none
    (ok_of l [] false false (by simp) (by simp) (by simpa using h))
  unfold liveMarks
  rw [he]
  refine ⟨by rw [live_length, acc_length], fun i p hi => ?_⟩
  obtain ⟨h1, h2, h3⟩ := live_get f l false false false i p hi
  have hb : isBlocking f p = true ↔ Cut f l i := by
    rw [h2]
    simp only [Bool.false_eq_true, false_or]
    exact upto_marked (fun m s => m.blocking = true ∨ f.blocked s = true) l i
  refine ⟨h1, hb, ?_⟩
  unfold isReactive
  by_cases hc : isBlocking f p = true
  · rw [if_pos hc]
    simp [hb.mp hc]
  · rw [if_neg hc]
    obtain ⟨h4, h5⟩ := h3 (by simpa using hc)
    have h4' : p.2.reactive = true ↔ MarkedReactive l i := by
      rw [h4]
      simp only [Bool.false_eq_true, false_or]
      exact upto_marked (fun m _ => m.reactive = true) l i
    have h5' : p.2.cascading = true ↔ MarkedCascading l i := by
      rw [h5]
      simp only [Bool.false_eq_true, false_or]
      exact upto_marked (fun m _ => m.cascading = true) l i
    have hnc : ¬ Cut f l i := fun hx => hc (hb.mpr hx)
    simp only [Bool.or_eq_true, Bool.and_eq_true, Bool.not_eq_true', isCascading, h4', h5', hnc, not_false_eq_true, true_and]
    constructor
    · rintro ((h | (h | h)) | h)
      · exact .inl h
      · exact .inr (.inl h)
      · exact .inr (.inr (.inl h))
      · exact .inr (.inr (.inr h))
    · rintro (h | h | h | h)
      · exact .inl (.inl h)
      · exact .inl (.inr (.inl h))
      · exact .inl (.inr (.inr h))
      · exact .inr h

/-- `$:a.$b.c`, and `a.$b.c` where `c` was blocked before: `a` and `b` are not. -/
example : BlockFirst [(0, ({ blocking := true } : Marks), true), (1, { reactive := true }, true), (2, {}, false)] ∧
    (liveMarks {} [(0, ({ blocking := true } : Marks), true), (1, { reactive := true }, true), (2, {}, false)]).map (isReactive {} false) =
      [false, false, false] ∧
    (liveMarks { blocked := (· == 2) } [(0, ({} : Marks), true), (1, { reactive := true }, true), (2, {}, false)]).map
      (isReactive { blocked := (· == 2) } false) = [false, true, false] := by
  refine ⟨?_, by decide, by decide⟩
  intro i s m more hi hb
  match i with
  | 0 =>
    constructor <;>
    · rintro ⟨j, s', m', more', hj, hl, hr⟩
      have : j = 0 := by omega
      subst this
      simp at hl
      obtain ⟨_, rfl, _⟩ := hl
      simp at hr
  | 1 =>
    simp at hi
    obtain ⟨_, rfl, _⟩ := hi
    simp at hb
  | 2 =>
    simp at hi
    obtain ⟨_, rfl, _⟩ := hi
    simp at hb
  | i + 3 => simp at hi

/-- **C84 fails** for a blocking mark after a reactive one: in `$x.$:y` the mark on `y` is lost, `y` is reactive. -/
theorem marks_violated : ∃ l : List (Nat × Marks × Bool), l[1]? = some (1, { blocking := true }, false) ∧ Cut {} l 1 ∧
    (liveMarks {} l).map (isReactive {} false) = [true, true] :=
  ⟨[(0, { reactive := true }, true), (1, { blocking := true }, false)], rfl, ⟨1, 1, { blocking := true }, false, by omega, rfl, .inl rfl⟩, by decide⟩

end Verif.Ref
