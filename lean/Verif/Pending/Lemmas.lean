import Mathlib.Data.List.Forall2
import Verif.Pending.Spec

/-! Helper lemmas for `Verif.Pending.Props`. -/

namespace Verif.Pending

open Spec

variable {N V : Type}

theorem run_append (s : St N V) (a b : List (Ev N V)) : run s (a ++ b) = run (run s a) b := by
  simp [run, List.foldl_append]

theorem run_cons (s : St N V) (a : Ev N V) (b : List (Ev N V)) : run s (a :: b) = run (step s a) b := rfl

@[simp] theorem run_nil (s : St N V) : run s [] = s := rfl

theorem forall2_snoc {α β : Type} {R : α → β → Prop} {xs : List α} {ys : List β} {a : α} {b : β} (h : List.Forall₂ R xs ys) (r : R a b) :
    List.Forall₂ R (xs ++ [a]) (ys ++ [b]) := by
  induction h with
  | nil => exact .cons r .nil
  | cons h _ ih => exact .cons h ih

theorem forall2_snoc_left {α β : Type} {R : α → β → Prop} {xs : List α} {l : List β} {a : α} (h : List.Forall₂ R (xs ++ [a]) l) :
    ∃ ys b, l = ys ++ [b] ∧ List.Forall₂ R xs ys ∧ R a b := by
  induction xs generalizing l with
  | nil =>
    cases h with
    | cons r t => cases t; exact ⟨[], _, rfl, .nil, r⟩
  | cons x xs ih =>
    cases h with
    | cons r t =>
      obtain ⟨ys, b, rfl, h1, h2⟩ := ih t
      exact ⟨_ :: ys, b, rfl, .cons r h1, h2⟩

theorem setLast_snoc (v : V) (xs : List (Rec N V)) (r : Rec N V) : setLast v (xs ++ [r]) = xs ++ [{ r with ret := some v }] := by
  induction xs with
  | nil => rfl
  | cons x xs ih => cases xs with
    | nil => rfl
    | cons y ys => simpa [setLast] using ih

/-- The records so far belong to some of the calls made so far, to all of them if `q`. -/
def Inv (q : Prop) (h : List (Made N V)) (s : St N V) : Prop :=
  ∃ l, l.Sublist h ∧ (q → l = h) ∧ List.Forall₂ Of (s.log ++ s.calls) l ∧
    (s.pending = true → s.calls ≠ [] ∧ ∀ m, l.getLast? = some m → m.res = none)

/-- A result is only awaited if there is a call to give it to. -/
theorem inv_pending {q : Prop} {h : List (Made N V)} {s : St N V} (i : Inv q h s) (p : s.pending = true) : s.calls ≠ [] := by
  obtain ⟨l, _, _, _, i⟩ := i
  exact (i p).1

theorem Inv.mono {q q' : Prop} {h : List (Made N V)} {s : St N V} (i : Inv q h s) (f : q' → q) : Inv q' h s := by
  obtain ⟨l, a, b, c⟩ := i
  exact ⟨l, a, fun x => b (f x), c⟩

theorem Inv.weaken {q q' : Prop} {h : List (Made N V)} {s : St N V} (i : Inv q h s) (x : List (Made N V)) (n : ¬ q') : Inv q' (h ++ x) s := by
  obtain ⟨l, a, b, c⟩ := i
  exact ⟨l, a.trans (List.sublist_append_left _ _), fun x => absurd x n, c⟩

theorem Inv.same {q : Prop} {h : List (Made N V)} {s s' : St N V} (i : Inv q h s) (a : s'.log = s.log) (b : s'.calls = s.calls)
    (c : s'.pending = s.pending) : Inv q h s' := by
  unfold Inv; rw [a, b, c]; exact i

theorem inv_setLast {q : Prop} {h : List (Made N V)} {s : St N V} (i : Inv q h s) (p : s.pending = true) (v : V) :
    Inv q h { s with pending := false, calls := setLast v s.calls } := by
  obtain ⟨l, a, b, c, d⟩ := i
  obtain ⟨d1, d2⟩ := d p
  obtain ⟨xs, r, e⟩ : ∃ xs r, s.calls = xs ++ [r] := ⟨_, _, (List.dropLast_append_getLast d1).symm⟩
  refine ⟨l, a, b, ?_, by simp⟩
  rw [e, ← List.append_assoc] at c
  obtain ⟨ys, m, rfl, c1, c2⟩ := forall2_snoc_left c
  show List.Forall₂ Of (s.log ++ setLast v s.calls) _
  rw [e, setLast_snoc, ← List.append_assoc]
  refine forall2_snoc c1 ⟨c2.1, c2.2.1, fun n => absurd (d2 m (by simp)) n⟩

theorem enable_log (s : St N V) : (enable s).log = s.log := by unfold enable; split <;> rfl
theorem enable_calls (s : St N V) : (enable s).calls = s.calls := by unfold enable; split <;> rfl
theorem enable_pending (s : St N V) : (enable s).pending = s.pending := by unfold enable; split <;> rfl
theorem enable_on (s : St N V) : (enable s).on = true := by unfold enable; split <;> simp_all
theorem pop_log (s : St N V) : (pop s).log = s.log := by unfold pop; split <;> rfl
theorem pop_calls (s : St N V) : (pop s).calls = s.calls := by unfold pop; split <;> rfl
theorem pop_pending (s : St N V) : (pop s).pending = s.pending := by unfold pop; split <;> rfl
theorem pop_on (s : St N V) : (pop s).on = s.on := by unfold pop; split <;> rfl
theorem pop_stack (s : St N V) : (pop s).stack = s.stack.tail := by
  unfold pop; split <;> simp_all

theorem enable_stack (s : St N V) : (enable s).stack = if s.on then s.stack else [] := by
  unfold enable; split <;> rfl

theorem after_on (v : V) (s : St N V) : (after v s).on = true := by
  unfold after; dsimp only; split <;> simp [pop_on, enable_on]

theorem after_stack (v : V) (s : St N V) : (after v s).stack = if s.on then s.stack.tail else [] := by
  unfold after; dsimp only
  split <;> simp only [pop_stack, enable_stack] <;> split <;> rfl

theorem after_inv {q : Prop} {h : List (Made N V)} {s : St N V} (i : Inv q h s) (v : V) : Inv q h (after v s) := by
  have i' : Inv q h (pop (enable s)) :=
    i.same (by rw [pop_log, enable_log]) (by rw [pop_calls, enable_calls]) (by rw [pop_pending, enable_pending])
  unfold after; dsimp only
  split
  · exact inv_setLast i' (by assumption) v
  · exact i'

/-- There is no candidate for arguments to go to. -/
def NC (s : St N V) : Prop := s.on = false ∨ s.stack = [] ∨ ∃ t, s.stack = none :: t

theorem arg_nc {s : St N V} (n : NC s) (v : V) (l : Bool) : arg v l s = s := by
  unfold arg
  rcases n with n | n | ⟨t, n⟩
  · simp [n]
  · rw [n]; simp
  · rw [n]; simp

/-- What is claimed about evaluating an expression; `v` says that it has a value. -/
structure Good (q : Prop) (h m : List (Made N V)) (v qu st : Bool) (s s' : St N V) : Prop where
  inv : Inv (q ∧ qu = true ∧ s.on = true) (h ++ m) s'
  on : qu = true → s.on = true → s'.on = true
  stack : v = true → s.on = true → s'.on = true ∧ (s'.stack = s.stack ∨ s'.stack = [])
  off : v = true → s.on = false → (s'.on = false ∧ s'.stack = s.stack) ∨ (s'.on = true ∧ s'.stack = [])
  strict : v = true → s.on = true → st = true → s'.stack = s.stack

theorem Good.nc {q : Prop} {h m : List (Made N V)} {v qu st : Bool} {s s' : St N V} (g : Good q h m v qu st s s') (hv : v = true) (n : NC s) : NC s' := by
  cases e : s.on with
  | true =>
    obtain ⟨a, b⟩ := g.stack hv e
    rcases n with n | n | ⟨t, n⟩
    · simp [n] at e
    · right; left; rcases b with b | b <;> simp [b, n]
    · rcases b with b | b
      · exact .inr (.inr ⟨t, by rw [b, n]⟩)
      · exact .inr (.inl b)
  | false =>
    rcases g.off hv e with ⟨a, b⟩ | ⟨a, b⟩
    · exact .inl a
    · exact .inr (.inl b)

mutual
theorem strict_quiet : ∀ e : Expr N V, strict e = true → quiet e = true
  | .leaf _, _ => rfl
  | .op _ args, h => by
    rw [strict] at h; rw [quiet]; exact strictAll_quietAll args h
  | .call _ .lib off args res, h => by
    simp only [strict, Bool.and_eq_true, decide_eq_true_eq, Bool.not_eq_true'] at h
    simp [quiet, h.1.2, h.2]
  | .call _ .own off args res, h => by
    simp only [strict, Bool.and_eq_true, decide_eq_true_eq, Bool.not_eq_true'] at h
    simp [quiet, h.1.2, strictAll_quietAll args h.2]
  | .call _ .odd off args res, h => by
    simp [strict] at h
theorem strictAll_quietAll : ∀ es : List (Expr N V), strictAll es = true → quietAll es = true
  | [], _ => rfl
  | e :: es, h => by
    simp only [strictAll, Bool.and_eq_true] at h
    simp [quietAll, strict_quiet e h.1, strictAll_quietAll es h.2]
end

mutual
theorem plain_made : ∀ e : Expr N V, plain e = true → made e = [] ∧ e.events = [] ∧ e.value.isSome = true
  | .leaf _, _ => ⟨rfl, rfl, rfl⟩
  | .op _ args, h => by
    rw [plain] at h
    obtain ⟨a, b, c⟩ := plainAll_made args h
    exact ⟨by rw [made, a], by rw [Expr.events, b], by simpa [Expr.value] using c⟩
  | .call .., h => by simp [plain] at h
theorem plainAll_made : ∀ es : List (Expr N V), plainAll es = true → madeAll es = [] ∧ opEvents es = [] ∧ (values es).isSome = true
  | [], _ => ⟨rfl, rfl, rfl⟩
  | e :: es, h => by
    simp only [plainAll, Bool.and_eq_true] at h
    obtain ⟨a, b, x⟩ := plain_made e h.1
    obtain ⟨c, d, y⟩ := plainAll_made es h.2
    obtain ⟨v, x⟩ := Option.isSome_iff_exists.1 x
    obtain ⟨w, y⟩ := Option.isSome_iff_exists.1 y
    exact ⟨by simp [madeAll, a, c], by simp [opEvents, b, d], by simp [values, x, y]⟩
end

theorem Good.refl {q : Prop} {h : List (Made N V)} {v qu st : Bool} {s : St N V} (i : Inv q h s) : Good q h [] v qu st s s where
  inv := by rw [List.append_nil]; exact i.mono (·.1)
  on := fun _ h => h
  stack := fun _ h => ⟨h, .inl rfl⟩
  off := fun _ h => .inl ⟨h, rfl⟩
  strict := fun _ _ _ => rfl

theorem Good.trans {q : Prop} {h m m' : List (Made N V)} {v v' qu qu' st st' : Bool} {s s' s'' : St N V}
    (g : Good q h m v qu st s s') (hv : v = true)
    (k : Good (q ∧ qu = true ∧ s.on = true) (h ++ m) m' v' qu' st' s' s'') :
    Good q h (m ++ m') (v && v') (qu && qu') (st && st') s s'' where
  inv := by
    rw [← List.append_assoc]
    refine k.inv.mono ?_
    rintro ⟨a, b, c⟩
    simp only [Bool.and_eq_true] at b
    exact ⟨⟨a, b.1, c⟩, b.2, g.on b.1 c⟩
  on := fun a b => by
    simp only [Bool.and_eq_true] at a
    exact k.on a.2 (g.on a.1 b)
  stack := fun a b => by
    simp only [Bool.and_eq_true] at a
    obtain ⟨c, d⟩ := g.stack hv b
    obtain ⟨e, f⟩ := k.stack a.2 c
    refine ⟨e, ?_⟩
    rcases f with f | f
    · rw [f]; exact d
    · exact .inr f
  off := fun a b => by
    simp only [Bool.and_eq_true] at a
    rcases g.off hv b with ⟨c, d⟩ | ⟨c, d⟩
    · rcases k.off a.2 c with ⟨e, f⟩ | e
      · exact .inl ⟨e, by rw [f, d]⟩
      · exact .inr e
    · obtain ⟨e, f⟩ := k.stack a.2 c
      refine .inr ⟨e, ?_⟩
      rcases f with f | f
      · rw [f, d]
      · exact f
  strict := fun a b c => by
    simp only [Bool.and_eq_true] at a c
    rw [k.strict a.2 (g.stack hv b).1 c.2, g.strict hv b c.1]

/-- An expression that raises, and what would have come after it. -/
theorem Good.stop {q : Prop} {h m : List (Made N V)} {qu qu' st st' : Bool} {s s' : St N V} (g : Good q h m false qu st s s') :
    Good q h m false (qu && qu') st' s s' where
  inv := g.inv.mono fun ⟨a, b, c⟩ => ⟨a, by simp only [Bool.and_eq_true] at b; exact b.1, c⟩
  on := fun a b => by simp only [Bool.and_eq_true] at a; exact g.on a.1 b
  stack := by simp
  off := by simp
  strict := by simp

/-- Without a candidate arguments are like operands. -/
theorem argEvents_nc (es : List (Expr N V))
    (E : ∀ e ∈ es, ∀ q h s, Inv q h s → Good q h (made e) e.value.isSome (quiet e) (strict e) s (run s e.events)) :
    ∀ q h s, Inv q h s → NC s → run s (argEvents es) = run s (opEvents es) := by
  induction es with
  | nil => intros; rfl
  | cons e es ih =>
    intro q h s i n
    rw [argEvents, opEvents, run_append, run_append]
    have g := E e (List.mem_cons_self ..) q h s i
    cases hv : e.value with
    | none => simp
    | some v =>
      rw [hv] at g
      simp only [Option.isSome_some, if_true]
      rw [run_cons]
      show run (arg _ _ _) _ = _
      have n' := g.nc rfl n
      rw [arg_nc n']
      exact ih (fun e m => E e (List.mem_cons_of_mem _ m)) _ _ _ g.inv n'

/-- After the arguments of a library call: they have all gone to the candidate, or the candidate has been lost. -/
def Taken (q : Prop) (h : List (Made N V)) (c : N) (vs : List V) (t : List (Option (Rec N V))) (s' : St N V) : Prop :=
  ∃ s1, s' = resolve s1 ∧ s1.on = true ∧ s1.stack = some ⟨c, vs, none⟩ :: t ∧ Inv q h s1

theorem argEvents_lib (es : List (Expr N V)) (ne : es ≠ [])
    (E : ∀ e ∈ es, ∀ q h s, Inv q h s → Good q h (made e) e.value.isSome (quiet e) (strict e) s (run s e.events))
    (O : ∀ e es', e :: es' <:+ es → ∀ q h s, Inv q h s →
      Good q h (madeAll es') (values es').isSome (quietAll es') (strictAll es') s (run s (opEvents es'))) :
    ∀ q h s c acc t, Inv q h s → s.on = true → s.stack = some ⟨c, acc, none⟩ :: t →
      (values es = none → Inv (q ∧ strictAll es = true) (h ++ madeAll es) (run s (argEvents es)) ∧
        (strictAll es = true → (run s (argEvents es)).on = true)) ∧
      (∀ vs, values es = some vs →
        Taken (q ∧ strictAll es = true) (h ++ madeAll es) c (acc ++ vs) t (run s (argEvents es)) ∨
        (strictAll es = false ∧ (run s (argEvents es)).on = true ∧ (run s (argEvents es)).stack = [] ∧
          Inv False (h ++ madeAll es) (run s (argEvents es)))) := by
  induction es with
  | nil => exact absurd rfl ne
  | cons e es ih =>
    intro q h s c acc t i hon hst
    have g := E e (List.mem_cons_self ..) q h s i
    have sq : strictAll (e :: es) = true → quiet e = true := fun x => by
      simp only [strictAll, Bool.and_eq_true] at x; exact strict_quiet e x.1
    rw [argEvents, run_append]
    cases hv : e.value with
    | none =>
      rw [hv] at g
      simp only [run_nil]
      refine ⟨fun _ => ⟨?_, ?_⟩, fun vs x => ?_⟩
      · have := g.inv
        simp only [madeAll, hv]
        simp only [Option.isSome_none, Bool.false_eq_true, if_false, List.append_nil]
        exact this.mono fun ⟨a, b⟩ => ⟨a, sq b, hon⟩
      · exact fun x => g.on (sq x) hon
      · simp [values, hv] at x
    | some v =>
      rw [hv] at g
      obtain ⟨on', st'⟩ := g.stack rfl hon
      have mm : madeAll (e :: es) = made e ++ madeAll es := by simp [madeAll, hv]
      rw [run_cons, mm, ← List.append_assoc]
      generalize hs' : run s e.events = s' at g on' st'
      show _ ∧ _
      have hstep : step s' (.arg v es.isEmpty) = arg v es.isEmpty s' := rfl
      rw [hstep]
      rcases st' with st' | st'
      · rw [hst] at st'
        have i2 : Inv (q ∧ quiet e = true ∧ s.on = true) (h ++ made e) { s' with stack := some ⟨c, acc ++ [v], none⟩ :: t } :=
          g.inv.same rfl rfl rfl
        have harg : arg v es.isEmpty s' = if es.isEmpty then resolve { s' with stack := some ⟨c, acc ++ [v], none⟩ :: t } else
            { s' with stack := some ⟨c, acc ++ [v], none⟩ :: t } := by
          unfold arg; rw [on', st']; simp
        rw [harg]
        cases es with
        | nil =>
          refine ⟨by simp [values, hv], fun vs x => .inl ?_⟩
          have : vs = [v] := by simpa [values, hv] using x.symm
          subst this
          refine ⟨{ s' with stack := some ⟨c, acc ++ [v], none⟩ :: t }, by simp [argEvents], on', rfl, ?_⟩
          rw [show madeAll ([] : List (Expr N V)) = [] from rfl, List.append_nil]
          exact i2.mono fun ⟨a, b⟩ => ⟨a, sq b, hon⟩
        | cons e' es' =>
          simp only [List.isEmpty_cons, Bool.false_eq_true, if_false]
          have k := ih (by simp) (fun e m => E e (List.mem_cons_of_mem _ m))
            (fun e l x => O e l (x.trans (List.suffix_cons _ _))) _ _ _ c (acc ++ [v]) t i2 on' rfl
          have val : values (e :: e' :: es') = (values (e' :: es')).map (v :: ·) := by rw [values, hv]; rfl
          have w : q ∧ strictAll (e :: e' :: es') = true → (q ∧ quiet e = true ∧ s.on = true) ∧ strictAll (e' :: es') = true := fun ⟨a, b⟩ =>
            ⟨⟨a, sq b, hon⟩, by rw [strictAll, Bool.and_eq_true] at b; exact b.2⟩
          refine ⟨fun x => ?_, fun vs x => ?_⟩
          · rw [val, Option.map_eq_none_iff] at x
            refine ⟨(k.1 x).1.mono w, fun y => (k.1 x).2 ?_⟩
            rw [strictAll, Bool.and_eq_true] at y; exact y.2
          · rw [val, Option.map_eq_some_iff] at x
            obtain ⟨vs', x, rfl⟩ := x
            rcases k.2 vs' x with ⟨s1, a, b, c', d⟩ | ⟨a, b⟩
            · exact .inl ⟨s1, a, b, by rw [c', List.append_assoc]; rfl, d.mono w⟩
            · exact .inr ⟨by rw [strictAll, a, Bool.and_false], b⟩
      · have ns : strict e = false := by
          cases x : strict e with
          | false => rfl
          | true => have := g.strict rfl hon x; rw [st', hst] at this; cases this
        have nc : NC s' := .inr (.inl st')
        rw [arg_nc nc]
        have i' : Inv False (h ++ made e) s' := g.inv.mono fun x => x.elim
        rw [argEvents_nc es (fun e m => E e (List.mem_cons_of_mem _ m)) _ _ _ i' nc]
        have k := O e es (List.suffix_refl _) _ _ _ i'
        have sf : strictAll (e :: es) = false := by rw [strictAll, ns, Bool.false_and]
        refine ⟨fun _ => ⟨k.inv.mono fun x => ?_, fun x => ?_⟩, fun vs x => .inr ⟨sf, ?_⟩⟩
        · rw [sf] at x; exact absurd x.2 (by simp)
        · rw [sf] at x; exact absurd x (by simp)
        · have : (values es).isSome = true := by
            cases y : values es with
            | none => simp [values, hv, y] at x
            | some _ => rfl
          obtain ⟨a, b⟩ := k.stack this on'
          refine ⟨a, ?_, k.inv.mono fun x => x.elim⟩
          rcases b with b | b
          · rw [b, st']
          · exact b

theorem ops_good (es : List (Expr N V))
    (E : ∀ e ∈ es, ∀ q h s, Inv q h s → Good q h (made e) e.value.isSome (quiet e) (strict e) s (run s e.events)) :
    ∀ q h s, Inv q h s → Good q h (madeAll es) (values es).isSome (quietAll es) (strictAll es) s (run s (opEvents es)) := by
  induction es with
  | nil => intro q h s i; exact Good.refl i
  | cons e es ih =>
    intro q h s i
    have g := E e (List.mem_cons_self ..) q h s i
    rw [opEvents, run_append]
    cases hv : e.value with
    | none =>
      rw [hv] at g
      have a : madeAll (e :: es) = made e := by simp [madeAll, hv]
      have b : (values (e :: es)).isSome = false := by simp [values, hv]
      rw [a, b]
      simp only [Option.isSome_none, Bool.false_eq_true, if_false, run_nil]
      exact g.stop
    | some v =>
      rw [hv] at g
      have a : madeAll (e :: es) = made e ++ madeAll es := by simp [madeAll, hv]
      have b : (values (e :: es)).isSome = (true && (values es).isSome) := by simp [values, hv]
      rw [a, b]
      simp only [Option.isSome_some, if_true]
      exact g.trans rfl (ih (fun e m => E e (List.mem_cons_of_mem _ m)) _ _ _ g.inv)

/-- The end of a call for which there is no candidate. -/
theorem call_end {q : Prop} {h : List (Made N V)} {s' : St N V} (i : Inv q h s') (off : Bool) (res : Option V) (ws : List V) :
    Inv q h (run s' (callEnd off res (some ws))) := by
  have i' : Inv q h (step s' (.body off)) := by
    show Inv q h (if off then _ else _)
    split
    · exact i.same rfl rfl rfl
    · exact i
  cases res with
  | none => exact i'
  | some v => exact after_inv i' v

theorem call_on {s' : St N V} (off : Bool) (v : V) (ws : List V) : (run s' (callEnd off (some v) (some ws))).on = true := after_on _ _

theorem call_stack {s' : St N V} (off : Bool) (v : V) (ws : List V) :
    (run s' (callEnd off (some v) (some ws))).stack = if s'.on && !off then s'.stack.tail else [] := by
  show (after v (if off then _ else _)).stack = _
  rw [after_stack]
  cases off <;> simp

/-- A call without a candidate: of a function of the notebook, or while tracing is turned off. -/
theorem call_plain (args : List (Expr N V))
    (E : ∀ e ∈ args, ∀ q h s, Inv q h s → Good q h (made e) e.value.isSome (quiet e) (strict e) s (run s e.events))
    {q : Prop} {h : List (Made N V)} {s0 : St N V} (i : Inv q h s0) (n : NC s0) :
    Good q h (madeAll args) (values args).isSome (quietAll args) (strictAll args) s0 (run s0 (argEvents args)) := by
  rw [argEvents_nc args E _ _ _ i n]
  exact ops_good args E _ _ _ i

theorem resolve_some {s : St N V} {r : Rec N V} {t : List (Option (Rec N V))} (h : s.stack = some r :: t) :
    resolve s = { s with calls := s.calls ++ [r], pending := true } := by
  unfold resolve; rw [h]

theorem inv_resolve {q : Prop} {h : List (Made N V)} {s1 : St N V} (i : Inv q h s1) (c : N) (vs : List V) :
    Inv q (h ++ [⟨c, vs, none⟩]) { s1 with calls := s1.calls ++ [⟨c, vs, none⟩], pending := true } := by
  obtain ⟨l, a, b, d, _⟩ := i
  refine ⟨l ++ [⟨c, vs, none⟩], a.append (List.Sublist.refl _), fun x => by rw [b x], ?_, fun _ => ⟨by simp, ?_⟩⟩
  · show List.Forall₂ Of (s1.log ++ (s1.calls ++ [_])) _
    rw [← List.append_assoc]
    exact forall2_snoc d ⟨rfl, rfl, fun x => absurd rfl x⟩
  · intro m hm; simp at hm; subst hm; rfl

theorem inv_returned {q : Prop} {h : List (Made N V)} {s1 : St N V} (i : Inv q h s1) (c : N) (vs : List V) (v : V) :
    Inv q (h ++ [⟨c, vs, some v⟩]) { s1 with calls := s1.calls ++ [⟨c, vs, some v⟩], pending := false } := by
  obtain ⟨l, a, b, d, _⟩ := i
  refine ⟨l ++ [⟨c, vs, some v⟩], a.append (List.Sublist.refl _), fun x => by rw [b x], ?_, by simp⟩
  show List.Forall₂ Of (s1.log ++ (s1.calls ++ [_])) _
  rw [← List.append_assoc]
  exact forall2_snoc d ⟨rfl, rfl, fun _ => rfl⟩

theorem after_pending {s : St N V} {xs : List (Rec N V)} {r : Rec N V} (p : s.pending = true) (e : s.calls = xs ++ [r]) (v : V) :
    (after v s).log = s.log ∧ (after v s).calls = xs ++ [{ r with ret := some v }] ∧ (after v s).pending = false := by
  unfold after; dsimp only
  rw [if_pos (by rw [pop_pending, enable_pending, p])]
  exact ⟨by rw [pop_log, enable_log], by show setLast v _ = _; rw [pop_calls, enable_calls, e, setLast_snoc], rfl⟩

/-- The end of a library call whose candidate has got all its arguments. -/
theorem taken_end {q : Prop} {h : List (Made N V)} {c : N} {vs : List V} {t : List (Option (Rec N V))} {s' : St N V}
    (k : Taken q h c vs t s') (off : Bool) (res : Option V) (ws : List V) :
    Inv q (h ++ [⟨c, vs, res⟩]) (run s' (callEnd off res (some ws))) := by
  obtain ⟨s1, rfl, on1, st1, i⟩ := k
  rw [resolve_some st1]
  cases res with
  | none => exact call_end (inv_resolve i c vs) off none ws
  | some v =>
    have b : ∀ s : St N V, (step s (.body off)).log = s.log ∧ (step s (.body off)).calls = s.calls ∧ (step s (.body off)).pending = s.pending := fun s => by
      show St.log (if off then _ else _) = _ ∧ St.calls (if off then _ else _) = _ ∧ St.pending (if off then _ else _) = _
      cases off <;> simp
    obtain ⟨b1, b2, b3⟩ := b { s1 with calls := s1.calls ++ [⟨c, vs, none⟩], pending := true }
    obtain ⟨a1, a2, a3⟩ := after_pending (s := step { s1 with calls := s1.calls ++ [⟨c, vs, none⟩], pending := true } (.body off))
      (xs := s1.calls) (r := ⟨c, vs, none⟩) (by rw [b3]) (by rw [b2]) v
    exact (inv_returned i c vs v).same (by
      show (after v _).log = _
      rw [a1, b1]) a2 a3

theorem taken_on {q : Prop} {h : List (Made N V)} {c : N} {vs : List V} {t : List (Option (Rec N V))} {s' : St N V}
    (k : Taken q h c vs t s') : s'.on = true ∧ s'.stack = some ⟨c, vs, none⟩ :: t := by
  obtain ⟨s1, rfl, on1, st1, i⟩ := k
  rw [resolve_some st1]; exact ⟨on1, st1⟩

/-- The events of a call. -/
theorem call_run (c : N) (k : Kind) (off : Bool) (args : List (Expr N V)) (res : Option V) (s : St N V) :
    run s (Expr.call c k off args res).events = run (run (before c k args.length s) (argEvents args))
      (callEnd off res (values args)) := by
  rw [Expr.events, List.cons_append, run_cons, run_append]; rfl

theorem call_lib (c : N) (off : Bool) (args : List (Expr N V)) (res : Option V)
    (E : ∀ e ∈ args, ∀ q h s, Inv q h s → Good q h (made e) e.value.isSome (quiet e) (strict e) s (run s e.events))
    {q : Prop} {h : List (Made N V)} {s : St N V} (i : Inv q h s) (hon : s.on = true) :
    Good q h (made (.call c .lib off args res)) (Expr.value (.call c .lib off args res)).isSome (quiet (.call c .lib off args res))
      (strict (.call c .lib off args res)) s (run s (Expr.call c .lib off args res).events) := by
  rw [call_run]
  have O : ∀ e es', e :: es' <:+ args → ∀ q h s, Inv q h s →
      Good q h (madeAll es') (values es').isSome (quietAll es') (strictAll es') s (run s (opEvents es')) := fun e es' x =>
    ops_good es' fun e' m => E e' (x.subset (List.mem_cons_of_mem _ m))
  have qs : quiet (.call c .lib off args res) = true → strictAll args = true ∧ (off = true → res.isSome = true) := fun x => by
    simp only [quiet, Bool.and_eq_true, Bool.or_eq_true, Bool.not_eq_true'] at x
    refine ⟨x.1, fun y => ?_⟩
    rcases x.2 with z | z
    · rw [y] at z; cases z
    · exact z
  have i0 : Inv q h (push { s with cand := some { call := c } }) := i.same rfl rfl rfl
  have key : (values args = none → Inv (q ∧ strictAll args = true) (h ++ madeAll args) (run (before c .lib args.length s) (argEvents args)) ∧
        (strictAll args = true → (run (before c .lib args.length s) (argEvents args)).on = true)) ∧
      (∀ vs, values args = some vs →
        Taken (q ∧ strictAll args = true) (h ++ madeAll args) c vs s.stack (run (before c .lib args.length s) (argEvents args)) ∨
        (strictAll args = false ∧ (run (before c .lib args.length s) (argEvents args)).on = true ∧
          (run (before c .lib args.length s) (argEvents args)).stack = [] ∧
          Inv False (h ++ madeAll args) (run (before c .lib args.length s) (argEvents args)))) := by
    cases args with
    | nil =>
      refine ⟨by simp [values], fun vs x => .inl ⟨push { s with cand := some { call := c } }, ?_, hon, ?_, ?_⟩⟩
      · simp [before, hon, argEvents]
      · have : vs = [] := by simpa [values] using x.symm
        rw [this]; rfl
      · simp only [madeAll, List.append_nil]; exact i0.mono (·.1)
    | cons e es =>
      have : before c .lib (e :: es).length s = push { s with cand := some { call := c } } := by simp [before, hon]
      rw [this]
      have := argEvents_lib (e :: es) (by simp) E O _ _ _ c [] s.stack i0 hon rfl
      simpa using this
  generalize run (before c .lib args.length s) (argEvents args) = s' at key ⊢
  cases hv : values args with
  | none =>
    obtain ⟨k1, k2⟩ := key.1 hv
    have m : made (.call c .lib off args res) = madeAll args := by simp [made, hv, here]
    have v : (Expr.value (.call c .lib off args res)).isSome = false := by simp [Expr.value, hv]
    rw [m, v]
    refine ⟨k1.mono fun ⟨a, b, _⟩ => ⟨a, (qs b).1⟩, fun a _ => k2 (qs a).1, by simp, by simp, by simp⟩
  | some vs =>
    have m : made (.call c .lib off args res) = madeAll args ++ [⟨c, vs, res⟩] := by simp [made, hv, here]
    have v : Expr.value (.call c .lib off args res) = res := by simp [Expr.value, hv]
    rw [m, v]
    clear v
    rcases key.2 vs hv with k | ⟨ns, k1, k2, k3⟩
    · obtain ⟨o, st⟩ := taken_on k
      refine ⟨?_, ?_, ?_, ?_, ?_⟩
      · rw [← List.append_assoc]
        exact (taken_end k off res vs).mono fun ⟨a, b, _⟩ => ⟨a, (qs b).1⟩
      · intro a _
        cases res with
        | some v => exact call_on off v _
        | none =>
          have := (qs a).2
          cases off with
          | true => simp at this
          | false => exact o
      · intro a _
        cases res with
        | none => simp at a
        | some v =>
          refine ⟨call_on off v _, ?_⟩
          rw [call_stack, st, o]
          cases off <;> simp
      · intro _ x; rw [hon] at x; cases x
      · intro a _ b
        cases res with
        | none => simp at a
        | some v =>
          simp only [strict, Bool.and_eq_true, Bool.not_eq_true'] at b
          rw [call_stack, st, o, b.1.2]; rfl
    · have nq : quiet (.call c .lib off args res) ≠ true := fun x => by rw [(qs x).1] at ns; cases ns
      refine ⟨?_, fun a => absurd a nq, ?_, ?_, ?_⟩
      · rw [← List.append_assoc]
        exact (call_end k3 off res vs).weaken _ fun x => nq x.2.1
      · intro a _
        cases res with
        | none => simp at a
        | some v =>
          refine ⟨call_on off v _, ?_⟩
          rw [call_stack, k2]; simp
      · intro _ x; rw [hon] at x; cases x
      · intro _ _ b
        simp only [strict, Bool.and_eq_true] at b
        rw [b.2] at ns; cases ns

/-- A call that has no candidate, from what is known about its arguments. -/
theorem call_other (c : N) (k : Kind) (off : Bool) (args : List (Expr N V)) (res : Option V)
    {q : Prop} {h : List (Made N V)} {s s0 : St N V} {qa : Bool} (h0 : before c k args.length s = s0)
    (g : Good q h (madeAll args) (values args).isSome qa (strictAll args) s0 (run s0 (argEvents args)))
    (hm : s.on = true → here c k (values args) res = [])
    (hq : s.on = true → quiet (.call c k off args res) = true → qa = true ∧ s0.on = true ∧ (off = true → res.isSome = true))
    (h1 : s0.on = true → s0.stack = none :: s.stack)
    (h2 : s.on = false → s0 = s)
    (h3 : s0.on = false → s.on = true → k = .odd) :
    Good q h (made (.call c k off args res)) (Expr.value (.call c k off args res)).isSome (quiet (.call c k off args res))
      (strict (.call c k off args res)) s (run s (Expr.call c k off args res).events) := by
  rw [call_run, h0]
  generalize run s0 (argEvents args) = s' at g ⊢
  have hinv : ∀ s'' : St N V, Inv (q ∧ qa = true ∧ s0.on = true) (h ++ madeAll args) s'' →
      Inv (q ∧ quiet (.call c k off args res) = true ∧ s.on = true) (h ++ made (.call c k off args res)) s'' := fun s'' i => by
    cases hs : s.on with
    | true =>
      rw [made, hm hs, List.append_nil]
      exact i.mono fun ⟨a, b, _⟩ => ⟨a, (hq hs b).1, (hq hs b).2.1⟩
    | false =>
      rw [made, ← List.append_assoc]
      exact i.weaken _ (by simp)
  cases hv : values args with
  | none =>
    have v : (Expr.value (.call c k off args res)).isSome = false := by simp [Expr.value, hv]
    rw [v]
    rw [hv] at g
    exact ⟨hinv _ g.inv, fun a b => g.on (hq b a).1 (hq b a).2.1, by simp, by simp, by simp⟩
  | some vs =>
    have v : Expr.value (.call c k off args res) = res := by simp [Expr.value, hv]
    rw [v]
    rw [hv] at g
    clear v
    refine ⟨hinv _ (call_end g.inv off res vs), ?_, ?_, ?_, ?_⟩
    · intro a b
      cases res with
      | some v => exact call_on off v _
      | none =>
        obtain ⟨x, y, z⟩ := hq b a
        cases off with
        | true => simp at z
        | false => exact g.on x y
    · intro a b
      cases res with
      | none => simp at a
      | some v =>
        refine ⟨call_on off v _, ?_⟩
        rw [call_stack]
        cases h0' : s0.on with
        | true =>
          obtain ⟨x, y⟩ := g.stack rfl h0'
          rw [x]
          rcases y with y | y
          · rw [y, h1 h0']; cases off <;> simp
          · rw [y]; simp
        | false =>
          rcases g.off rfl h0' with ⟨x, y⟩ | ⟨x, y⟩
          · rw [x]; simp
          · rw [y]; simp
    · intro a b
      cases res with
      | none => simp at a
      | some v =>
        refine .inr ⟨call_on off v _, ?_⟩
        rw [call_stack]
        have e := h2 b
        rcases g.off rfl (by rw [e, b]) with ⟨x, y⟩ | ⟨x, y⟩
        · rw [x]; simp
        · rw [y]; simp
    · intro a b d
      simp only [strict, Bool.and_eq_true, Bool.not_eq_true', decide_eq_true_eq] at d
      cases res with
      | none => simp at a
      | some v =>
        have h0' : s0.on = true := by
          cases y : s0.on with
          | true => rfl
          | false => exact absurd (h3 y b) d.1.1
        rw [call_stack, (g.stack rfl h0').1, g.strict rfl h0' d.2, h1 h0', d.1.2]; rfl

theorem call_good (c : N) (k : Kind) (off : Bool) (args : List (Expr N V)) (res : Option V)
    (E : ∀ e ∈ args, ∀ q h s, Inv q h s → Good q h (made e) e.value.isSome (quiet e) (strict e) s (run s e.events))
    {q : Prop} {h : List (Made N V)} {s : St N V} (i : Inv q h s) :
    Good q h (made (.call c k off args res)) (Expr.value (.call c k off args res)).isSome (quiet (.call c k off args res))
      (strict (.call c k off args res)) s (run s (Expr.call c k off args res).events) := by
  cases hs : s.on with
  | false =>
    have h0 : before c k args.length s = s := by simp [before, hs]
    refine call_other c k off args res h0 (call_plain args E i (.inl hs)) ?_ ?_ ?_ (fun _ => rfl) ?_
    all_goals (intro x; try rw [hs] at x; try cases x)
    all_goals (intro x; rw [hs] at x; cases x)
  | true =>
    cases k with
    | lib => exact call_lib c off args res E i hs
    | own =>
      have h0 : before c .own args.length s = push { s with cand := none } := by
        cases args <;> simp [before, hs, push, resolve]
      refine call_other c .own off args res h0 (call_plain args E (i.same rfl rfl rfl) (.inr (.inr ⟨_, rfl⟩))) ?_ ?_ ?_ ?_ ?_
      · intro _; simp [here]
      · intro _ a
        simp only [quiet, Bool.and_eq_true, Bool.or_eq_true, Bool.not_eq_true'] at a
        refine ⟨a.1, hs, fun y => ?_⟩
        rcases a.2 with z | z
        · rw [y] at z; cases z
        · exact z
      · intro _; rfl
      · intro x; rw [hs] at x; cases x
      · intro x; exact absurd (show s.on = false from x) (by simp [hs])
    | odd =>
      have h0 : before c .odd args.length s = { s with on := false } := by simp [before, hs]
      have i0 : Inv q h { s with on := false } := i.same rfl rfl rfl
      have nc : NC { s with on := false } := .inl rfl
      have g := call_plain args E i0 nc
      by_cases p : plainAll args = true
      · obtain ⟨a, b, hval⟩ := plainAll_made args p
        have r : run { s with on := false } (argEvents args) = { s with on := false } := by
          rw [argEvents_nc args E _ _ _ i0 nc, b]; rfl
        rw [call_run, h0, r]
        have m : made (.call c .odd off args res) = [] := by simp [made, a, here]
        have hi : ∀ s' : St N V, Inv q h s' → Inv (q ∧ quiet (.call c .odd off args res) = true ∧ s.on = true) (h ++ made (.call c .odd off args res)) s' := fun s' i => by
          rw [m, List.append_nil]; exact i.mono (·.1)
        cases hv : values args with
        | none => rw [hv] at hval; cases hval
        | some vs =>
          have v : Expr.value (.call c .odd off args res) = res := by simp [Expr.value, hv]
          rw [v]; clear v
          refine ⟨hi _ (call_end i0 off res vs), fun x _ => ?_, fun x _ => ?_, fun _ x => ?_, fun _ _ x => ?_⟩
          · simp only [quiet, Bool.and_eq_true] at x
            obtain ⟨v, rfl⟩ := Option.isSome_iff_exists.1 x.2
            exact call_on off v _
          · obtain ⟨v, rfl⟩ := Option.isSome_iff_exists.1 x
            exact ⟨call_on off v _, .inr (by rw [call_stack]; simp)⟩
          · rw [hs] at x; cases x
          · simp [strict] at x
      · refine call_other c .odd off args res h0 g ?_ ?_ ?_ ?_ ?_
        · intro _; simp [here]
        · intro _ a; simp only [quiet, Bool.and_eq_true] at a; exact absurd a.1 p
        · intro x; exact absurd (show false = true from x) (by simp)
        · intro x; rw [hs] at x; cases x
        · intro _ _; rfl

mutual
theorem expr_good : ∀ (e : Expr N V) (q : Prop) (h : List (Made N V)) (s : St N V), Inv q h s →
    Good q h (made e) e.value.isSome (quiet e) (strict e) s (run s e.events)
  | .leaf _, q, h, s, i => by simpa [made, Expr.events] using Good.refl i
  | .op v args, q, h, s, i => by
    have g := ops_good args (all_good args) q h s i
    have : (Expr.value (.op v args)).isSome = (values args).isSome := by simp [Expr.value]
    rw [this]
    simpa only [made, Expr.events, quiet, strict] using g
  | .call c k off args res, q, h, s, i => call_good c k off args res (all_good args) i
theorem all_good : ∀ (es : List (Expr N V)), ∀ e ∈ es, ∀ (q : Prop) (h : List (Made N V)) (s : St N V), Inv q h s →
    Good q h (made e) e.value.isSome (quiet e) (strict e) s (run s e.events)
  | [] => fun _ m => nomatch m
  | e :: es => List.forall_mem_cons.2 ⟨expr_good e, all_good es⟩
end

theorem callEnd_iter (off : Bool) (res : Option V) (vs : Option (List V)) : ∀ x ∈ (callEnd off res vs : List (Ev N V)), ∀ p, x ≠ .iter p := by
  cases vs <;> cases res <;> simp [callEnd]

mutual
theorem no_iter : ∀ (e : Expr N V), ∀ x ∈ e.events, ∀ p, x ≠ .iter p
  | .leaf _ => by simp [Expr.events]
  | .op _ args => by rw [Expr.events]; exact no_iter_ops args
  | .call c k off args res => by
    rw [Expr.events]
    intro x m p
    simp only [List.cons_append, List.mem_cons, List.mem_append] at m
    rcases m with rfl | m | m
    · simp
    · exact no_iter_args args x m p
    · exact callEnd_iter off res _ x m p
theorem no_iter_ops : ∀ (es : List (Expr N V)), ∀ x ∈ opEvents es, ∀ p, x ≠ .iter p
  | [] => by simp [opEvents]
  | e :: es => by
    rw [opEvents]
    intro x m p
    rcases List.mem_append.1 m with m | m
    · exact no_iter e x m p
    · split at m
      · exact no_iter_ops es x m p
      · cases m
theorem no_iter_args : ∀ (es : List (Expr N V)), ∀ x ∈ argEvents es, ∀ p, x ≠ .iter p
  | [] => by simp [argEvents]
  | e :: es => by
    rw [argEvents]
    intro x m p
    rcases List.mem_append.1 m with m | m
    · exact no_iter e x m p
    · split at m
      · cases m
      · rcases List.mem_cons.1 m with rfl | m
        · simp
        · exact no_iter_args es x m p
end

/-- What is claimed about a statement; `v` says that it comes to its end. -/
structure Fine (q : Prop) (h m : List (Made N V)) (v qu : Bool) (s s' : St N V) : Prop where
  inv : Inv (q ∧ qu = true ∧ s.on = true) (h ++ m) s'
  on : qu = true → s.on = true → s'.on = true
  calls : v = true → s'.calls = []

theorem start_inv {q : Prop} {h : List (Made N V)} {s : St N V} (i : Inv q h s) : Inv (q ∧ s.on = true) h (start s) := by
  unfold start
  cases hs : s.on with
  | true => exact i.mono (·.1)
  | false =>
    obtain ⟨l, a, b, c, d⟩ := i
    simp only [Bool.false_eq_true, if_false]
    refine ⟨l.take s.log.length, (List.take_sublist _ _).trans a, by simp, ?_, by simp [reset]⟩
    show List.Forall₂ Of ((enable s).log ++ []) _
    rw [enable_log, List.append_nil]
    have := List.forall₂_take s.log.length c
    simpa using this

theorem start_on (s : St N V) : (start s).on = true := by
  unfold start
  split
  · assumption
  · exact enable_on s

theorem finish_inv {q : Prop} {h : List (Made N V)} {s : St N V} (i : Inv q h s) : Inv q h (finish s) := by
  obtain ⟨l, a, b, c, d⟩ := i
  refine ⟨l, a, b, ?_, by simp [finish, reset]⟩
  show List.Forall₂ Of ((enable s).log ++ (enable s).calls ++ []) l
  rw [enable_log, enable_calls, List.append_nil]; exact c

theorem finish_on (s : St N V) : (finish s).on = true := enable_on s

theorem iter_same (p : Bool) (s : St N V) :
    (iter p s).log = s.log ∧ (iter p s).calls = s.calls ∧ (iter p s).pending = s.pending ∧ (iter p s).on = s.on := by
  unfold iter; split <;> exact ⟨rfl, rfl, rfl, rfl⟩

theorem simple_fine (e : Expr N V) (ends : List (Ev N V)) (hends : ends = [.finish] ∨ ∃ p, ends = [.iter p, .finish])
    {q : Prop} {h : List (Made N V)} {s : St N V} (i : Inv q h s) :
    Fine q h (made e) e.value.isSome (quiet e) s (run s (.start :: e.events ++ (if e.value.isSome then ends else []))) := by
  rw [List.cons_append, run_cons, run_append]
  have g := expr_good e _ _ _ (start_inv i)
  have so := start_on s
  show Fine _ _ _ _ _ _ (run (run (start s) e.events) _)
  generalize run (start s) e.events = s' at g ⊢
  have w : q ∧ quiet e = true ∧ s.on = true → (q ∧ s.on = true) ∧ quiet e = true ∧ (start s).on = true :=
    fun ⟨a, b, c⟩ => ⟨⟨a, c⟩, b, so⟩
  cases hv : e.value.isSome with
  | false => exact ⟨g.inv.mono w, fun a _ => g.on a so, by simp⟩
  | true =>
    simp only [if_true]
    rcases hends with rfl | ⟨p, rfl⟩
    · exact ⟨finish_inv (g.inv.mono w), fun _ _ => finish_on _, fun _ => rfl⟩
    · obtain ⟨a, b, c, d⟩ := iter_same p s'
      exact ⟨finish_inv ((g.inv.mono w).same a b c), fun _ _ => finish_on _, fun _ => rfl⟩

mutual
theorem stmt_fine : ∀ (x : Stmt N V) (q : Prop) (h : List (Made N V)) (s : St N V), Inv q h s →
    Fine q h (stmtMade x) x.ok (stmtQuiet x) s (run s x.events)
  | .simple e, q, h, s, i => by
    have := simple_fine e [.finish] (.inl rfl) i
    simpa only [stmtMade, Stmt.ok, stmtQuiet, Stmt.events] using this
  | .for e p, q, h, s, i => by
    have := simple_fine e [.iter p, .finish] (.inr ⟨p, rfl⟩) i
    simpa only [stmtMade, Stmt.ok, stmtQuiet, Stmt.events] using this
  | .try b hd, q, h, s, i => by
    rw [Stmt.events, stmtMade, Stmt.ok, stmtQuiet, List.cons_append, run_cons, run_append]
    have g := block_fine b _ _ _ (start_inv i)
    have so := start_on s
    show Fine _ _ _ _ _ _ (run (run (start s) (allEvents b)) _)
    generalize run (start s) (allEvents b) = s' at g ⊢
    have w : q ∧ (blockQuiet b && blockQuiet hd) = true ∧ s.on = true → (q ∧ s.on = true) ∧ blockQuiet b = true ∧ (start s).on = true :=
      fun ⟨a, b, c⟩ => ⟨⟨a, c⟩, (Bool.and_eq_true _ _ ▸ b).1, so⟩
    cases hb : okAll b with
    | true =>
      simp only [if_true, List.append_nil, Bool.true_or]
      exact ⟨finish_inv (g.inv.mono w), fun _ _ => finish_on _, fun _ => rfl⟩
    | false =>
      simp only [Bool.false_eq_true, if_false, Bool.false_or]
      rw [run_append, ← List.append_nil (blockMade hd)]
      have g2 := block_fine hd _ _ _ g.inv
      generalize run s' (allEvents hd) = s'' at g2 ⊢
      have w2 : q ∧ (blockQuiet b && blockQuiet hd) = true ∧ s.on = true →
          ((q ∧ s.on = true) ∧ blockQuiet b = true ∧ (start s).on = true) ∧ blockQuiet hd = true ∧ s'.on = true := fun x =>
        ⟨w x, (Bool.and_eq_true _ _ ▸ x.2.1).2, g.on (w x).2.1 so⟩
      rw [List.append_nil]
      have inv : Inv (q ∧ (blockQuiet b && blockQuiet hd) = true ∧ s.on = true) (h ++ (blockMade b ++ blockMade hd)) s'' := by
        rw [← List.append_assoc]; exact g2.inv.mono w2
      cases hh : okAll hd with
      | true => exact ⟨finish_inv inv, fun _ _ => finish_on _, fun _ => rfl⟩
      | false =>
        refine ⟨inv, fun a _ => ?_, by simp⟩
        simp only [Bool.and_eq_true] at a
        exact g2.on a.2 (g.on a.1 so)
theorem block_fine : ∀ (b : List (Stmt N V)) (q : Prop) (h : List (Made N V)) (s : St N V), Inv q h s →
    Fine q h (blockMade b) (okAll b && s.calls.isEmpty) (blockQuiet b) s (run s (allEvents b))
  | [], q, h, s, i => by
    refine ⟨?_, fun _ h => h, fun a => ?_⟩
    · simpa [blockMade, allEvents] using i.mono (·.1)
    · simpa [okAll, allEvents] using a
  | x :: xs, q, h, s, i => by
    rw [allEvents, blockMade, okAll, blockQuiet, run_append]
    have g := stmt_fine x q h s i
    generalize run s x.events = s' at g ⊢
    cases hx : x.ok with
    | false =>
      simp only [Bool.false_eq_true, if_false, List.append_nil, Bool.false_and, run_nil]
      refine ⟨g.inv.mono fun ⟨a, b, c⟩ => ⟨a, (Bool.and_eq_true _ _ ▸ b).1, c⟩, fun a b => g.on (Bool.and_eq_true _ _ ▸ a).1 b, by simp⟩
    | true =>
      simp only [if_true, Bool.true_and]
      have g2 := block_fine xs _ _ _ g.inv
      refine ⟨?_, fun a b => ?_, fun a => ?_⟩
      · rw [← List.append_assoc]
        exact g2.inv.mono fun ⟨a, b, c⟩ => ⟨⟨a, (Bool.and_eq_true _ _ ▸ b).1, c⟩, (Bool.and_eq_true _ _ ▸ b).2, g.on (Bool.and_eq_true _ _ ▸ b).1 c⟩
      · rw [Bool.and_eq_true] at a
        exact g2.on a.2 (g.on a.1 b)
      · rw [Bool.and_eq_true] at a
        exact g2.calls (by rw [a.1, g.calls hx]; rfl)
end

theorem ran_fine (b : List (Stmt N V)) : Fine True [] (blockMade b) (okAll b) (blockQuiet b) {} (ran b) := by
  have i : Inv True [] ({} : St N V) := ⟨[], List.Sublist.refl _, fun _ => rfl, .nil, by simp⟩
  have g := block_fine b True [] {} i
  exact ⟨g.inv, g.on, fun a => g.calls (by rw [a]; rfl)⟩

theorem call_calls (c : N) (off : Bool) (args : List (Expr N V)) (v : V) {vs : List V} {s : St N V} {q : Prop} {h : List (Made N V)} (i : Inv q h s)
    (hon : s.on = true) (hv : values args = some vs) (hs : strictAll args = true) :
    (run s (Expr.call c .lib off args (some v)).events).calls.getLast? = some ⟨c, vs, some v⟩ := by
  have g : Taken (q ∧ strictAll args = true) (h ++ madeAll args) c vs s.stack (run (before c .lib args.length s) (argEvents args)) := by
    have i0 : Inv q h (push { s with cand := some { call := c } }) := i.same rfl rfl rfl
    cases args with
    | nil =>
      refine ⟨push { s with cand := some { call := c } }, ?_, hon, ?_, ?_⟩
      · simp [before, hon, argEvents]
      · have : vs = [] := by simpa [values] using hv.symm
        rw [this]; rfl
      · simp only [madeAll, List.append_nil]; exact i0.mono (·.1)
    | cons e es =>
      have : before c .lib (e :: es).length s = push { s with cand := some { call := c } } := by simp [before, hon]
      rw [this]
      have O : ∀ e' es', e' :: es' <:+ e :: es → ∀ q h s, Inv q h s →
          Good q h (madeAll es') (values es').isSome (quietAll es') (strictAll es') s (run s (opEvents es')) := fun _ es' _ =>
        ops_good es' (all_good es')
      rcases (argEvents_lib (e :: es) (by simp) (all_good _) O _ _ _ c [] s.stack i0 hon rfl).2 vs hv with k | k
      · simpa using k
      · rw [hs] at k; cases k.1
  obtain ⟨s1, e, on1, st1, _⟩ := g
  rw [call_run, e, hv, resolve_some st1]
  show (after v (if off then _ else _)).calls.getLast? = _
  have := (after_pending (s := if off then { ({ s1 with calls := s1.calls ++ [⟨c, vs, none⟩], pending := true } : St N V) with on := false }
    else { s1 with calls := s1.calls ++ [⟨c, vs, none⟩], pending := true }) (xs := s1.calls) (r := ⟨c, vs, none⟩)
    (by split <;> rfl) (by split <;> rfl) v).2.1
  rw [this]; simp

theorem ran_snoc (b : List (Stmt N V)) (x : Stmt N V) (hb : okAll b = true) : ran (b ++ [x]) = run (ran b) x.events := by
  have : ∀ b : List (Stmt N V), okAll b = true → allEvents (b ++ [x]) = allEvents b ++ x.events := by
    intro b
    induction b with
    | nil => intro _; simp [allEvents]
    | cons y ys ih =>
      intro h
      rw [okAll, Bool.and_eq_true] at h
      simp [allEvents, h.1, ih h.2, List.append_assoc]
  unfold ran
  rw [this b hb, run_append]

end Verif.Pending
