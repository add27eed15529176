import Verif.Annot.Model
import Mathlib.Data.List.Nodup

/-!
# C97: what an annotated call updates
-/

namespace Verif.Annot

variable {N S : Type} [DecidableEq N]

/-! ## Specification -/

/-- The parameters that take arguments by position; the first one of a method is taken by the receiver. -/
def params (f : Sig N) (method : Bool) : List N := if method then (f.posonly ++ f.args).tail else f.posonly ++ f.args

/-- The arguments of a call, one by one, starred ones spread out. -/
def values (c : Call N S) : List (List S) := c.args.flatMap fun a => List.replicate a.1 a.2

/-- Python passes an argument with these symbols for the parameter `p`. -/
def Passed (f : Sig N) (method : Bool) (c : Call N S) (p : N) (syms : List S) : Prop :=
  (∃ i : Nat, (params f method)[i]? = some p ∧ (values c)[i]? = some syms) ∨ (p ∉ f.posonly ∧ c.kwargs p = some syms)

/-- Python accepts signature and call: names are distinct, and no parameter is given twice. -/
structure Legal (f : Sig N) (method : Bool) (c : Call N S) : Prop where
  names : (f.posonly ++ f.args ++ f.kwonly).Nodup
  once : ∀ (i : Nat) p, (params f method)[i]? = some p → i < (values c).length → p ∉ f.posonly → c.kwargs p = none

/-- The update `e` is one that the annotation asks for. -/
def Means (f : Sig N) (method overwrite : Bool) (c : Call N S) (e : Effect S) : Target N → Prop
  | .module => e = .module overwrite
  | .self => e = .caller overwrite
  | .name p => ∃ syms s, Passed f method c p syms ∧ s ∈ syms ∧ e = .sym s overwrite

/-- The targets of an annotation. -/
def targets : Target N ⊕ List (Target N) → List (Target N)
  | .inl t => [t]
  | .inr ts => ts

/-- Targets that make sense: `self` in methods, and parameters other than the receiver. -/
def Known (f : Sig N) (method : Bool) : Target N → Prop
  | .module => True
  | .self => method = true
  | .name p => p ∈ f.posonly ++ f.args ++ f.kwonly ∧ (method = true → (f.posonly ++ f.args).head? ≠ some p)

/-- No argument is starred. -/
def NoStar (c : Call N S) : Prop := ∀ a ∈ c.args, a.1 = 1

/-- No argument has two symbols. -/
def Single (c : Call N S) : Prop := (∀ a ∈ c.args, a.2.length ≤ 1) ∧ ∀ n syms, c.kwargs n = some syms → syms.length ≤ 1

/-! ## Proofs -/

theorem indexFrom_some {n : N} : ∀ {l : List N} {i : Nat}, n ∈ l → ∃ k, indexFrom n l i = some (i + k) ∧ l[k]? = some n
  | x :: l, i, h => by
    unfold indexFrom
    by_cases hx : x = n
    · exact ⟨0, by rw [if_pos hx]; rfl, by simp [hx]⟩
    · rw [if_neg hx]
      have hn : n ∈ l := by
        rcases List.mem_cons.1 h with h1 | h1
        · exact absurd h1.symm hx
        · exact h1
      obtain ⟨k, h1, h2⟩ := indexFrom_some (i := i + 1) hn
      exact ⟨k + 1, by rw [h1]; congr 1; omega, by simpa using h2⟩

omit [DecidableEq N] in
theorem values_plain {c : Call N S} (h : NoStar c) : values c = c.args.map (·.2) := by
  unfold values
  have key : ∀ l : List (Nat × List S), (∀ a ∈ l, a.1 = 1) → (l.flatMap fun a => List.replicate a.1 a.2) = l.map (·.2) := by
    intro l
    induction l with
    | nil => intro _; rfl
    | cons a l ih =>
      intro hl
      rw [List.flatMap_cons, ih (fun b hb => hl b (List.mem_cons_of_mem _ hb)), hl a (List.mem_cons_self ..)]
      rfl
  exact key _ h

omit [DecidableEq N] in
theorem params_index {f : Sig N} {method : Bool} {p : N} {k : Nat} (hk : (f.posonly ++ f.args)[k]? = some p)
    (hm : method = true → (f.posonly ++ f.args).head? ≠ some p) :
    ∃ j : Nat, (params f method)[j]? = some p ∧ ((k : Int) - if method then 1 else 0) = j := by
  cases method with
  | false => exact ⟨k, hk, by simp⟩
  | true =>
    cases k with
    | zero => exact absurd (by rw [List.head?_eq_getElem?]; exact hk) (hm rfl)
    | succ k => exact ⟨k, by unfold params; simpa using hk, by simp⟩

theorem mem_first {o : Bool} {l : List S} {e : Effect S} : e ∈ first o l → ∃ s ∈ l, e = .sym s o := by
  cases l with
  | nil => intro h; cases h
  | cons s l => intro h; exact ⟨s, List.mem_cons_self .., List.mem_singleton.1 h⟩

theorem first_mem {o : Bool} {l : List S} (hl : l.length ≤ 1) {s : S} (hs : s ∈ l) : (.sym s o : Effect S) ∈ first o l := by
  cases l with
  | nil => cases hs
  | cons a l =>
    cases l with
    | nil => rw [List.mem_singleton.1 hs]; exact List.mem_singleton.2 rfl
    | cons b l => simp at hl

omit [DecidableEq N] in
theorem handleOne_arg (c : Call N S) (p : Option Int) (n : Option N) (o : Bool) : handleOne c (some (.arg p n o)) = handleArg p n o c := rfl

/-- What one target does. -/
theorem target_ok {f : Sig N} {method overwrite : Bool} {c : Call N S} (hl : Legal f method c) (hs : NoStar c) {t : Target N} (ht : Known f method t) :
    ∃ h effs, nameHandler f method overwrite t = .ok (some h) ∧ handleOne c (some h) = .ok effs ∧
      (∀ e ∈ effs, Means f method overwrite c e t) ∧ (Single c → ∀ e, Means f method overwrite c e t → e ∈ effs) := by
  cases t with
  | module => exact ⟨.module overwrite, [.module overwrite], rfl, rfl, fun e he => List.mem_singleton.1 he, fun _ e he => List.mem_singleton.2 he⟩
  | self =>
    refine ⟨.caller overwrite, [.caller overwrite], ?_, rfl, fun e he => List.mem_singleton.1 he, fun _ e he => List.mem_singleton.2 he⟩
    have hm : method = true := ht
    simp only [nameHandler, hm, if_true]
  | name p =>
    obtain ⟨hp, hm⟩ := ht
    obtain ⟨k, hk, hkp⟩ := indexFrom_some (i := 0) hp
    rw [Nat.zero_add] at hk
    have hv := values_plain hs
    have hklt : k < (f.posonly ++ f.args ++ f.kwonly).length := (List.getElem?_eq_some_iff.1 hkp).1
    have huniq : ∀ i : Nat, (f.posonly ++ f.args ++ f.kwonly)[i]? = some p → i = k := by
      intro i hi
      have h1 := (List.getElem?_eq_some_iff.1 hi)
      have h2 := (List.getElem?_eq_some_iff.1 hkp)
      exact (List.Nodup.getElem_inj_iff hl.names).1 (h1.2.trans h2.2.symm)
    -- positional-only or not
    have hpo : k < f.posonly.length ↔ p ∈ f.posonly := by
      constructor
      · intro h
        rw [List.append_assoc, List.getElem?_append_left h] at hkp
        exact List.mem_of_getElem? hkp
      · intro h
        obtain ⟨i, hi⟩ := List.mem_iff_getElem?.1 h
        have hil := (List.getElem?_eq_some_iff.1 hi).1
        have : (f.posonly ++ f.args ++ f.kwonly)[i]? = some p := by
          rw [List.append_assoc, List.getElem?_append_left hil]; exact hi
        rw [← huniq i this]; exact hil
    have hpar : ∀ i : Nat, (params f method)[i]? = some p → k < f.posonly.length + f.args.length := by
      intro i hi
      have h1 : p ∈ f.posonly ++ f.args := by
        have h2 := List.mem_of_getElem? hi
        unfold params at h2
        split at h2
        · exact List.mem_of_mem_tail h2
        · exact h2
      obtain ⟨j, hj⟩ := List.mem_iff_getElem?.1 h1
      have hjl := (List.getElem?_eq_some_iff.1 hj).1
      have : (f.posonly ++ f.args ++ f.kwonly)[j]? = some p := by rw [List.getElem?_append_left hjl]; exact hj
      rw [← huniq j this]
      simpa using hjl
    have hpos : ∃ pos, position f p method = .ok (pos, decide (p ∈ f.posonly)) ∧
        ((∃ j : Nat, pos = some (j : Int) ∧ (params f method)[j]? = some p) ∨ (pos = none ∧ ∀ i : Nat, (params f method)[i]? ≠ some p)) := by
      unfold position
      rw [hk]
      by_cases hlt : k < f.posonly.length + f.args.length
      · have hge : ¬ k ≥ f.posonly.length + f.args.length := by omega
        have hkp' : (f.posonly ++ f.args)[k]? = some p := by
          rw [List.getElem?_append_left (by simpa using hlt)] at hkp; exact hkp
        obtain ⟨j, hj1, hj2⟩ := params_index hkp' hm
        refine ⟨some j, ?_, .inl ⟨j, rfl, hj1⟩⟩
        simp only [if_neg hge, hj2]
        rw [decide_eq_decide.2 hpo]
      · have hge : k ≥ f.posonly.length + f.args.length := by omega
        refine ⟨none, ?_, .inr ⟨rfl, fun i hi => hlt (hpar i hi)⟩⟩
        simp only [if_pos hge]
        rw [decide_eq_decide.2 hpo]
    obtain ⟨pos, hpos, hcase⟩ := hpos
    refine ⟨.arg pos (if p ∈ f.posonly then none else some p) overwrite, ?_⟩
    have hn : nameHandler f method overwrite (.name p) = .ok (some (.arg pos (if p ∈ f.posonly then none else some p) overwrite)) := by
      simp [nameHandler, hpos]
    -- passed by keyword?
    cases hkw : (if p ∈ f.posonly then none else some p : Option N).bind c.kwargs with
    | some syms =>
      have hnp : p ∉ f.posonly := by intro h; rw [if_pos h] at hkw; cases hkw
      have hkw' : c.kwargs p = some syms := by rw [if_neg hnp] at hkw; exact hkw
      have hh : handleOne c (some (.arg pos (if p ∈ f.posonly then none else some p) overwrite)) = .ok (first overwrite syms) := by
        rw [handleOne_arg]
        unfold handleArg
        rw [hkw]
      have hone : ∀ syms', Passed f method c p syms' → syms' = syms := by
        rintro syms' (⟨i, h1, h2⟩ | ⟨_, h2⟩)
        · have := hl.once i p h1 (List.getElem?_eq_some_iff.1 h2).1 hnp
          rw [hkw'] at this; cases this
        · rw [hkw'] at h2; exact (Option.some.inj h2).symm
      refine ⟨first overwrite syms, hn, hh, fun e he => ?_, fun hsg e he => ?_⟩
      · obtain ⟨s, h1, h2⟩ := mem_first he
        exact ⟨syms, s, .inr ⟨hnp, hkw'⟩, h1, h2⟩
      · obtain ⟨syms', s, h1, h2, rfl⟩ := he
        rw [hone syms' h1] at h2
        exact first_mem (hsg.2 p syms hkw') h2
    | none =>
      have hnk : ∀ syms', ¬ (p ∉ f.posonly ∧ c.kwargs p = some syms') := by
        rintro syms' ⟨h1, h2⟩
        rw [if_neg h1] at hkw
        change c.kwargs p = none at hkw
        rw [h2] at hkw; cases hkw
      rcases hcase with ⟨j, rfl, hj⟩ | ⟨rfl, hno⟩
      · -- by position
        have hjuniq : ∀ i : Nat, (params f method)[i]? = some p → i = j := by
          intro i hi
          have hnd : (params f method).Nodup := by
            have h1 : (f.posonly ++ f.args).Nodup := (List.nodup_append.1 hl.names).1
            unfold params
            split
            · exact h1.sublist (List.tail_sublist _)
            · exact h1
          have h1 := (List.getElem?_eq_some_iff.1 hi)
          have h2 := (List.getElem?_eq_some_iff.1 hj)
          exact (List.Nodup.getElem_inj_iff hnd).1 (h1.2.trans h2.2.symm)
        by_cases hlt : j < c.args.length
        · have hget : c.args[j]? = some c.args[j] := List.getElem?_eq_getElem hlt
          have hval : (values c)[j]? = some c.args[j].2 := by rw [hv, List.getElem?_map, hget]; rfl
          have hh : handleOne c (some (.arg (some (j : Int)) (if p ∈ f.posonly then none else some p) overwrite)) =
              .ok (first overwrite c.args[j].2) := by
            rw [handleOne_arg]
            unfold handleArg
            rw [hkw]
            simp only
            rw [if_pos (by omega)]
            unfold index
            rw [if_pos (by omega)]
            simp [hget]
          refine ⟨first overwrite c.args[j].2, hn, hh, fun e he => ?_, fun hsg e he => ?_⟩
          · obtain ⟨s, h1, h2⟩ := mem_first he
            exact ⟨_, s, .inl ⟨j, hj, hval⟩, h1, h2⟩
          · obtain ⟨syms', s, h1, h2, rfl⟩ := he
            rcases h1 with ⟨i, h3, h4⟩ | h3
            · rw [hjuniq i h3, hval] at h4
              rw [← Option.some.inj h4] at h2
              exact first_mem (hsg.1 _ (List.getElem_mem hlt)) h2
            · exact absurd h3 (hnk _)
        · have hh : handleOne c (some (.arg (some (j : Int)) (if p ∈ f.posonly then none else some p) overwrite)) = .ok [] := by
            rw [handleOne_arg]
            unfold handleArg
            rw [hkw]
            simp only
            rw [if_neg (by omega)]
          refine ⟨[], hn, hh, (by simp), fun _ e he => ?_⟩
          obtain ⟨syms', s, h1, h2, rfl⟩ := he
          rcases h1 with ⟨i, h3, h4⟩ | h3
          · rw [hjuniq i h3, hv] at h4
            have := (List.getElem?_eq_some_iff.1 h4).1
            rw [List.length_map] at this
            exact absurd this hlt
          · exact absurd h3 (hnk _)
      · have hh : handleOne c (some (.arg none (if p ∈ f.posonly then none else some p) overwrite)) = .ok [] := by
          rw [handleOne_arg]
          unfold handleArg
          rw [hkw]
        refine ⟨[], hn, hh, (by simp), fun _ e he => ?_⟩
        obtain ⟨syms', s, h1, h2, rfl⟩ := he
        rcases h1 with ⟨i, h3, h4⟩ | h3
        · exact absurd h3 (hno i)
        · exact absurd h3 (hnk _)

theorem mapM_ok {α β : Type} (g : α → Except Err β) (l : List α) (P : α → β → Prop) (h : ∀ a ∈ l, ∃ b, g a = .ok b ∧ P a b) :
    ∃ bs, l.mapM g = .ok bs ∧ List.Forall₂ P l bs := by
  induction l with
  | nil => exact ⟨[], rfl, .nil⟩
  | cons a l ih =>
    obtain ⟨b, h1, h2⟩ := h a (List.mem_cons_self ..)
    obtain ⟨bs, h3, h4⟩ := ih fun a ha => h a (List.mem_cons_of_mem _ ha)
    exact ⟨b :: bs, by simp [List.mapM_cons, h1, h3, bind, Except.bind, pure, Except.pure], .cons h2 h4⟩

/-- C97 in part. A call of an annotated function updates only what the annotation names, and all of it if no argument has two symbols. Missing: starred
arguments, arguments with two symbols, the receiver by another name than `self`, static methods, `self` in functions; see `args_violated_*`. -/
theorem args_partial {f : Sig N} {method overwrite : Bool} {c : Call N S} {t : Target N ⊕ List (Target N)} (hl : Legal f method c) (hs : NoStar c)
    (ht : ∀ x ∈ targets t, Known f method x) :
    ∃ effs, run f method overwrite t c = .ok (some effs) ∧ (∀ e ∈ effs, ∃ x ∈ targets t, Means f method overwrite c e x) ∧
      (Single c → ∀ x ∈ targets t, ∀ e, Means f method overwrite c e x → e ∈ effs) := by
  cases t with
  | inl t =>
    obtain ⟨h, effs, h1, h2, h3, h4⟩ := target_ok (overwrite := overwrite) hl hs (ht t (List.mem_singleton.2 rfl))
    refine ⟨effs, ?_, fun e he => ⟨t, List.mem_singleton.2 rfl, h3 e he⟩, fun hsg x hx e he => ?_⟩
    · simp [run, compile, h1, handle, h2, Except.map]
    · rw [List.mem_singleton.1 hx] at he; exact h4 hsg e he
  | inr ts =>
    have h1 : ∀ x ∈ ts, ∃ h, nameHandler f method overwrite x = .ok h ∧ ∃ effs, handleOne c h = .ok effs ∧
        (∀ e ∈ effs, Means f method overwrite c e x) ∧ (Single c → ∀ e, Means f method overwrite c e x → e ∈ effs) := by
      intro x hx
      obtain ⟨h, effs, h1, h2⟩ := target_ok (overwrite := overwrite) hl hs (ht x hx)
      exact ⟨some h, h1, effs, h2⟩
    obtain ⟨hs', h2, h3⟩ := mapM_ok _ ts _ h1
    have h4 : ∃ effs, hs'.mapM (handleOne c) = .ok effs ∧ (∀ l ∈ effs, ∀ e ∈ l, ∃ x ∈ ts, Means f method overwrite c e x) ∧
        (Single c → ∀ x ∈ ts, ∀ e, Means f method overwrite c e x → ∃ l ∈ effs, e ∈ l) := by
      clear h2 h1 ht
      induction h3 with
      | nil => exact ⟨[], rfl, by simp, by simp⟩
      | @cons x h ts hs hxh _ ih =>
        obtain ⟨effs, g1, g2, g3⟩ := hxh
        obtain ⟨l, k1, k2, k3⟩ := ih
        refine ⟨effs :: l, by simp [List.mapM_cons, g1, k1, bind, Except.bind, pure, Except.pure], ?_, ?_⟩
        · intro l' hl' e he
          rcases List.mem_cons.1 hl' with rfl | hl'
          · exact ⟨x, List.mem_cons_self .., g2 e he⟩
          · obtain ⟨y, hy, hm⟩ := k2 l' hl' e he
            exact ⟨y, List.mem_cons_of_mem _ hy, hm⟩
        · intro hsg y hy e he
          rcases List.mem_cons.1 hy with rfl | hy
          · exact ⟨effs, List.mem_cons_self .., g3 hsg e he⟩
          · obtain ⟨l', hl', he'⟩ := k3 hsg y hy e he
            exact ⟨l', List.mem_cons_of_mem _ hl', he'⟩
    obtain ⟨effs, h5, h6, h7⟩ := h4
    refine ⟨effs.flatten, ?_, fun e he => ?_, fun hsg x hx e he => ?_⟩
    · unfold run compile
      simp only [h2, Except.map]
      simp [handle, h5, Except.map]
    · obtain ⟨l, hl, he⟩ := List.mem_flatten.1 he
      exact h6 l hl e he
    · obtain ⟨l, hl, he⟩ := h7 hsg x hx e he
      exact List.mem_flatten.2 ⟨l, hl, he⟩

/-! ## Cases -/

/-- `def f(a, /, b, *, c)`. -/
def sig3 : Sig Nat := ⟨[0], [1], [2]⟩

/-- `f(x, c=z)` and `f(x, b=y)`: what `Mutate[b, c]` updates. -/
example : run sig3 false false (.inr [.name 1, .name 2]) ⟨[(1, [10])], fun n => if n = 2 then some [12] else none⟩ = .ok (some [.sym 12 false]) ∧
    run sig3 false false (.inr [.name 1, .name 2]) ⟨[(1, [10])], fun n => if n = 1 then some [11] else none⟩ = .ok (some [.sym 11 false]) :=
  ⟨rfl, rfl⟩

/-- A call that meets all conditions of `args_partial`. -/
example : Legal sig3 false (⟨[(1, [10]), (1, [11])], fun n => if n = 2 then some [12] else none⟩ : Call Nat Nat) ∧
    NoStar (⟨[(1, [10]), (1, [11])], fun n => if n = 2 then some [12] else none⟩ : Call Nat Nat) ∧
    (∀ x ∈ targets (.inr [.name 1, .name 2, .module]), Known sig3 false x) := by
  refine ⟨⟨by decide, ?_⟩, by simp [NoStar], ?_⟩
  · intro i p h1 h2 h3
    have : p ∈ [0, 1] := List.mem_of_getElem? h1
    simp only [List.mem_cons, List.not_mem_nil, or_false] at this
    rcases this with rfl | rfl <;> rfl
  · intro x hx
    simp only [targets, List.mem_cons, List.not_mem_nil, or_false] at hx
    rcases hx with rfl | rfl | rfl
    · exact ⟨by decide, fun h => by cases h⟩
    · exact ⟨by decide, fun h => by cases h⟩
    · trivial

/-- **C97 fails** for expressions: `f(x + y)` with `def f(a) -> Mutate[a]` updates `x` or `y`, whichever comes first, and not the other. -/
theorem args_violated_two : run (⟨[], [0], []⟩ : Sig Nat) false false (.inl (.name 0)) (⟨[(1, [10, 11])], fun _ => none⟩ : Call Nat Nat) =
    .ok (some [.sym 10 false]) ∧ Means (⟨[], [0], []⟩ : Sig Nat) false false (⟨[(1, [10, 11])], fun _ => none⟩ : Call Nat Nat) (.sym 11 false) (.name 0) :=
  ⟨rfl, [10, 11], 11, .inl ⟨0, rfl, rfl⟩, by decide, rfl⟩

/-- **C97 fails** for starred arguments: `f(*xs, y)` with `xs = [1, 2]` and `def f(a, b, c) -> Mutate[b]` updates `y`, which is passed for `c`. -/
theorem args_violated_star : run (⟨[], [0, 1, 2], []⟩ : Sig Nat) false false (.inl (.name 1)) (⟨[(2, [10]), (1, [11])], fun _ => none⟩ : Call Nat Nat) =
    .ok (some [.sym 11 false]) ∧
    ¬ Means (⟨[], [0, 1, 2], []⟩ : Sig Nat) false false (⟨[(2, [10]), (1, [11])], fun _ => none⟩ : Call Nat Nat) (.sym 11 false) (.name 1) := by
  refine ⟨rfl, ?_⟩
  rintro ⟨syms, s, ⟨i, h1, h2⟩ | ⟨_, h⟩, hs, he⟩
  · have hi : i = 1 := by
      match i, h1 with
      | 0, h1 => simp [params] at h1
      | 1, _ => rfl
      | 2, h1 => simp [params] at h1
      | _ + 3, h1 => simp [params] at h1
    subst hi
    have : syms = [10] := (Option.some.inj h2).symm
    subst this
    cases he
    simp at hs
  · cases h

/-- **C97 fails** for a receiver that is not called `self`: with `def m(this, a) -> Mutate[this]`, the call `x.m(y)` updates `y`; and with
`def m(this) -> Mutate[this]`, the call `x.m()` raises. So do static methods `def m(a)`. -/
theorem args_violated_receiver :
    run (⟨[], [0, 1], []⟩ : Sig Nat) true false (.inl (.name 0)) (⟨[(1, [11])], fun _ => none⟩ : Call Nat Nat) = .ok (some [.sym 11 false]) ∧
    run (⟨[], [0], []⟩ : Sig Nat) true false (.inl (.name 0)) (⟨[], fun _ => none⟩ : Call Nat Nat) = .error .crash := ⟨rfl, rfl⟩

/-- **C97 fails** for `self` in the annotation of a function: the annotation of `def f(self) -> Mutate[self]` is dropped, and a call of
`def f(self, a) -> Mutate[self, a]` raises. -/
theorem args_violated_self (c : Call Nat Nat) :
    run (⟨[], [0], []⟩ : Sig Nat) false false (.inl .self) c = .ok none ∧
    ∃ n, run (⟨[], [n, 1], []⟩ : Sig Nat) false false (.inr [.self, .name 1]) c = .error .crash := ⟨rfl, 0, rfl⟩

end Verif.Annot
