import Verif.Selfuse.Spec
import Mathlib.Tactic.SplitIfs

/-! # C136: the code of attributes -/

namespace Verif.Selfuse
open Verif

/-! ### Invariants -/

theorem get_filter (p : Key → Bool) (l : List (Key × Nat)) (k : Key) :
    Assoc.get (l.filter fun q => p q.1) k = if p k then Assoc.get l k else none := by
  induction l with
  | nil => simp
  | cons q l ih =>
    obtain ⟨k', v⟩ := q
    by_cases hp : p k' = true
    · rw [List.filter_cons_of_pos (by simpa using hp)]
      simp only [Assoc.get]
      by_cases e : k' = k
      · subst e; simp [hp]
      · rw [if_neg e, if_neg e, ih]
    · rw [List.filter_cons_of_neg (by simpa using hp), ih]
      simp only [Assoc.get]
      by_cases e : k' = k
      · subst e; simp [hp]
      · rw [if_neg e]

theorem get_refresh (σ : State) (s : Stmt) (k : Key) :
    Assoc.get (refresh σ s) k = if k = target s then some σ.time else
      match s with
      | .num x _ _ => if isAttrOf x k then none else Assoc.get σ.ts k
      | .make x => if isAttrOf x k then none else Assoc.get σ.ts k
      | _ => Assoc.get σ.ts k := by
  have key : ∀ x, Assoc.get (Assoc.set (σ.ts.filter fun p => !isAttrOf x p.1) (.var x) σ.time) k =
      if k = .var x then some σ.time else if isAttrOf x k then none else Assoc.get σ.ts k := by
    intro x
    rw [Assoc.get_set]
    by_cases e : k = .var x
    · rw [if_pos e, if_pos e]
    · rw [if_neg e, if_neg e, get_filter (fun k => !isAttrOf x k)]
      cases isAttrOf x k <;> rfl
  cases s with
  | num x ops c => exact key x
  | make x => exact key x
  | put o a ops c => exact Assoc.get_set _ _ _ _
  | aug o a ops c => exact Assoc.get_set _ _ _ _

structure Inv (h : List Stmt) (σ : State) : Prop where
  env : Spec.run h = some σ.env
  time : σ.time = h.length
  dom : ∀ k, (Assoc.get σ.ts k).isSome = (σ.env k).isSome
  past : ∀ k t, Assoc.get σ.ts k = some t → t < σ.time
  owner : ∀ o a, (σ.env (.attr o a)).isSome → σ.env (.var o) = some .obj
  isNum : ∀ o a, σ.env (.attr o a) ≠ some .obj
  edges : ∀ t, ∀ u ∈ σ.edges t, u < t
  made : ∀ o t, σ.env (.var o) = some .obj → Assoc.get σ.ts (.var o) = some t → σ.text t = some (.make o) ∧ σ.edges t = []

/-- What a statement does, if it does not raise. -/
inductive Eff (e : Env) : Stmt → Env → Prop
  | num {x ops c n} (hn : evalSum e ops c = some n) : Eff e (.num x ops c) (bindVar e x (.num n))
  | make {x} : Eff e (.make x) (bindVar e x .obj)
  | put {o a ops c n} (hn : evalSum e ops c = some n) (ho : e (.var o) = some .obj) : Eff e (.put o a ops c) (setAttr e o a n)
  | aug {o a ops c n} (hn : evalSum e (.attr o a :: ops) c = some n) (ho : e (.var o) = some .obj) :
      Eff e (.aug o a ops c) (setAttr e o a n)

theorem exec_iff (s : Stmt) (e e' : Env) : exec s e = some e' ↔ Eff e s e' := by
  constructor
  · intro h
    cases s with
    | num x ops c =>
      simp only [exec, Option.map_eq_some_iff] at h
      obtain ⟨n, hn, rfl⟩ := h; exact .num hn
    | make x => cases h; exact .make
    | put o a ops c =>
      simp only [exec, Option.bind_eq_some_iff] at h
      obtain ⟨n, hn, h⟩ := h
      split at h
      · cases h; exact .put hn (by assumption)
      · cases h
    | aug o a ops c =>
      simp only [exec, Option.bind_eq_some_iff] at h
      obtain ⟨n, hn, h⟩ := h
      split at h
      · cases h; exact .aug hn (by assumption)
      · cases h
  · intro h
    cases h with
    | num hn => simp [exec, hn]
    | make => rfl
    | put hn ho => simp [exec, hn, ho]
    | aug hn ho => simp only [exec, hn, Option.bind_some, ho, if_true]

theorem use_lt {t : Nat} {o : Option Nat} {u : Nat} (h : u ∈ use t o) : u < t ∧ o = some u := by
  unfold use at h
  split at h
  · split at h
    · rw [List.mem_singleton] at h; subst h; exact ⟨by assumption, rfl⟩
    · cases h
  · cases h

theorem useKey_lt {σ : State} {s : Stmt} {k : Key} {u : Nat} (h : u ∈ useKey σ s k) : u < σ.time := by
  cases k <;> exact (use_lt h).1

theorem useObj_lt {σ : State} {s : Stmt} {o a : Nat} {u : Nat} (h : u ∈ useObj σ s o a) : u < σ.time := by
  rcases List.mem_append.1 h with h | h
  · exact (use_lt h).1
  · split at h
    · cases h
    · obtain ⟨p, _, h⟩ := List.mem_flatMap.1 h
      exact (use_lt h).1

theorem links_lt {σ : State} {s : Stmt} {u : Nat} (h : u ∈ links σ s) : u < σ.time := by
  cases s with
  | num x ops c =>
    obtain ⟨k, _, h⟩ := List.mem_flatMap.1 h
    exact useKey_lt h
  | make x => cases h
  | put o a ops c =>
    rcases List.mem_append.1 h with h | h
    · obtain ⟨k, _, h⟩ := List.mem_flatMap.1 h
      exact useKey_lt h
    · exact useObj_lt h
  | aug o a ops c =>
    rcases List.mem_append.1 h with h | h
    · rcases List.mem_append.1 h with h | h
      · obtain ⟨k, _, h⟩ := List.mem_flatMap.1 h
        exact useKey_lt h
      · exact (use_lt h).1
    · exact useObj_lt h

theorem inv_step {h : List Stmt} {σ τ : State} (i : Inv h σ) (s : Stmt) (hs : step s σ = some τ) : Inv (s :: h) τ := by
  simp only [step, Option.map_eq_some_iff] at hs
  obtain ⟨e, he, rfl⟩ := hs
  have hrun : Spec.run (s :: h) = some e := by simp only [Spec.run, i.env, Option.bind_some, he]
  have hedges : ∀ t, ∀ u ∈ (if t = σ.time then links σ s else σ.edges t), u < t := by
    intro t u hu
    split at hu
    · rename_i e; subst e; exact links_lt hu
    · exact i.edges t u hu
  have hpast : ∀ k t, Assoc.get (refresh σ s) k = some t → t < σ.time + 1 := by
    intro k t hk
    have old : Assoc.get σ.ts k = some t → t < σ.time + 1 := fun h => by have := i.past k t h; omega
    rw [get_refresh] at hk
    split at hk
    · cases hk; omega
    · split at hk
      · split at hk
        · cases hk
        · exact old hk
      · split at hk
        · cases hk
        · exact old hk
      · exact old hk
  have oldMade : ∀ o t, σ.env (.var o) = some .obj → Assoc.get σ.ts (.var o) = some t →
      (if t = σ.time then some s else σ.text t) = some (.make o) ∧ (if t = σ.time then links σ s else σ.edges t) = [] := by
    intro o t h1 h2
    have := i.past _ _ h2
    rw [if_neg (by omega), if_neg (by omega)]
    exact i.made o t h1 h2
  have eff := (exec_iff _ _ _).1 he
  cases eff with
  | @num x ops c n hn =>
    refine ⟨hrun, by simp [i.time], ?_, hpast, ?_, ?_, hedges, ?_⟩
    · intro k
      dsimp only
      rw [get_refresh]
      cases k with
      | var y =>
        simp only [target, Key.var.injEq, bindVar, isAttrOf]
        split
        · rfl
        · exact i.dom _
      | attr o a =>
        simp only [target, reduceCtorEq, if_false, bindVar, isAttrOf, decide_eq_true_eq]
        split
        · rfl
        · exact i.dom _
    · intro o a h1
      simp only [bindVar] at h1 ⊢
      by_cases ex : o = x
      · rw [if_pos ex] at h1; cases h1
      · rw [if_neg ex] at h1 ⊢; exact i.owner o a h1
    · intro o a h1
      simp only [bindVar] at h1
      split at h1
      · cases h1
      · exact i.isNum o a h1
    · intro o t h1 h2
      simp only [bindVar] at h1
      simp only [get_refresh, target, Key.var.injEq, isAttrOf] at h2
      split at h1
      · cases h1
      · rename_i e
        rw [if_neg e] at h2
        exact oldMade o t h1 h2
  | @make x =>
    refine ⟨hrun, by simp [i.time], ?_, hpast, ?_, ?_, hedges, ?_⟩
    · intro k
      dsimp only
      rw [get_refresh]
      cases k with
      | var y =>
        simp only [target, Key.var.injEq, bindVar, isAttrOf]
        split
        · rfl
        · exact i.dom _
      | attr o a =>
        simp only [target, reduceCtorEq, if_false, bindVar, isAttrOf, decide_eq_true_eq]
        split
        · rfl
        · exact i.dom _
    · intro o a h1
      simp only [bindVar] at h1 ⊢
      by_cases ex : o = x
      · rw [if_pos ex] at h1; cases h1
      · rw [if_neg ex] at h1 ⊢; exact i.owner o a h1
    · intro o a h1
      simp only [bindVar] at h1
      split at h1
      · cases h1
      · exact i.isNum o a h1
    · intro o t h1 h2
      simp only [bindVar] at h1
      simp only [get_refresh, target, Key.var.injEq, isAttrOf] at h2
      split at h1
      · rename_i e
        rw [if_pos e] at h2
        cases h2
        simp [e, links]
      · rename_i e
        rw [if_neg e] at h2
        exact oldMade o t h1 h2
  | @put o a ops c n hn ho =>
    refine ⟨hrun, by simp [i.time], ?_, hpast, ?_, ?_, hedges, ?_⟩
    · intro k
      dsimp only
      rw [get_refresh]
      simp only [setAttr]
      by_cases ek : k = .attr o a
      · rw [if_pos ek, if_pos (by exact ek)]; rfl
      · rw [if_neg ek, if_neg (by exact ek)]; exact i.dom k
    · intro o' a' h1
      simp only [setAttr, reduceCtorEq, if_false] at h1 ⊢
      split at h1
      · rename_i e; cases e; exact ho
      · exact i.owner o' a' h1
    · intro o' a' h1
      simp only [setAttr] at h1
      split at h1
      · cases h1
      · exact i.isNum o' a' h1
    · intro o' t h1 h2
      simp only [setAttr, reduceCtorEq, if_false] at h1
      simp only [get_refresh, target, reduceCtorEq, if_false] at h2
      exact oldMade o' t h1 h2
  | @aug o a ops c n hn ho =>
    refine ⟨hrun, by simp [i.time], ?_, hpast, ?_, ?_, hedges, ?_⟩
    · intro k
      dsimp only
      rw [get_refresh]
      simp only [setAttr]
      by_cases ek : k = .attr o a
      · rw [if_pos ek, if_pos (by exact ek)]; rfl
      · rw [if_neg ek, if_neg (by exact ek)]; exact i.dom k
    · intro o' a' h1
      simp only [setAttr, reduceCtorEq, if_false] at h1 ⊢
      split at h1
      · rename_i e; cases e; exact ho
      · exact i.owner o' a' h1
    · intro o' a' h1
      simp only [setAttr] at h1
      split at h1
      · cases h1
      · exact i.isNum o' a' h1
    · intro o' t h1 h2
      simp only [setAttr, reduceCtorEq, if_false] at h1
      simp only [get_refresh, target, reduceCtorEq, if_false] at h2
      exact oldMade o' t h1 h2

theorem inv_track {h : List Stmt} {σ : State} (ht : track h = some σ) : Inv h σ := by
  induction h generalizing σ with
  | nil =>
    cases ht
    exact ⟨rfl, rfl, fun _ => rfl, fun _ _ h => by simp [State.init] at h, fun _ _ h => by simp [State.init] at h,
      fun _ _ h => by simp [State.init] at h, fun _ _ h => by simp [State.init] at h, fun _ _ h => by simp [State.init] at h⟩
  | cons s h ih =>
    simp only [track, Option.bind_eq_some_iff] at ht
    obtain ⟨σ₀, h0, hs⟩ := ht
    exact inv_step (ih h0) s hs

/-! ### Running a part -/

/-- The statements of `h` (last first) whose numbers are in `C` are run. -/
def rerun (C : List Nat) : List Stmt → Option Env
  | [] => some fun _ => none
  | s :: h => (rerun C h).bind fun e => if h.length ∈ C then exec s e else some e

/-- What is in `C` came out as it was. -/
structure Agree (C : List Nat) (σ : State) (ρ : Env) : Prop where
  same : ∀ k t, Assoc.get σ.ts k = some t → t ∈ C → ρ k = σ.env k
  owner : ∀ o a t u, Assoc.get σ.ts (.attr o a) = some t → t ∈ C → Assoc.get σ.ts (.var o) = some u → u ∈ C
  fresh : ∀ o a u, Assoc.get σ.ts (.var o) = some u → u ∈ C → Assoc.get σ.ts (.attr o a) = none → ρ (.attr o a) = none

theorem eval_agree {C : List Nat} {h : List Stmt} {σ : State} {ρ : Env} (i : Inv h σ) (a : Agree C σ ρ) (ops : List Key) (c : Int)
    (hc : ∀ k ∈ ops, ∀ t, Assoc.get σ.ts k = some t → t ∈ C) (n : Int) (hn : evalSum σ.env ops c = some n) : evalSum ρ ops c = some n := by
  induction ops generalizing n with
  | nil => exact hn
  | cons k ops ih =>
    simp only [evalSum] at hn ⊢
    split at hn
    · rename_i m e
      obtain ⟨n', hn', rfl⟩ := Option.map_eq_some_iff.1 hn
      have hk : (Assoc.get σ.ts k).isSome = true := by rw [i.dom, e]; rfl
      obtain ⟨t, ht⟩ := Option.isSome_iff_exists.1 hk
      rw [a.same k t ht (hc k List.mem_cons_self t ht), e]
      simp only [ih (fun k hk => hc k (List.mem_cons_of_mem _ hk)) n' hn', Option.map_some]
    · cases hn

theorem useKey_mem {h : List Stmt} {σ : State} (i : Inv h σ) (s : Stmt) (k : Key) (hk : (∀ x, k ≠ .var x) → k ≠ target s) (t : Nat)
    (ht : Assoc.get σ.ts k = some t) : t ∈ useKey σ s k := by
  have hlt := i.past k t ht
  cases k with
  | var x => simp [useKey, use, ht, hlt]
  | attr o a => simp [useKey, use, doneTime, if_neg (hk (fun _ h => by cases h)), ht, hlt]

theorem useObj_mem {h : List Stmt} {σ : State} (i : Inv h σ) (s : Stmt) (o a : Nat) (hs : target s ≠ .var o) (t : Nat)
    (ht : Assoc.get σ.ts (.var o) = some t) : t ∈ useObj σ s o a := by
  have hlt := i.past _ t ht
  refine List.mem_append_left _ ?_
  simp [use, doneTime, if_neg (Ne.symm hs), ht, hlt]

theorem agree_step {C : List Nat} {h : List Stmt} {σ τ : State} {ρ : Env} (i : Inv h σ) (a : Agree C σ ρ) (s : Stmt)
    (hf : ∀ o a ops c, s = .put o a ops c → Key.attr o a ∉ ops) (hs : step s σ = some τ) (hc : h.length ∈ C → ∀ u ∈ links σ s, u ∈ C) :
    ∃ ρ', (if h.length ∈ C then exec s ρ else some ρ) = some ρ' ∧ Agree C τ ρ' := by
  simp only [step, Option.map_eq_some_iff] at hs
  obtain ⟨e, he, rfl⟩ := hs
  rw [← i.time] at hc ⊢
  have eff := (exec_iff _ _ _).1 he
  -- binding a variable
  have bind : ∀ x v, (∀ k, Assoc.get (refresh σ s) k = if k = .var x then some σ.time else if isAttrOf x k then none else Assoc.get σ.ts k) →
      e = bindVar σ.env x v → (σ.time ∈ C → exec s ρ = some (bindVar ρ x v)) →
      ∃ ρ', (if σ.time ∈ C then exec s ρ else some ρ) = some ρ' ∧
        Agree C ⟨e, σ.time + 1, refresh σ s, fun u => if u = σ.time then links σ s else σ.edges u,
          fun u => if u = σ.time then some s else σ.text u⟩ ρ' := by
    intro x v hr hx hex
    subst hx
    by_cases hC : σ.time ∈ C
    · rw [if_pos hC, hex hC]
      refine ⟨_, rfl, ?_, ?_, ?_⟩
      · intro k t hk ht
        simp only [hr] at hk
        cases k with
        | var y =>
          simp only [Key.var.injEq, isAttrOf, bindVar] at hk ⊢
          split at hk
          · rename_i e; rw [if_pos e, if_pos e]
          · rename_i e; rw [if_neg e, if_neg e]; exact a.same _ t hk ht
        | attr o b =>
          simp only [reduceCtorEq, if_false, isAttrOf, decide_eq_true_eq, bindVar] at hk ⊢
          split at hk
          · cases hk
          · rename_i e; rw [if_neg e, if_neg e]; exact a.same _ t hk ht
      · intro o b t u h1 ht h2
        simp only [hr, reduceCtorEq, if_false, isAttrOf, decide_eq_true_eq, Key.var.injEq] at h1 h2
        split at h1
        · cases h1
        · rename_i e
          rw [if_neg e] at h2
          exact a.owner o b t u h1 ht h2
      · intro o b u h1 hu h2
        simp only [hr, reduceCtorEq, if_false, isAttrOf, decide_eq_true_eq, Key.var.injEq] at h1 h2
        simp only [bindVar]
        by_cases e : o = x
        · rw [if_pos e]
        · rw [if_neg e] at h1 h2 ⊢; exact a.fresh o b u h1 hu h2
    · rw [if_neg hC]
      refine ⟨_, rfl, ?_, ?_, ?_⟩
      · intro k t hk ht
        simp only [hr] at hk
        cases k with
        | var y =>
          simp only [Key.var.injEq, isAttrOf, bindVar] at hk ⊢
          split at hk
          · cases hk; exact absurd ht hC
          · rename_i e; rw [if_neg e]; exact a.same _ t hk ht
        | attr o b =>
          simp only [reduceCtorEq, if_false, isAttrOf, decide_eq_true_eq, bindVar] at hk ⊢
          split at hk
          · cases hk
          · rename_i e; rw [if_neg e]; exact a.same _ t hk ht
      · intro o b t u h1 ht h2
        simp only [hr, reduceCtorEq, if_false, isAttrOf, decide_eq_true_eq, Key.var.injEq] at h1 h2
        split at h1
        · cases h1
        · rename_i e
          rw [if_neg e] at h2
          exact a.owner o b t u h1 ht h2
      · intro o b u h1 hu h2
        simp only [hr, reduceCtorEq, if_false, isAttrOf, decide_eq_true_eq, Key.var.injEq] at h1 h2
        by_cases e : o = x
        · rw [if_pos e] at h1; cases h1; exact absurd hu hC
        · rw [if_neg e] at h1 h2; exact a.fresh o b u h1 hu h2
  -- setting an attribute
  have set : ∀ o b n, (∀ k, Assoc.get (refresh σ s) k = if k = .attr o b then some σ.time else Assoc.get σ.ts k) →
      e = setAttr σ.env o b n → (σ.time ∈ C → exec s ρ = some (setAttr ρ o b n)) →
      (σ.time ∈ C → ∀ u, Assoc.get σ.ts (.var o) = some u → u ∈ C) →
      ∃ ρ', (if σ.time ∈ C then exec s ρ else some ρ) = some ρ' ∧
        Agree C ⟨e, σ.time + 1, refresh σ s, fun u => if u = σ.time then links σ s else σ.edges u,
          fun u => if u = σ.time then some s else σ.text u⟩ ρ' := by
    intro o b n hr hx hex hown
    subst hx
    by_cases hC : σ.time ∈ C
    · rw [if_pos hC, hex hC]
      refine ⟨_, rfl, ?_, ?_, ?_⟩
      · intro k t hk ht
        simp only [hr] at hk
        simp only [setAttr]
        split at hk
        · rename_i e; rw [if_pos e, if_pos e]
        · rename_i e; rw [if_neg e, if_neg e]; exact a.same k t hk ht
      · intro o' b' t u h1 ht h2
        simp only [hr, reduceCtorEq, if_false] at h1 h2
        split at h1
        · rename_i e; cases e; exact hown hC u h2
        · exact a.owner o' b' t u h1 ht h2
      · intro o' b' u h1 hu h2
        simp only [hr, reduceCtorEq, if_false] at h1 h2
        simp only [setAttr]
        split at h2
        · cases h2
        · rename_i e; rw [if_neg e]; exact a.fresh o' b' u h1 hu h2
    · rw [if_neg hC]
      refine ⟨_, rfl, ?_, ?_, ?_⟩
      · intro k t hk ht
        simp only [hr] at hk
        simp only [setAttr]
        split at hk
        · cases hk; exact absurd ht hC
        · rename_i e; rw [if_neg e]; exact a.same k t hk ht
      · intro o' b' t u h1 ht h2
        simp only [hr, reduceCtorEq, if_false] at h1 h2
        split at h1
        · cases h1; exact absurd ht hC
        · exact a.owner o' b' t u h1 ht h2
      · intro o' b' u h1 hu h2
        simp only [hr, reduceCtorEq, if_false] at h1 h2
        split at h2
        · cases h2
        · exact a.fresh o' b' u h1 hu h2
  cases eff with
  | @num x ops c n hn =>
    refine bind x (.num n) (fun k => by rw [get_refresh]; rfl) rfl fun hC => ?_
    refine (exec_iff _ _ _).2 (.num (eval_agree i a ops c (fun k hk t ht => hc hC t ?_) n hn))
    exact List.mem_flatMap.2 ⟨k, hk, useKey_mem i _ k (fun h => by simpa only [target] using h x) t ht⟩
  | @make x => exact bind x .obj (fun k => by rw [get_refresh]; rfl) rfl fun _ => rfl
  | @put o b ops c n hn ho =>
    have hown : σ.time ∈ C → ∀ u, Assoc.get σ.ts (.var o) = some u → u ∈ C := fun hC u hu =>
      hc hC u (List.mem_append_right _ (useObj_mem i _ o b (by simp [target]) u hu))
    refine set o b n (fun k => by rw [get_refresh]; rfl) rfl (fun hC => ?_) hown
    have hv : (Assoc.get σ.ts (.var o)).isSome = true := by rw [i.dom, ho]; rfl
    obtain ⟨u, hu⟩ := Option.isSome_iff_exists.1 hv
    refine (exec_iff _ _ _).2 (.put (eval_agree i a ops c (fun k hk t ht => hc hC t (List.mem_append_left _ ?_)) n hn)
      ((a.same _ u hu (hown hC u hu)).trans ho))
    refine List.mem_flatMap.2 ⟨k, hk, useKey_mem i _ k (fun _ e => ?_) t ht⟩
    subst e
    exact hf o b ops c rfl hk
  | @aug o b ops c n hn ho =>
    have hown : σ.time ∈ C → ∀ u, Assoc.get σ.ts (.var o) = some u → u ∈ C := fun hC u hu =>
      hc hC u (List.mem_append_right _ (useObj_mem i _ o b (by simp [target]) u hu))
    refine set o b n (fun k => by rw [get_refresh]; rfl) rfl (fun hC => ?_) hown
    have hv : (Assoc.get σ.ts (.var o)).isSome = true := by rw [i.dom, ho]; rfl
    obtain ⟨u, hu⟩ := Option.isSome_iff_exists.1 hv
    have self : ∀ t, Assoc.get σ.ts (.attr o b) = some t → t ∈ C := fun t ht =>
      hc hC t (List.mem_append_left _ (List.mem_append_right _ (by simp [use, ht, i.past _ t ht])))
    refine (exec_iff _ _ _).2 (.aug (eval_agree i a _ c (fun k hk t ht => ?_) n hn) ((a.same _ u hu (hown hC u hu)).trans ho))
    by_cases e : k = .attr o b
    · subst e; exact self t ht
    · rcases List.mem_cons.1 hk with hk | hk
      · exact absurd hk e
      · exact hc hC t (List.mem_append_left _ (List.mem_append_left _ (List.mem_flatMap.2 ⟨k, hk, useKey_mem i (.aug o b ops c) k (fun _ => e) t ht⟩)))

theorem track_cons {s : Stmt} {h : List Stmt} {σ : State} (ht : track (s :: h) = some σ) :
    ∃ σ₀, track h = some σ₀ ∧ step s σ₀ = some σ ∧ σ.edges h.length = links σ₀ s ∧ σ.text h.length = some s ∧
      ∀ t, t < h.length → σ.edges t = σ₀.edges t ∧ σ.text t = σ₀.text t := by
  simp only [track, Option.bind_eq_some_iff] at ht
  obtain ⟨σ₀, h0, hs⟩ := ht
  have i := inv_track h0
  refine ⟨σ₀, h0, hs, ?_⟩
  simp only [step, Option.map_eq_some_iff] at hs
  obtain ⟨p, _, rfl⟩ := hs
  refine ⟨by simp [i.time], by simp [i.time], fun t ht => ?_⟩
  have : t ≠ σ₀.time := by rw [i.time]; omega
  simp [this]

theorem agree_track {C : List Nat} {h : List Stmt} {σ : State} (ht : track h = some σ) (hf : Spec.SelfFree h)
    (hc : ∀ t ∈ C, t < h.length → ∀ u ∈ σ.edges t, u ∈ C) : ∃ ρ, rerun C h = some ρ ∧ Agree C σ ρ := by
  induction h generalizing σ with
  | nil =>
    cases ht
    exact ⟨_, rfl, fun _ _ h => by simp [State.init] at h, fun _ _ _ _ h => by simp [State.init] at h, fun _ _ _ h => by simp [State.init] at h⟩
  | cons s h ih =>
    obtain ⟨σ₀, h0, hs, he, _, hold⟩ := track_cons ht
    have i := inv_track h0
    obtain ⟨ρ, hρ, a⟩ := ih h0 (fun o a ops c hm => hf o a ops c (List.mem_cons_of_mem _ hm)) (fun t htC htl u hu =>
      hc t htC (by simp only [List.length_cons]; omega) u (by rw [(hold t htl).1]; exact hu))
    obtain ⟨ρ', h1, h2⟩ := agree_step i a s (fun o a ops c e => hf o a ops c (e ▸ List.mem_cons_self)) hs
      (fun hC u hu => hc _ hC (by simp) u (by rw [he]; exact hu))
    exact ⟨ρ', by simp only [rerun, hρ, Option.bind_some]; exact h1, h2⟩

theorem rerun_congr (C C' : List Nat) (h : List Stmt) (hC : ∀ t, t < h.length → (t ∈ C ↔ t ∈ C')) : rerun C h = rerun C' h := by
  induction h with
  | nil => rfl
  | cons s h ih =>
    simp only [rerun]
    rw [ih fun t ht => hC t (by simp only [List.length_cons]; omega)]
    congr 1
    funext e
    by_cases hm : h.length ∈ C
    · rw [if_pos hm, if_pos ((hC _ (by simp)).1 hm)]
    · rw [if_neg hm, if_neg (fun h' => hm ((hC _ (by simp)).2 h'))]

theorem runCode_append (σ : State) (a b : List Nat) (e : Env) : runCode σ (a ++ b) e = (runCode σ a e).bind (runCode σ b) := by
  induction a generalizing e with
  | nil => rfl
  | cons t a ih =>
    simp only [List.cons_append, runCode]
    cases σ.text t with
    | none => rfl
    | some s =>
      simp only [Option.bind_some]
      cases exec s e with
      | none => rfl
      | some e' => exact ih e'

theorem runCode_congr (σ σ' : State) (l : List Nat) (e : Env) (h : ∀ t ∈ l, σ.text t = σ'.text t) : runCode σ l e = runCode σ' l e := by
  induction l generalizing e with
  | nil => rfl
  | cons t l ih =>
    simp only [runCode]
    rw [h t List.mem_cons_self]
    congr 1
    funext s
    congr 1
    funext e'
    exact ih e' fun t ht => h t (List.mem_cons_of_mem _ ht)

theorem split_last {l : List Nat} {n : Nat} (hl : l.Pairwise (· < ·)) (hn : ∀ t ∈ l, t < n + 1) (hm : n ∈ l) :
    ∃ l', l = l' ++ [n] ∧ ∀ t ∈ l', t < n := by
  rcases List.eq_nil_or_concat l with rfl | ⟨l', a, rfl⟩
  · cases hm
  · rw [List.concat_eq_append] at *
    have hp := List.pairwise_append.1 hl
    have ha := hn a (by simp)
    rcases List.mem_append.1 hm with h | h
    · have := hp.2.2 n h a (by simp); omega
    · have : n = a := by simpa using h
      subst this
      exact ⟨l', rfl, fun t ht => hp.2.2 t ht n (by simp)⟩

theorem runCode_eq {C : List Nat} {h : List Stmt} {σ : State} (ht : track h = some σ) (hs : C.Pairwise (· < ·)) (hC : ∀ c ∈ C, c < h.length) :
    runCode σ C (fun _ => none) = rerun C h := by
  induction h generalizing σ C with
  | nil =>
    cases C with
    | nil => rfl
    | cons c C => exact absurd (hC c List.mem_cons_self) (by simp)
  | cons s h ih =>
    obtain ⟨σ₀, h0, _, _, htx, he⟩ := track_cons ht
    by_cases hm : h.length ∈ C
    · obtain ⟨C', rfl, hlt⟩ := split_last hs (by simpa using hC) hm
      have hs' := (List.pairwise_append.1 hs).1
      rw [runCode_append, runCode_congr σ σ₀ C' _ fun t ht => (he t (hlt t ht)).2, ih h0 hs' hlt]
      simp only [rerun]
      rw [rerun_congr (C' ++ [h.length]) C' h fun t ht => by simp; omega]
      congr 1
      funext p
      simp [runCode, htx]
    · have hlt : ∀ c ∈ C, c < h.length := fun c hc => by
        have := hC c hc
        simp only [List.length_cons] at this
        have : c ≠ h.length := fun e => hm (e ▸ hc)
        omega
      rw [runCode_congr σ σ₀ C _ fun t ht => (he t (hlt t ht)).2, ih h0 hs hlt]
      simp only [rerun, if_neg hm]
      cases rerun C h <;> rfl

/-! ### C136 -/

theorem times_past {h : List Stmt} {σ : State} (i : Inv h σ) (hn : (Assoc.keys σ.ts).Nodup) (k : Key) : ∀ t ∈ times σ k, t < σ.time := by
  intro t ht
  rcases List.mem_append.1 ht with ht | ht
  · rw [Option.mem_toList] at ht; exact i.past k t ht
  · cases k with
    | attr o a => cases ht
    | var x =>
      obtain ⟨p, hp, rfl⟩ := List.mem_map.1 ht
      exact i.past p.1 p.2 ((Assoc.get_eq_some_iff hn).2 (List.mem_of_mem_filter hp))

theorem nodup_track {h : List Stmt} {σ : State} (ht : track h = some σ) : (Assoc.keys σ.ts).Nodup := by
  induction h generalizing σ with
  | nil => cases ht; exact List.nodup_nil
  | cons s h ih =>
    simp only [track, Option.bind_eq_some_iff] at ht
    obtain ⟨σ₀, h0, hs⟩ := ht
    have ih := ih h0
    simp only [step, Option.map_eq_some_iff] at hs
    obtain ⟨p, _, rfl⟩ := hs
    have hfil : ∀ x, (Assoc.keys (σ₀.ts.filter fun p => !isAttrOf x p.1)).Nodup := fun x =>
      List.Sublist.nodup (List.Sublist.map _ List.filter_sublist) ih
    cases s with
    | num x ops c => exact Assoc.nodup_set (hfil x) _ _
    | make x => exact Assoc.nodup_set (hfil x) _ _
    | put o a ops c => exact Assoc.nodup_set ih _ _
    | aug o a ops c => exact Assoc.nodup_set ih _ _

theorem code_ok {h : List Stmt} {σ : State} (ht : track h = some σ) {stat : Nat → List Nat} (he : Spec.NotLater stat) (k : Key)
    (hk : (σ.env k).isSome) :
    ∃ C, code σ stat k = .ok C ∧ C.Pairwise (· < ·) ∧ (∀ c ∈ C, c < h.length) ∧
      ∀ c, c ∈ C ↔ ∃ t ∈ times σ k, Slice.Line.Reach σ.edges stat t c := by
  have i := inv_track ht
  have hT := times_past i (nodup_track ht) k
  obtain ⟨C, hC, hp, hm⟩ := Slice.Line.slice_ok σ.time σ.edges stat (fun t u hu => Nat.le_of_lt (i.edges t u hu)) he (times σ k) hT
  refine ⟨C, by unfold code; rw [i.dom k, hk]; exact hC, hp, fun c hc => ?_, hm⟩
  obtain ⟨t, ht, hr⟩ := (hm c).1 hc
  rw [← i.time]
  have : c ≤ t := by
    clear hc
    induction hr with
    | refl => exact Nat.le_refl _
    | step _ hl ih =>
      rcases hl with hl | hl
      · have := i.edges _ _ hl; omega
      · have := he _ _ hl; omega
  have := hT t ht
  omega

/-- **C136**: `code(x)` and `code(o.a)` give programs that, run on their own, make the variable and its attributes, or the attribute, what they are.
Partial: unless a plain assignment sets an attribute to something computed from itself (`self_update_raises`). -/
theorem code_partial {h : List Stmt} {σ : State} (ht : track h = some σ) (hf : Spec.SelfFree h) {stat : Nat → List Nat} (he : Spec.NotLater stat)
    (k : Key) (e : Env) (hrun : Spec.run h = some e) (hk : (e k).isSome) :
    ∃ C ρ, code σ stat k = .ok C ∧ runCode σ C (fun _ => none) = some ρ ∧ Spec.SameAt k ρ e := by
  have i := inv_track ht
  rw [i.env] at hrun
  cases hrun
  obtain ⟨C, hC, hp, hlt, hm⟩ := code_ok ht he k hk
  obtain ⟨ρ, hρ, a⟩ := agree_track (C := C) ht hf (fun t htC _ u hu => by
    obtain ⟨s, hs, hr⟩ := (hm t).1 htC
    exact (hm u).2 ⟨s, hs, .step hr (.inl hu)⟩)
  have hin : ∀ t ∈ times σ k, t ∈ C := fun t ht => (hm t).2 ⟨t, ht, .refl _⟩
  have hk' : (Assoc.get σ.ts k).isSome = true := by rw [i.dom, hk]
  obtain ⟨t, htk⟩ := Option.isSome_iff_exists.1 hk'
  have htC : t ∈ C := hin t (List.mem_append_left _ (by rw [htk]; simp))
  refine ⟨C, ρ, hC, by rw [runCode_eq ht hp hlt]; exact hρ, a.same k t htk htC, fun x hx b => ?_⟩
  subst hx
  cases eb : Assoc.get σ.ts (.attr x b) with
  | none =>
    rw [a.fresh x b t htk htC eb]
    have := i.dom (.attr x b)
    rw [eb] at this
    cases e2 : σ.env (.attr x b) with
    | none => rfl
    | some v => rw [e2] at this; cases this
  | some u =>
    refine a.same _ u eb (hin u (List.mem_append_right _ ?_))
    exact List.mem_map.2 ⟨(.attr x b, u), List.mem_filter.2 ⟨Assoc.mem_of_get eb, by simp [isAttrOf]⟩, rfl⟩

/-- Without a statement that sets `o.a`, it is not there. -/
theorem rerun_without (C : List Nat) (o a : Nat) (h : List Stmt) (e : Env) (hr : rerun C h = some e)
    (hno : ∀ l s g, h = l ++ s :: g → g.length ∈ C → target s ≠ .attr o a) : e (.attr o a) = none := by
  induction h generalizing e with
  | nil => cases hr; rfl
  | cons s h ih =>
    simp only [rerun, Option.bind_eq_some_iff] at hr
    obtain ⟨e₀, h0, hs⟩ := hr
    have ih := ih e₀ h0 (fun l s' g e => hno (s :: l) s' g (by rw [e]; rfl))
    split at hs
    · have hne := hno [] s h rfl (by assumption)
      cases (exec_iff _ _ _).1 hs with
      | num hn => simp only [bindVar]; split <;> simp [ih]
      | make => simp only [bindVar]; split <;> simp [ih]
      | put hn ho => simp only [target] at hne; simp only [setAttr, if_neg (Ne.symm hne), ih]
      | aug hn ho => simp only [target] at hne; simp only [setAttr, if_neg (Ne.symm hne), ih]
    · cases hs; exact ih

theorem text_at {h l g : List Stmt} {s : Stmt} {σ : State} (ht : track h = some σ) (e : h = l ++ s :: g) : σ.text g.length = some s := by
  induction l generalizing h σ with
  | nil => subst e; exact (track_cons ht).choose_spec.2.2.2.1
  | cons s' l ih =>
    subst e
    obtain ⟨σ₀, h0, _, _, _, hold⟩ := track_cons ht
    rw [(hold g.length (by simp; omega)).2]
    exact ih h0 rfl

/-- **C136** is violated: if `o.a` was last set by `o.a = o.a + … + o.a + c`, then the code of `o.a` consists of that statement and the one that made `o`,
and raises when it is run, however often `o.a` was set before. Static analysis does not help as long as it links the statement to itself only. -/
theorem self_update_raises {g : List Stmt} {o a n : Nat} {c : Int} {σ : State} (ht : track (.put o a (List.replicate (n + 1) (.attr o a)) c :: g) = some σ)
    {stat : Nat → List Nat} (he : ∀ t, ∀ u ∈ stat t, u = t) :
    ∃ m, m < g.length ∧ σ.text m = some (.make o) ∧ code σ stat (.attr o a) = .ok [m, g.length] ∧
      runCode σ [m, g.length] (fun _ => none) = none := by
  have i' := inv_track ht
  obtain ⟨σ₀, h0, hs, hedges, htx, hold⟩ := track_cons ht
  have i := inv_track h0
  have hst := hs
  simp only [step, Option.map_eq_some_iff] at hst
  obtain ⟨p, hp, hσ⟩ := hst
  have heff := (exec_iff _ _ _).1 hp
  have hrep : List.replicate (n + 1) (Key.attr o a) = .attr o a :: List.replicate n (.attr o a) := rfl
  obtain ⟨ho, v, hv⟩ : σ₀.env (.var o) = some .obj ∧ ∃ v, σ₀.env (.attr o a) = some (.num v) := by
    cases heff with
    | put hn ho =>
      refine ⟨ho, ?_⟩
      rw [hrep] at hn
      simp only [evalSum] at hn
      split at hn
      · rename_i v e; exact ⟨v, e⟩
      · cases hn
  have hk : (Assoc.get σ₀.ts (.attr o a)).isSome = true := by rw [i.dom, hv]; rfl
  have hm : (Assoc.get σ₀.ts (.var o)).isSome = true := by rw [i.dom, ho]; rfl
  obtain ⟨m, hm⟩ := Option.isSome_iff_exists.1 hm
  have hml := i.past _ _ hm
  obtain ⟨hmt, hme⟩ := i.made o m ho hm
  rw [i.time] at hml
  have hlinks : links σ₀ (.put o a (List.replicate (n + 1) (.attr o a)) c) = [m] := by
    have h1 : (List.replicate (n + 1) (Key.attr o a)).flatMap (useKey σ₀ (.put o a (List.replicate (n + 1) (.attr o a)) c)) = [] := by
      rw [List.flatMap_eq_nil_iff]
      intro k hk
      rw [List.eq_of_mem_replicate hk]
      simp [useKey, doneTime, target, use]
    simp only [links]
    rw [h1]
    simp [useObj, hk, doneTime, target, use, hm, i.time, hml]
  have hts : Assoc.get σ.ts (.attr o a) = some g.length := by
    rw [← hσ]
    dsimp only
    rw [get_refresh]
    simp [target, i.time]
  have hnl : Spec.NotLater stat := fun t u hu => by exact Nat.le_of_eq (he t u hu)
  obtain ⟨C, hC, hpw, hlt, hmem⟩ := code_ok ht hnl (.attr o a) (by rw [← i'.dom, hts]; rfl)
  have hreach : ∀ c, Slice.Line.Reach σ.edges stat g.length c → c = g.length ∨ c = m := by
    intro c hr
    induction hr with
    | refl => exact .inl rfl
    | step _ hl ih =>
      rcases hl with hl | hl
      · rcases ih with rfl | rfl
        · rw [hedges, hlinks] at hl; exact .inr (by simpa using hl)
        · rw [(hold _ hml).1, hme] at hl; cases hl
      · rw [he _ _ hl]; exact ih
  have htimes : times σ (.attr o a) = [g.length] := by simp [times, hts]
  have hC2 : C = [m, g.length] := by
    have h1 : ∀ c, c ∈ C ↔ c ∈ [m, g.length] := by
      intro c
      rw [hmem c, htimes]
      constructor
      · rintro ⟨t, h1, hr⟩
        rw [List.mem_singleton] at h1; subst h1
        rcases hreach c hr with rfl | rfl <;> simp
      · intro h
        refine ⟨g.length, by simp, ?_⟩
        rcases List.mem_cons.1 h with rfl | h
        · exact .step (.refl _) (.inl (by rw [hedges, hlinks]; simp))
        · rw [List.mem_singleton] at h; subst h; exact .refl _
    have h2 : [m, g.length].Pairwise (· < ·) := by simp [hml]
    obtain ⟨C', e1, hlt'⟩ := split_last (n := g.length) hpw (fun t ht => by have := hlt t ht; simpa using this) ((h1 _).2 (by simp))
    subst e1
    have h3 : ∀ c, c ∈ C' ↔ c = m := by
      intro c
      constructor
      · intro h
        rcases List.mem_cons.1 ((h1 c).1 (List.mem_append_left _ h)) with h' | h'
        · exact h'
        · have := hlt' c h; rw [List.mem_singleton] at h'; omega
      · rintro rfl
        rcases List.mem_append.1 ((h1 c).2 (by simp)) with h' | h'
        · exact h'
        · rw [List.mem_singleton] at h'; omega
    have h4 := (List.pairwise_append.1 hpw).1
    match C', h3, h4 with
    | [], h3, _ => exact absurd ((h3 m).2 rfl) (by simp)
    | [x], h3, _ => rw [(h3 x).1 (by simp)]; rfl
    | x :: y :: r, h3, h4 =>
      have hx := (h3 x).1 (by simp)
      have hy := (h3 y).1 (by simp)
      have := (List.pairwise_cons.1 h4).1 y (by simp)
      omega
  subst hC2
  have hmt' : σ.text m = some (.make o) := by rw [(hold m hml).2]; exact hmt
  refine ⟨m, hml, hmt', hC, ?_⟩
  simp only [runCode, hmt', htx, Option.bind_some, exec]
  rw [hrep]
  simp [evalSum, bindVar]

end Verif.Selfuse
