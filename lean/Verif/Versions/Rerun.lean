import Verif.Versions.Lemmas

/-! Running a part of the statements that is closed under links. -/

namespace Verif.Versions
open Verif

/-- The statements of `h` (last first) whose numbers are in `C` are run. -/
def rerun (C : List Nat) : List Stmt → Option Py
  | [] => some ⟨[], []⟩
  | s :: h => (rerun C h).bind fun p => if h.length ∈ C then exec h.length s p else some p

/-- What is in `C` came out as it was. -/
structure Agree (C : List Nat) (σ : State) (ρ : Py) : Prop where
  absent : ∀ x, Assoc.get σ.py.env x = none → Assoc.get ρ.env x = none
  name : ∀ x s, Assoc.get σ.syms x = some s → s.ts ∈ C →
    Assoc.get ρ.env x = Assoc.get σ.py.env x ∧ ∀ o, Assoc.get σ.py.env x = some (.ref o) → o ∈ C
  part : ∀ o ns k m, Assoc.get σ.nss o = some ns → Assoc.get ns.parts k = some m → m.ts ∈ C → o ∈ C
  heap : ∀ o d, Assoc.get σ.py.heap o = some d → o ∈ C → ∃ d', Assoc.get ρ.heap o = some d' ∧
    ∀ k, (Assoc.get d k = none → Assoc.get d' k = none) ∧
      ∀ ns m, Assoc.get σ.nss o = some ns → Assoc.get ns.parts (some k) = some m → m.ts ∈ C → Assoc.get d' k = Assoc.get d k

theorem part_exists {h : List Stmt} {σ : State} (i : Inv h σ) {o : Nat} {d : List (Nat × Int)} {k : Nat} {n : Int}
    (hd : Assoc.get σ.py.heap o = some d) (hk : Assoc.get d k = some n) :
    ∃ ns m, Assoc.get σ.nss o = some ns ∧ Assoc.get ns.parts (some k) = some m := by
  obtain ⟨_, ns, hns, ok⟩ := i.heap o d hd
  have : (Assoc.get ns.parts (some k)).isSome = true := by rw [ok.keys k, hk]; rfl
  obtain ⟨m, hm⟩ := Option.isSome_iff_exists.1 this
  exact ⟨ns, m, hns, hm⟩

theorem evalOp_agree {C : List Nat} {h : List Stmt} {σ : State} {ρ : Py} (i : Inv h σ) (a : Agree C σ ρ) (op : Operand)
    (hown : ∀ y k, op = .elt y k → Spec.ownDict y h = true) (hc : ∀ u ∈ useOp σ op, u ∈ C) (n : Int)
    (he : evalOp σ.py op = some n) : evalOp ρ op = some n := by
  cases op with
  | name y =>
    simp only [evalOp] at he ⊢
    split at he
    · rename_i m e
      cases he
      have hs : (Assoc.get σ.syms y).isSome = true := by rw [i.dom y, e]; rfl
      obtain ⟨s, hs⟩ := Option.isSome_iff_exists.1 hs
      have : s.ts ∈ C := hc _ (by simp [useOp, useName, hs])
      rw [(a.name y s hs this).1, e]
    · cases he
  | elt y k =>
    simp only [evalOp] at he ⊢
    split at he
    · rename_i o e
      obtain ⟨d, hd, hk⟩ := Option.bind_eq_some_iff.1 he
      obtain ⟨ns, m, hns, hm⟩ := part_exists i hd hk
      have hmC : m.ts ∈ C := hc _ (by simp [useOp, partOf, e, hns, hm])
      have hoC := a.part o ns _ m hns hm hmC
      have hs : (Assoc.get σ.syms y).isSome = true := by rw [i.dom y, e]; rfl
      obtain ⟨s, hs⟩ := Option.isSome_iff_exists.1 hs
      have ho := i.own y s (hown y k rfl) hs
      have hts : s.ts = o := by rw [e] at ho; injection ho with ho; injection ho with ho; exact ho.symm
      rw [(a.name y s hs (hts ▸ hoC)).1, e]
      obtain ⟨d', hd', hk'⟩ := a.heap o d hd hoC
      simp only [hd', Option.bind_some]
      rw [(hk' k).2 ns m hns hm hmC, hk]
    · cases he

theorem evalSum_agree {C : List Nat} {h : List Stmt} {σ : State} {ρ : Py} (i : Inv h σ) (a : Agree C σ ρ) (ops : List Operand) (c : Int)
    (hown : ∀ y k, Operand.elt y k ∈ ops → Spec.ownDict y h = true) (hc : ∀ u ∈ ops.flatMap (useOp σ), u ∈ C) (n : Int)
    (he : evalSum σ.py ops c = some n) : evalSum ρ ops c = some n := by
  induction ops generalizing n with
  | nil => exact he
  | cons op ops ih =>
    simp only [evalSum, Option.bind_eq_some_iff] at he ⊢
    obtain ⟨v, hv, w, hw, e⟩ := he
    refine ⟨v, evalOp_agree i a op (fun y k e => hown y k (e ▸ List.mem_cons_self)) (fun u hu => hc u ?_) v hv, w,
      ih (fun y k e => hown y k (List.mem_cons_of_mem _ e)) (fun u hu => hc u ?_) w hw, e⟩
    · simp only [List.flatMap_cons, List.mem_append]; exact .inl hu
    · simp only [List.flatMap_cons, List.mem_append]; exact .inr hu

theorem evalItems_agree {C : List Nat} {h : List Stmt} {σ : State} {ρ : Py} (i : Inv h σ) (a : Agree C σ ρ)
    (items : List (Nat × List Operand × Int)) (acc : List (Nat × Int))
    (hown : ∀ y k, Operand.elt y k ∈ (items.flatMap fun i => i.2.1) → Spec.ownDict y h = true)
    (hc : ∀ u ∈ items.flatMap (fun i => i.2.1.flatMap (useOp σ)), u ∈ C) (d : List (Nat × Int))
    (he : evalItems σ.py acc items = some d) : evalItems ρ acc items = some d := by
  induction items generalizing acc with
  | nil => exact he
  | cons it items ih =>
    obtain ⟨k, ops, c⟩ := it
    simp only [evalItems, Option.bind_eq_some_iff] at he ⊢
    obtain ⟨v, hv, e⟩ := he
    refine ⟨v, evalSum_agree i a ops c (fun y k e => hown y k ?_) (fun u hu => hc u ?_) v hv,
      ih _ (fun y k e => hown y k ?_) (fun u hu => hc u ?_) e⟩
    · simp only [List.flatMap_cons, List.mem_append]; exact .inl e
    · simp only [List.flatMap_cons, List.mem_append]; exact .inl hu
    · simp only [List.flatMap_cons, List.mem_append]; exact .inr e
    · simp only [List.flatMap_cons, List.mem_append]; exact .inr hu

theorem useName_mem {σ : State} {x : Nat} {s : Tracked} (hs : Assoc.get σ.syms x = some s) (b : Bool) : s.ts ∈ useName σ x b := by
  simp [useName, hs]

theorem agree_step {C : List Nat} {h : List Stmt} {σ τ : State} {ρ : Py} (i : Inv h σ) (a : Agree C σ ρ) (s : Stmt)
    (hown : ∀ y k, Operand.elt y k ∈ Spec.operands s → Spec.ownDict y h = true)
    (hs : step s σ = some τ) (hc : h.length ∈ C → ∀ u ∈ links σ s, u ∈ C) :
    ∃ ρ', (if h.length ∈ C then exec h.length s ρ else some ρ) = some ρ' ∧ Agree C τ ρ' := by
  simp only [step, Option.bind_eq_some_iff, Option.some.injEq] at hs
  obtain ⟨p, hp, rfl⟩ := hs
  have he := (exec_iff _ _ _ _).1 hp
  rw [← i.time] at hc ⊢
  have bindTs : ∀ x y s', Assoc.get (bindSym σ.time σ.syms x) y = some s' → (y = x ∧ s'.ts = σ.time) ∨ (y ≠ x ∧ Assoc.get σ.syms y = some s') := by
    intro x y s' hs'
    rw [get_bindSym] at hs'
    split at hs'
    · rename_i e
      left; refine ⟨e, ?_⟩
      cases e2 : Assoc.get σ.syms x <;> rw [e2] at hs' <;> cases hs' <;> rfl
    · rename_i e; exact .inr ⟨e, hs'⟩
  have snapTs : ∀ o x s', Assoc.get (snapshotAll σ.py.env o σ.syms) x = some s' → ∃ s₀, Assoc.get σ.syms x = some s₀ ∧ s'.ts = s₀.ts := by
    intro o x s' hs'
    rw [get_snapshotAll] at hs'
    obtain ⟨s₀, e, hs'⟩ := Option.map_eq_some_iff.1 hs'
    refine ⟨s₀, e, ?_⟩
    split at hs' <;> subst hs' <;> rfl
  cases he with
  | @num x ops c n hn =>
    by_cases hC : σ.time ∈ C
    · rw [if_pos hC]
      have hn' := evalSum_agree i a ops c hown (hc hC) n hn
      refine ⟨_, (exec_iff _ _ _ _).2 (.num hn'), ?_, ?_, a.part, a.heap⟩
      · intro y hy
        simp only [Assoc.get_set] at hy ⊢
        split at hy
        · cases hy
        · rw [if_neg (by assumption)]; exact a.absent y hy
      · intro y s' hy hts
        simp only [Assoc.get_set]
        rcases bindTs x y s' hy with ⟨e, _⟩ | ⟨e, hy⟩
        · simp [e]
        · rw [if_neg e, if_neg e]; exact a.name y s' hy hts
    · rw [if_neg hC]
      refine ⟨_, rfl, ?_, ?_, a.part, a.heap⟩
      · intro y hy
        simp only [Assoc.get_set] at hy
        split at hy
        · cases hy
        · exact a.absent y hy
      · intro y s' hy hts
        rcases bindTs x y s' hy with ⟨e, e'⟩ | ⟨e, hy⟩
        · exact absurd (e' ▸ hts) hC
        · simp only [Assoc.get_set, if_neg e]; exact a.name y s' hy hts
  | @dict x items d hd =>
    have hlt : ∀ o d', Assoc.get σ.py.heap o = some d' → o ≠ σ.time := fun o d' h => by have := (i.heap o d' h).1; omega
    by_cases hC : σ.time ∈ C
    · rw [if_pos hC]
      have hd' := evalItems_agree i a items [] hown (hc hC) d hd
      refine ⟨_, (exec_iff _ _ _ _).2 (.dict hd'), ?_, ?_, ?_, ?_⟩
      · intro y hy
        simp only [Assoc.get_set] at hy ⊢
        split at hy
        · cases hy
        · rw [if_neg (by assumption)]; exact a.absent y hy
      · intro y s' hy hts
        simp only [Assoc.get_set]
        rcases bindTs x y s' hy with ⟨e, _⟩ | ⟨e, hy⟩
        · simp only [e, if_true, true_and, Option.some.injEq, Val.ref.injEq, forall_eq']; exact hC
        · rw [if_neg e, if_neg e]; exact a.name y s' hy hts
      · intro o ns k m hns hm hts
        simp only [note, Assoc.get_set] at hns
        split at hns
        · rename_i e; exact e ▸ hC
        · exact a.part o ns k m hns hm hts
      · intro o d₁ h1 hoC
        simp only [note, Assoc.get_set] at h1 ⊢
        split at h1
        · rename_i e
          cases h1
          exact ⟨d, by simp [e], fun k => ⟨fun h => h, fun _ _ _ _ _ => rfl⟩⟩
        · rename_i e
          simp only [if_neg e]
          exact a.heap o d₁ h1 hoC
    · rw [if_neg hC]
      refine ⟨_, rfl, ?_, ?_, ?_, ?_⟩
      · intro y hy
        simp only [Assoc.get_set] at hy
        split at hy
        · cases hy
        · exact a.absent y hy
      · intro y s' hy hts
        rcases bindTs x y s' hy with ⟨e, e'⟩ | ⟨e, hy⟩
        · exact absurd (e' ▸ hts) hC
        · simp only [Assoc.get_set, if_neg e]; exact a.name y s' hy hts
      · intro o ns k m hns hm hts
        simp only [note, Assoc.get_set] at hns
        split at hns
        · cases hns
          have := Assoc.mem_of_get hm
          simp only [literalNs, List.mem_cons, List.mem_map] at this
          rcases this with e | ⟨q, _, e⟩ <;> (simp only [Prod.mk.injEq] at e; obtain ⟨_, e⟩ := e; subst e; exact absurd hts hC)
        · exact a.part o ns k m hns hm hts
      · intro o d₁ h1 hoC
        simp only [note, Assoc.get_set] at h1 ⊢
        split at h1
        · rename_i e; exact absurd (e ▸ hoC) hC
        · rename_i e
          simp only [if_neg e]
          exact a.heap o d₁ h1 hoC
  | @put x k ops c n o d hn hx hd =>
    obtain ⟨hot, ns, hns, ok⟩ := i.heap o d hd
    have e1 : (note σ { σ.py with heap := Assoc.set σ.py.heap o (Assoc.set d k n) } (.put x k ops c)) =
        (snapshotAll σ.py.env o σ.syms, Assoc.set σ.nss o (refreshNs σ.time ns (some k))) := by simp only [note, hx, hns]
    rw [e1]
    have hsx : (Assoc.get σ.syms x).isSome = true := by rw [i.dom x, hx]; rfl
    obtain ⟨sx, hsx⟩ := Option.isSome_iff_exists.1 hsx
    have hname : ∀ y s', Assoc.get (snapshotAll σ.py.env o σ.syms) y = some s' → s'.ts ∈ C →
        Assoc.get ρ.env y = Assoc.get σ.py.env y ∧ ∀ o, Assoc.get σ.py.env y = some (.ref o) → o ∈ C := by
      intro y s' hy hts
      obtain ⟨s₀, e, et⟩ := snapTs o y s' hy
      exact a.name y s₀ e (et ▸ hts)
    have hoC : σ.time ∈ C → Assoc.get ρ.env x = some (.ref o) ∧ o ∈ C := by
      intro hC
      have := a.name x sx hsx (hc hC _ (by simp only [links, List.mem_append]; exact .inr (useName_mem hsx _)))
      exact ⟨this.1.trans hx, this.2 o hx⟩
    have hpart : ∀ o' ns' k' m, Assoc.get (Assoc.set σ.nss o (refreshNs σ.time ns (some k))) o' = some ns' →
        Assoc.get ns'.parts k' = some m → m.ts ∈ C → o' ∈ C := by
      intro o' ns' k' m h1 hm hts
      rw [Assoc.get_set] at h1
      split at h1
      · rename_i e; subst e
        cases h1
        simp only [refreshNs, get_refreshPart] at hm
        split at hm
        · have : m.ts = σ.time := by
            cases e2 : Assoc.get ns.parts (some k) <;> rw [e2] at hm <;> cases hm <;> rfl
          exact (hoC (this ▸ hts)).2
        · exact a.part _ ns k' m hns hm hts
      · exact a.part o' ns' k' m h1 hm hts
    by_cases hC : σ.time ∈ C
    · rw [if_pos hC]
      obtain ⟨hρx, hoC⟩ := hoC hC
      have hn' := evalSum_agree i a ops c hown (fun u hu => hc hC u (by simp only [links, List.mem_append]; exact .inl hu)) n hn
      obtain ⟨d', hd', hk'⟩ := a.heap o d hd hoC
      refine ⟨_, (exec_iff _ _ _ _).2 (.put hn' hρx hd'), a.absent, hname, hpart, ?_⟩
      intro o' d₁ h1 ho'
      simp only [Assoc.get_set] at h1 ⊢
      split at h1
      · rename_i e; subst e
        cases h1
        refine ⟨_, by rw [if_pos rfl], fun k' => ?_⟩
        by_cases ek : k' = k
        · subst ek; simp [Assoc.get_set]
        · simp only [Assoc.get_set, if_neg ek]
          refine ⟨(hk' k').1, fun ns' m e2 hm hts => ?_⟩
          simp only [if_true, Option.some.injEq] at e2
          subst e2
          simp only [refreshNs, get_refreshPart, Option.some.injEq, if_neg ek] at hm
          exact (hk' k').2 ns m hns hm hts
      · rename_i e
        simp only [if_neg e]
        exact a.heap o' d₁ h1 ho'
    · rw [if_neg hC]
      refine ⟨_, rfl, a.absent, hname, hpart, ?_⟩
      intro o' d₁ h1 ho'
      simp only [Assoc.get_set] at h1 ⊢
      split at h1
      · rename_i e; subst e
        cases h1
        obtain ⟨d', hd', hk'⟩ := a.heap _ d hd ho'
        refine ⟨_, hd', fun k' => ?_⟩
        by_cases ek : k' = k
        · subst ek
          refine ⟨by simp [Assoc.get_set], fun ns' m e2 hm hts => ?_⟩
          simp only [if_true, Option.some.injEq] at e2
          subst e2
          simp only [refreshNs, get_refreshPart, if_true] at hm
          have : m.ts = σ.time := by
            cases e2 : Assoc.get ns.parts (some k') <;> rw [e2] at hm <;> cases hm <;> rfl
          exact absurd (this ▸ hts) hC
        · simp only [Assoc.get_set, if_neg ek]
          refine ⟨(hk' k').1, fun ns' m e2 hm hts => ?_⟩
          simp only [if_true, Option.some.injEq] at e2
          subst e2
          simp only [refreshNs, get_refreshPart, Option.some.injEq, if_neg ek] at hm
          exact (hk' k').2 ns m hns hm hts
      · rename_i e
        simp only [if_neg e]
        exact a.heap o' d₁ h1 ho'
  | @same y x v hx hy0 =>
    have hsx : (Assoc.get σ.syms x).isSome = true := by rw [i.dom x, hx]; rfl
    obtain ⟨sx, hsx⟩ := Option.isSome_iff_exists.1 hsx
    have hxC : σ.time ∈ C → Assoc.get ρ.env x = some v ∧ ∀ o, v = .ref o → o ∈ C := by
      intro hC
      have := a.name x sx hsx (hc hC _ (useName_mem hsx _))
      exact ⟨this.1.trans hx, fun o e => this.2 o (hx.trans (by rw [e]))⟩
    have hρ : ∃ ρ', (if σ.time ∈ C then exec σ.time (.same y x) ρ else some ρ) = some ρ' ∧ ρ'.heap = ρ.heap ∧
        (∀ z, z ≠ y → Assoc.get ρ'.env z = Assoc.get ρ.env z) ∧ (σ.time ∈ C → Assoc.get ρ'.env y = some v) := by
      by_cases hC : σ.time ∈ C
      · rw [if_pos hC]
        refine ⟨_, (exec_iff _ _ _ _).2 (.same (hxC hC).1 (a.absent y hy0)), rfl, fun z hz => ?_, fun _ => ?_⟩
        · exact Assoc.get_set_ne _ _ hz
        · exact Assoc.get_set_self _ _ _
      · rw [if_neg hC]
        exact ⟨_, rfl, rfl, fun _ _ => rfl, fun h => absurd h hC⟩
    obtain ⟨ρ', hρ', hh, hz, hy⟩ := hρ
    refine ⟨ρ', hρ', ?_⟩
    have habs : ∀ z, Assoc.get (Assoc.set σ.py.env y v) z = none → Assoc.get ρ'.env z = none := by
      intro z h1
      rw [Assoc.get_set] at h1
      split at h1
      · cases h1
      · rename_i e; rw [hz z e]; exact a.absent z h1
    cases v with
    | num n =>
      have e1 : (note σ { σ.py with env := Assoc.set σ.py.env y (.num n) } (.same y x)) = (bindSym σ.time σ.syms y, σ.nss) := by
        simp only [note, hx]
      rw [e1]
      refine ⟨habs, fun z s' h1 hts => ?_, a.part, fun o d h1 h2 => by rw [hh]; exact a.heap o d h1 h2⟩
      rcases bindTs y z s' h1 with ⟨e, e'⟩ | ⟨e, h1⟩
      · subst e
        simp only [Assoc.get_set_self]
        exact ⟨hy (e' ▸ hts), fun o h => by cases h⟩
      · simp only [Assoc.get_set_ne _ _ e, hz z e]
        exact a.name z s' h1 hts
    | ref o =>
      obtain ⟨d, hd⟩ := Option.isSome_iff_exists.1 (i.ref x o hx)
      obtain ⟨hot, ns, hns, ok⟩ := i.heap o d hd
      have e1 : (note σ { σ.py with env := Assoc.set σ.py.env y (.ref o) } (.same y x)) =
          (Assoc.set (snapshotAll σ.py.env o σ.syms) y ⟨σ.time, σ.time, [none, some σ.time]⟩,
            Assoc.set σ.nss o (refreshNs σ.time ns none)) := by simp only [note, hx, hns]
      rw [e1]
      refine ⟨habs, fun z s' h1 hts => ?_, ?_, ?_⟩
      · simp only [Assoc.get_set] at h1 ⊢
        split at h1
        · rename_i e; subst e
          cases h1
          simp only [if_true]
          exact ⟨hy hts, fun o' h => (hxC hts).2 o' (by cases h; rfl)⟩
        · rename_i e
          simp only [if_neg e, hz z e]
          obtain ⟨s₀, h2, et⟩ := snapTs o z s' h1
          exact a.name z s₀ h2 (et ▸ hts)
      · intro o' ns' k' m h1 hm hts
        simp only [Assoc.get_set] at h1
        split at h1
        · rename_i e; subst e
          cases h1
          simp only [refreshNs, get_refreshPart] at hm
          split at hm
          · have : m.ts = σ.time := by
              cases e2 : Assoc.get ns.parts none <;> rw [e2] at hm <;> cases hm <;> rfl
            exact (hxC (this ▸ hts)).2 _ rfl
          · exact a.part _ ns k' m hns hm hts
        · exact a.part o' ns' k' m h1 hm hts
      · intro o' d₁ h1 ho'
        obtain ⟨d', hd', hk'⟩ := a.heap o' d₁ h1 ho'
        refine ⟨d', by rw [hh]; exact hd', fun k => ⟨(hk' k).1, fun ns' m h2 hm hts => ?_⟩⟩
        simp only [Assoc.get_set] at h2
        split at h2
        · rename_i e; subst e
          cases h2
          simp only [refreshNs, get_refreshPart, reduceCtorEq, if_false] at hm
          exact (hk' k).2 ns m hns hm hts
        · exact (hk' k).2 ns' m h2 hm hts

/-- The links within `C`. -/
def Closed (C : List Nat) (n : Nat) (σ : State) : Prop := ∀ t ∈ C, t < n → ∀ u ∈ σ.edges t, u ∈ C

theorem agree_track {C : List Nat} {h : List Stmt} {σ : State} (ht : track h = some σ) (hd : Spec.Direct h) (hc : Closed C h.length σ) :
    ∃ ρ, rerun C h = some ρ ∧ Agree C σ ρ := by
  induction h generalizing σ with
  | nil =>
    cases ht
    exact ⟨_, rfl, fun _ _ => rfl, fun _ _ h => by simp [State.init] at h, fun _ _ _ _ h => by simp [State.init] at h,
      fun _ _ h => by simp [State.init] at h⟩
  | cons s h ih =>
    simp only [track, Option.bind_eq_some_iff] at ht
    obtain ⟨σ₀, h0, hs⟩ := ht
    have i := inv_track h0
    have he : σ.edges = fun u => if u = σ₀.time then links σ₀ s else σ₀.edges u := by
      simp only [step, Option.bind_eq_some_iff, Option.some.injEq] at hs
      obtain ⟨p, _, rfl⟩ := hs
      rfl
    have hc0 : Closed C h.length σ₀ := by
      intro t htC htl u hu
      refine hc t htC (by simp only [List.length_cons]; omega) u ?_
      rw [he]; dsimp only
      rw [if_neg (by rw [i.time]; omega)]; exact hu
    obtain ⟨ρ, hρ, a⟩ := ih h0 hd.1 hc0
    obtain ⟨ρ', h1, h2⟩ := agree_step i a s hd.2 hs (fun hC u hu => hc _ hC (by simp) u (by rw [he]; dsimp only; rw [if_pos i.time.symm]; exact hu))
    exact ⟨ρ', by simp only [rerun, hρ, Option.bind_some]; exact h1, h2⟩

end Verif.Versions
