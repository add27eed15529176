import Verif.Inplace.Lemmas

/-! A selection of the statements that contains what they are linked to does the same to the variables that it is about. -/

namespace Verif.Inplace
open Verif

theorem from_env {m n : Nat} {h : List Stmt} {σ : State} (ht : track h = some σ) (hf : Spec.From m n h) : σ.py.env m = σ.py.env n := by
  induction h generalizing n σ with
  | nil => exact hf.elim
  | cons s h ih =>
    unfold track at ht
    rw [Option.bind_eq_some_iff] at ht
    obtain ⟨ρ, hρ, hs⟩ := ht
    obtain ⟨p, he, rfl⟩ := step_eq hs
    unfold Spec.From at hf
    dsimp only
    by_cases hb : Spec.binds s = some n
    · rw [if_pos hb] at hf
      rcases hf with rfl | ⟨hne, w, rfl, hf⟩
      · rfl
      · have := ih hρ hf
        cases he with
        | same hv hy =>
          dsimp only
          rw [upd_ne _ _ hne, upd_self, this, hv]
    · rw [if_neg hb] at hf
      by_cases hm : Spec.binds s = some m
      · rw [if_pos hm] at hf; exact hf.elim
      · rw [if_neg hm] at hf
        have := ih hρ hf
        cases he with
        | num _ => dsimp only; rw [upd_ne _ _ (fun e => hm (by rw [e]; rfl)), upd_ne _ _ (fun e => hb (by rw [e]; rfl))]; exact this
        | fresh => dsimp only; rw [upd_ne _ _ (fun e => hm (by rw [e]; rfl)), upd_ne _ _ (fun e => hb (by rw [e]; rfl))]; exact this
        | same _ _ => dsimp only; rw [upd_ne _ _ (fun e => hm (by rw [e]; rfl)), upd_ne _ _ (fun e => hb (by rw [e]; rfl))]; exact this
        | change _ _ _ => exact this

/-- The selection contains what the statements in it are linked to. -/
def Closed (C : List Nat) (σ : State) : Prop := ∀ t ∈ C, ∀ u, (u ∈ σ.dyn t ∨ u ∈ σ.stat t) → u ∈ C

/-- How the variables after the selected statements compare with those of the notebook. -/
structure Agree (C : List Nat) (h : List Stmt) (σ : State) (ρ : Py) : Prop where
  unset : ∀ n, σ.py.env n = none → ρ.env n = none
  num : ∀ n k t, σ.py.env n = some (.num k) → σ.ts n = some t → t ∈ C → ρ.env n = some (.num k)
  ns : ∀ o v, σ.virt o = some v → v ∈ C → ρ.heap o = σ.py.heap o ∧ ∀ n, σ.py.env n = some (.ref o) → ¬ Spec.Lost n h → ρ.env n = some (.ref o)
  plain : ∀ o n t, σ.virt o = none → σ.py.env n = some (.ref o) → σ.ts n = some t → t ∈ C →
    ρ.env n = some (.ref o) ∧ ρ.heap o = σ.py.heap o ∧ ∀ m, Spec.From m n h → ∃ u, σ.ts m = some u ∧ u ∈ C

/-- A name whose links are in the selection. -/
theorem Agree.use {C : List Nat} {h : List Stmt} {σ : State} {ρ : Py} (a : Agree C h σ ρ) (i : Inv h σ) {x : Nat} {v : Val}
    (hx : σ.py.env x = some v) (hu : ∀ u ∈ useName σ x, u ∈ C) (hl : ¬ Spec.Lost x h) :
    ρ.env x = some v ∧ ∀ o, v = .ref o → ρ.heap o = σ.py.heap o := by
  have hs : (σ.ts x).isSome := (i.known x).2 (by rw [hx]; rfl)
  obtain ⟨t, ht⟩ := Option.isSome_iff_exists.1 hs
  have htC : t ∈ C := hu t (by simp [useName, ht])
  cases v with
  | num k => exact ⟨a.num x k t hx ht htC, fun o e => by cases e⟩
  | ref o =>
    cases hv : σ.virt o with
    | none => obtain ⟨h1, h2, _⟩ := a.plain o x t hv hx ht htC; exact ⟨h1, fun o' e => by cases e; exact h2⟩
    | some w =>
      have hw : w ∈ C := hu w (by simp [useName, whole, hx, hv])
      obtain ⟨h1, h2⟩ := a.ns o w hv hw
      exact ⟨h2 x hx hl, fun o' e => by cases e; exact h1⟩

theorem evalOp_isSome {p : Py} {o : Op} {a : Int} (h : evalOp p o = some a) : ∃ v, p.env o.var = some v := by
  cases o with
  | name y =>
    cases hy : p.env y with
    | none => simp [evalOp, hy] at h
    | some v => exact ⟨v, hy⟩
  | sum y =>
    cases hy : p.env y with
    | none => simp [evalOp, hy] at h
    | some v => exact ⟨v, hy⟩

theorem evalSum_congr {p q : Py} : ∀ {ops : List Op} {c n : Int}, evalSum p ops c = some n →
    (∀ o ∈ ops, ∀ v, p.env o.var = some v → q.env o.var = some v ∧ ∀ b, v = .ref b → q.heap b = p.heap b) → evalSum q ops c = some n := by
  intro ops
  induction ops with
  | nil => intro c n h _; exact h
  | cons o os ih =>
    intro c n h hv
    unfold evalSum at h
    rw [Option.bind_eq_some_iff] at h
    obtain ⟨a, ha, h⟩ := h
    rw [Option.bind_eq_some_iff] at h
    obtain ⟨b, hb, h⟩ := h
    have hq : evalOp q o = some a := by
      obtain ⟨v, hv1⟩ := evalOp_isSome ha
      obtain ⟨e1, e2⟩ := hv o (by simp) v hv1
      cases o with
      | name y =>
        dsimp only [Op.var] at e1 hv1
        simp only [evalOp, hv1] at ha
        simp only [evalOp, e1]; exact ha
      | sum y =>
        dsimp only [Op.var] at e1 hv1
        simp only [evalOp, hv1] at ha
        simp only [evalOp, e1]
        cases v with
        | num k => exact ha
        | ref o' => dsimp only at ha ⊢; rw [e2 o' rfl]; exact ha
    unfold evalSum
    rw [hq, ih hb fun o' ho' => hv o' (by simp [ho'])]
    exact h

theorem closed_prev {C : List Nat} {h : List Stmt} {s : Stmt} {σ τ : State} (i : Inv h σ) (hs : step s σ = some τ) (hc : Closed C τ) :
    Closed C σ := by
  obtain ⟨p, _, rfl⟩ := step_eq hs
  intro t ht u hu
  refine hc t ht u ?_
  have hne : t ≠ σ.time := by
    rcases hu with hu | hu
    · have := i.dynLt t u hu; omega
    · have := i.statLt t u hu; omega
  dsimp only
  rw [upd_ne _ _ hne, upd_ne _ _ hne]
  exact hu

theorem lost_of {n : Nat} {s : Stmt} {h : List Stmt} (hb : Spec.binds s ≠ some n) (hl : ¬ Spec.Lost n (s :: h)) : ¬ Spec.Lost n h :=
  fun h' => hl ⟨hb, .inl h'⟩

theorem from_of {m n : Nat} {s : Stmt} {h : List Stmt} (hb : Spec.binds s ≠ some n) (hf : Spec.From m n (s :: h)) :
    Spec.binds s ≠ some m ∧ Spec.From m n h := by
  unfold Spec.From at hf
  rw [if_neg hb] at hf
  by_cases hm : Spec.binds s = some m
  · rw [if_pos hm] at hf; exact hf.elim
  · rw [if_neg hm] at hf; exact ⟨hm, hf⟩

/-- The statement is not selected. -/
theorem agree_skip {C : List Nat} {h : List Stmt} {s : Stmt} {σ τ : State} {ρ : Py} (i : Inv h σ) (hs : step s σ = some τ)
    (a : Agree C h σ ρ) (hC : σ.time ∉ C) : Agree C (s :: h) τ ρ := by
  obtain ⟨p, he, rfl⟩ := step_eq hs
  cases he with
  | @num x ops c k hk =>
    refine ⟨fun n hn => ?_, fun n k t hn ht hC' => ?_, fun o v hv hC' => ?_, fun o n t hv hn ht hC' => ?_⟩
    · dsimp only at hn
      by_cases e : n = x
      · subst e; rw [upd_self] at hn; cases hn
      · rw [upd_ne _ _ e] at hn; exact a.unset n hn
    · dsimp only [newTs] at hn ht
      by_cases e : n = x
      · subst e; rw [upd_self] at ht; cases ht; exact absurd hC' hC
      · rw [upd_ne _ _ e] at hn ht; exact a.num n k t hn ht hC'
    · obtain ⟨h1, h2⟩ := a.ns o v hv hC'
      refine ⟨h1, fun n hn hl => ?_⟩
      dsimp only at hn
      by_cases e : n = x
      · subst e; rw [upd_self] at hn; cases hn
      · rw [upd_ne _ _ e] at hn
        exact h2 n hn (lost_of (by intro e'; cases e'; exact e rfl) hl)
    · dsimp only [newTs] at hn ht
      by_cases e : n = x
      · subst e; rw [upd_self] at ht; cases ht; exact absurd hC' hC
      · rw [upd_ne _ _ e] at hn ht
        obtain ⟨h1, h2, h3⟩ := a.plain o n t hv hn ht hC'
        refine ⟨h1, h2, fun m hm => ?_⟩
        obtain ⟨hm1, hm2⟩ := from_of (by intro e'; cases e'; exact e rfl) hm
        obtain ⟨u, hu, huC⟩ := h3 m hm2
        exact ⟨u, by dsimp only [newTs]; rw [upd_ne _ _ (fun e' => hm1 (by rw [e']; rfl))]; exact hu, huC⟩
  | @fresh x =>
    refine ⟨fun n hn => ?_, fun n k t hn ht hC' => ?_, fun o v hv hC' => ?_, fun o n t hv hn ht hC' => ?_⟩
    · dsimp only at hn
      by_cases e : n = x
      · subst e; rw [upd_self] at hn; cases hn
      · rw [upd_ne _ _ e] at hn; exact a.unset n hn
    · dsimp only [newTs] at hn ht
      by_cases e : n = x
      · subst e; rw [upd_self] at ht; cases ht; exact absurd hC' hC
      · rw [upd_ne _ _ e] at hn ht; exact a.num n k t hn ht hC'
    · dsimp only [newVirt] at hv
      by_cases eo : o = σ.time
      · subst eo; rw [upd_self] at hv; cases hv
      · rw [upd_ne _ _ eo] at hv
        obtain ⟨h1, h2⟩ := a.ns o v hv hC'
        refine ⟨by dsimp only; rw [upd_ne _ _ eo]; exact h1, fun n hn hl => ?_⟩
        dsimp only at hn
        by_cases e : n = x
        · subst e; rw [upd_self] at hn; cases hn; exact absurd rfl eo
        · rw [upd_ne _ _ e] at hn
          exact h2 n hn (lost_of (by intro e'; cases e'; exact e rfl) hl)
    · dsimp only [newTs, newVirt] at hv hn ht
      by_cases e : n = x
      · subst e; rw [upd_self] at ht; cases ht; exact absurd hC' hC
      · rw [upd_ne _ _ e] at hn ht
        have ho := (i.valid n o hn).1
        rw [upd_ne _ _ (by omega)] at hv
        obtain ⟨h1, h2, h3⟩ := a.plain o n t hv hn ht hC'
        refine ⟨h1, by dsimp only; rw [upd_ne _ _ (by omega)]; exact h2, fun m hm => ?_⟩
        obtain ⟨hm1, hm2⟩ := from_of (by intro e'; cases e'; exact e rfl) hm
        obtain ⟨u, hu, huC⟩ := h3 m hm2
        exact ⟨u, by dsimp only [newTs]; rw [upd_ne _ _ (fun e' => hm1 (by rw [e']; rfl))]; exact hu, huC⟩
  | @same y x v hx hy =>
    have hvirt : ∀ o w, newVirt σ (.same y x) o = some w → w ∈ C → σ.virt o = some w ∧ v ≠ .ref o := by
      intro o w hw hwC
      dsimp only [newVirt] at hw
      rw [hx] at hw
      cases v with
      | num n => exact ⟨hw, by simp⟩
      | ref o' =>
        dsimp only at hw
        by_cases e : o = o'
        · subst e
          rw [upd_self, Option.map_eq_some_iff] at hw
          obtain ⟨_, _, rfl⟩ := hw; exact absurd hwC hC
        · rw [upd_ne _ _ e] at hw
          exact ⟨hw, by simp [Ne.symm e]⟩
    have hvnone : ∀ o, newVirt σ (.same y x) o = none → σ.virt o = none := by
      intro o ho
      dsimp only [newVirt] at ho
      rw [hx] at ho
      cases v with
      | num n => exact ho
      | ref o' =>
        dsimp only at ho
        by_cases e : o = o'
        · subst e; rw [upd_self] at ho; simpa using ho
        · rw [upd_ne _ _ e] at ho; exact ho
    refine ⟨fun n hn => ?_, fun n k t hn ht hC' => ?_, fun o w hv hC' => ?_, fun o n t hv hn ht hC' => ?_⟩
    · dsimp only at hn
      by_cases e : n = y
      · subst e; rw [upd_self] at hn; cases hn
      · rw [upd_ne _ _ e] at hn; exact a.unset n hn
    · dsimp only [newTs] at hn ht
      by_cases e : n = y
      · subst e; rw [upd_self] at ht; cases ht; exact absurd hC' hC
      · rw [upd_ne _ _ e] at hn ht; exact a.num n k t hn ht hC'
    · obtain ⟨hv', hne⟩ := hvirt o w hv hC'
      obtain ⟨h1, h2⟩ := a.ns o w hv' hC'
      refine ⟨h1, fun n hn hl => ?_⟩
      dsimp only at hn
      by_cases e : n = y
      · subst e; rw [upd_self] at hn; cases hn; exact absurd rfl hne
      · rw [upd_ne _ _ e] at hn
        exact h2 n hn (lost_of (by intro e'; cases e'; exact e rfl) hl)
    · dsimp only [newTs] at hn ht
      by_cases e : n = y
      · subst e; rw [upd_self] at ht; cases ht; exact absurd hC' hC
      · rw [upd_ne _ _ e] at hn ht
        obtain ⟨h1, h2, h3⟩ := a.plain o n t (hvnone o hv) hn ht hC'
        refine ⟨h1, h2, fun m hm => ?_⟩
        obtain ⟨hm1, hm2⟩ := from_of (by intro e'; cases e'; exact e rfl) hm
        obtain ⟨u, hu, huC⟩ := h3 m hm2
        exact ⟨u, by dsimp only [newTs]; rw [upd_ne _ _ (fun e' => hm1 (by rw [e']; rfl))]; exact hu, huC⟩
  | @change x put ops c o l k ho hl hk =>
    have hts : ∀ n t, newTs σ (.change x put ops c) n = some t → t ∈ C → σ.ts n = some t ∧ ¬ σ.py.env n = some (.ref o) := by
      intro n t ht htC
      dsimp only [newTs] at ht
      split at ht
      · cases ht; exact absurd htC hC
      · next hal => exact ⟨ht, fun hn => hal ((isAlias_iff σ x n).2 ⟨o, ho, hn⟩)⟩
    have hvirt : ∀ o', newVirt σ (.change x put ops c) o' = if o' = o then some σ.time else σ.virt o' := by
      intro o'; simp only [newVirt, ho, upd]
    refine ⟨a.unset, fun n k t hn ht hC' => ?_, fun o' w hv hC' => ?_, fun o' n t hv hn ht hC' => ?_⟩
    · exact a.num n k t hn (hts n t ht hC').1 hC'
    · dsimp only at hv
      rw [hvirt] at hv
      split at hv
      · cases hv; exact absurd hC' hC
      · next e =>
        obtain ⟨h1, h2⟩ := a.ns o' w hv hC'
        refine ⟨by dsimp only; rw [upd_ne _ _ e]; exact h1, fun n hn hl => h2 n hn (lost_of (by simp [Spec.binds]) hl)⟩
    · dsimp only at hv
      rw [hvirt] at hv
      split at hv
      · cases hv
      · next e =>
        obtain ⟨h1, h2, h3⟩ := a.plain o' n t hv hn (hts n t ht hC').1 hC'
        refine ⟨h1, by dsimp only; rw [upd_ne _ _ e]; exact h2, fun m hm => ?_⟩
        obtain ⟨_, hm2⟩ := from_of (by simp [Spec.binds]) hm
        obtain ⟨u, hu, huC⟩ := h3 m hm2
        refine ⟨u, ?_, huC⟩
        have : isAlias σ x m = false := by
          cases hal : isAlias σ x m with
          | false => rfl
          | true =>
            exfalso
            obtain ⟨o'', h5, h6⟩ := (isAlias_iff σ x m).1 hal
            rw [ho] at h5; cases h5
            exact e (by
              have hr : Spec.run h = some σ.py := i.ran
              obtain ⟨σ', hσ', hp⟩ := track_of_run hr
              have := from_env hσ' hm2
              rw [hp, h6, hn] at this; cases this; rfl)
        dsimp only [newTs]; rw [this]; exact hu

/-- The statement is selected, with what it is linked to. -/
theorem agree_run {C : List Nat} {h : List Stmt} {s : Stmt} {σ τ : State} {ρ : Py} (i : Inv h σ) (hs : step s σ = some τ)
    (a : Agree C h σ ρ) (hC : σ.time ∈ C) (hc : ∀ u, (u ∈ dynLinks σ s ∨ u ∈ statLinks σ s) → u ∈ C) (hf : ∀ n ∈ Spec.reads s, ¬ Spec.Lost n h) :
    ∃ ρ', exec σ.time s ρ = some ρ' ∧ Agree C (s :: h) τ ρ' := by
  obtain ⟨p, he, rfl⟩ := step_eq hs
  have hvals : ∀ ops : List Op, (∀ o ∈ ops, ∀ u ∈ useName σ o.var, u ∈ C) → (∀ o ∈ ops, ¬ Spec.Lost o.var h) → ∀ c n,
      evalSum σ.py ops c = some n → evalSum ρ ops c = some n := by
    intro ops h1 h2 c n hn
    exact evalSum_congr hn fun o ho v hv => a.use i hv (h1 o ho) (h2 o ho)
  cases he with
  | @num x ops c k hk =>
    have hk' := hvals ops (fun o ho u hu => hc u (.inl (List.mem_flatMap.2 ⟨o, ho, hu⟩)))
      (fun o ho => hf o.var (List.mem_map.2 ⟨o, ho, rfl⟩)) c k hk
    refine ⟨{ ρ with env := upd ρ.env x (some (.num k)) }, by simp [exec, hk'], ?_⟩
    refine ⟨fun n hn => ?_, fun n k' t hn ht hC' => ?_, fun o v hv hC' => ?_, fun o n t hv hn ht hC' => ?_⟩
    · dsimp only at hn ⊢
      by_cases e : n = x
      · subst e; rw [upd_self] at hn; cases hn
      · rw [upd_ne _ _ e] at hn; rw [upd_ne _ _ e]; exact a.unset n hn
    · dsimp only [newTs] at hn ht ⊢
      by_cases e : n = x
      · subst e; rw [upd_self] at hn; rw [upd_self]; exact hn
      · rw [upd_ne _ _ e] at hn ht; rw [upd_ne _ _ e]; exact a.num n k' t hn ht hC'
    · obtain ⟨h1, h2⟩ := a.ns o v hv hC'
      refine ⟨h1, fun n hn hl => ?_⟩
      dsimp only at hn ⊢
      by_cases e : n = x
      · subst e; rw [upd_self] at hn; cases hn
      · rw [upd_ne _ _ e] at hn; rw [upd_ne _ _ e]
        exact h2 n hn (lost_of (by intro e'; cases e'; exact e rfl) hl)
    · dsimp only [newTs] at hn ht ⊢
      by_cases e : n = x
      · subst e; rw [upd_self] at hn; cases hn
      · rw [upd_ne _ _ e] at hn ht
        obtain ⟨h1, h2, h3⟩ := a.plain o n t hv hn ht hC'
        refine ⟨by rw [upd_ne _ _ e]; exact h1, h2, fun m hm => ?_⟩
        obtain ⟨hm1, hm2⟩ := from_of (by intro e'; cases e'; exact e rfl) hm
        obtain ⟨u, hu, huC⟩ := h3 m hm2
        exact ⟨u, by rw [upd_ne _ _ (fun e' => hm1 (by rw [e']; rfl))]; exact hu, huC⟩
  | @fresh x =>
    refine ⟨⟨upd ρ.env x (some (.ref σ.time)), upd ρ.heap σ.time (some [])⟩, rfl, ?_⟩
    refine ⟨fun n hn => ?_, fun n k' t hn ht hC' => ?_, fun o v hv hC' => ?_, fun o n t hv hn ht hC' => ?_⟩
    · dsimp only at hn ⊢
      by_cases e : n = x
      · subst e; rw [upd_self] at hn; cases hn
      · rw [upd_ne _ _ e] at hn; rw [upd_ne _ _ e]; exact a.unset n hn
    · dsimp only [newTs] at hn ht ⊢
      by_cases e : n = x
      · subst e; rw [upd_self] at hn; rw [upd_self]; exact hn
      · rw [upd_ne _ _ e] at hn ht; rw [upd_ne _ _ e]; exact a.num n k' t hn ht hC'
    · dsimp only [newVirt] at hv
      by_cases eo : o = σ.time
      · subst eo; rw [upd_self] at hv; cases hv
      · rw [upd_ne _ _ eo] at hv
        obtain ⟨h1, h2⟩ := a.ns o v hv hC'
        refine ⟨by dsimp only; rw [upd_ne _ _ eo, upd_ne _ _ eo]; exact h1, fun n hn hl => ?_⟩
        dsimp only at hn ⊢
        by_cases e : n = x
        · subst e; rw [upd_self] at hn; cases hn; exact absurd rfl eo
        · rw [upd_ne _ _ e] at hn; rw [upd_ne _ _ e]
          exact h2 n hn (lost_of (by intro e'; cases e'; exact e rfl) hl)
    · dsimp only [newTs, newVirt] at hv hn ht ⊢
      by_cases e : n = x
      · subst e
        rw [upd_self] at hn ht
        cases hn
        cases ht
        refine ⟨by rw [upd_self], by rw [upd_self, upd_self], fun m hm => ?_⟩
        unfold Spec.From at hm
        rw [if_pos (show Spec.binds (.fresh n) = some n from rfl)] at hm
        rcases hm with rfl | ⟨_, w, hw, _⟩
        · exact ⟨σ.time, by rw [upd_self], hC⟩
        · cases hw
      · rw [upd_ne _ _ e] at hn ht
        have ho := (i.valid n o hn).1
        rw [upd_ne _ _ (by omega)] at hv
        obtain ⟨h1, h2, h3⟩ := a.plain o n t hv hn ht hC'
        refine ⟨by rw [upd_ne _ _ e]; exact h1, by rw [upd_ne _ _ (by omega), upd_ne _ _ (by omega)]; exact h2, fun m hm => ?_⟩
        obtain ⟨hm1, hm2⟩ := from_of (by intro e'; cases e'; exact e rfl) hm
        obtain ⟨u, hu, huC⟩ := h3 m hm2
        exact ⟨u, by rw [upd_ne _ _ (fun e' => hm1 (by rw [e']; rfl))]; exact hu, huC⟩
  | @same y x v hx hy =>
    have hux : ∀ u ∈ useName σ x, u ∈ C := fun u hu => hc u (.inl hu)
    have hlx : ¬ Spec.Lost x h := hf x (by simp [Spec.reads])
    obtain ⟨hxρ, hhρ⟩ := a.use i hx hux hlx
    have hyρ := a.unset y hy
    have hxy : x ≠ y := by rintro rfl; rw [hx] at hy; cases hy
    refine ⟨{ ρ with env := upd ρ.env y (some v) }, by simp [exec, hxρ, hyρ], ?_⟩
    have hvirt : ∀ o, newVirt σ (.same y x) o = if v = .ref o then (σ.virt o).map (fun _ => σ.time) else σ.virt o := by
      intro o
      dsimp only [newVirt]
      rw [hx]
      cases v with
      | num n => simp
      | ref o' =>
        dsimp only
        by_cases e : o = o'
        · subst e; rw [upd_self]; simp
        · rw [upd_ne _ _ e, if_neg (by simp [Ne.symm e])]
    refine ⟨fun n hn => ?_, fun n k' t hn ht hC' => ?_, fun o w hv hC' => ?_, fun o n t hv hn ht hC' => ?_⟩
    · dsimp only at hn ⊢
      by_cases e : n = y
      · subst e; rw [upd_self] at hn; cases hn
      · rw [upd_ne _ _ e] at hn; rw [upd_ne _ _ e]; exact a.unset n hn
    · dsimp only [newTs] at hn ht ⊢
      by_cases e : n = y
      · subst e; rw [upd_self] at hn; rw [upd_self]; exact hn
      · rw [upd_ne _ _ e] at hn ht; rw [upd_ne _ _ e]; exact a.num n k' t hn ht hC'
    · dsimp only at hv
      rw [hvirt] at hv
      have hprev : ∃ w', σ.virt o = some w' ∧ w' ∈ C := by
        by_cases e : v = .ref o
        · rw [if_pos e, Option.map_eq_some_iff] at hv
          obtain ⟨w', hw', _⟩ := hv
          exact ⟨w', hw', hux w' (by simp [useName, whole, hx, e, hw'])⟩
        · rw [if_neg e] at hv; exact ⟨w, hv, hC'⟩
      obtain ⟨w', hw', hwC⟩ := hprev
      obtain ⟨h1, h2⟩ := a.ns o w' hw' hwC
      refine ⟨h1, fun n hn hl => ?_⟩
      dsimp only at hn ⊢
      by_cases e : n = y
      · subst e; rw [upd_self] at hn; rw [upd_self]; exact hn
      · rw [upd_ne _ _ e] at hn; rw [upd_ne _ _ e]
        exact h2 n hn (lost_of (by intro e'; cases e'; exact e rfl) hl)
    · dsimp only at hv
      rw [hvirt] at hv
      have hv' : σ.virt o = none := by
        by_cases e : v = .ref o
        · rw [if_pos e] at hv; simpa using hv
        · rw [if_neg e] at hv; exact hv
      dsimp only [newTs] at hn ht ⊢
      by_cases e : n = y
      · subst e
        rw [upd_self] at hn
        cases hn
        obtain ⟨tx, htx⟩ := Option.isSome_iff_exists.1 ((i.known x).2 (by rw [hx]; rfl))
        obtain ⟨h1, h2, h3⟩ := a.plain o x tx hv' hx htx (hux tx (by simp [useName, htx]))
        refine ⟨by rw [upd_self], h2, fun m hm => ?_⟩
        unfold Spec.From at hm
        rw [if_pos (show Spec.binds (.same n x) = some n from rfl)] at hm
        rcases hm with rfl | ⟨hne, w, hw, hm⟩
        · exact ⟨σ.time, by rw [upd_self], hC⟩
        · cases hw
          obtain ⟨u, hu, huC⟩ := h3 m hm
          exact ⟨u, by rw [upd_ne _ _ hne]; exact hu, huC⟩
      · rw [upd_ne _ _ e] at hn ht
        obtain ⟨h1, h2, h3⟩ := a.plain o n t hv' hn ht hC'
        refine ⟨by rw [upd_ne _ _ e]; exact h1, h2, fun m hm => ?_⟩
        obtain ⟨hm1, hm2⟩ := from_of (by intro e'; cases e'; exact e rfl) hm
        obtain ⟨u, hu, huC⟩ := h3 m hm2
        exact ⟨u, by rw [upd_ne _ _ (fun e' => hm1 (by rw [e']; rfl))]; exact hu, huC⟩
  | @change x put ops c o l k ho hl hk =>
    have hux : ∀ u ∈ useName σ x, u ∈ C := fun u hu => hc u (.inl (List.mem_append_left _ hu))
    have hlx : ¬ Spec.Lost x h := hf x (by simp [Spec.reads])
    obtain ⟨hxρ, hhρ⟩ := a.use i ho hux hlx
    have hho := hhρ o rfl
    have hk' := hvals ops (fun o ho u hu => hc u (.inr (List.mem_append_right _ (List.mem_flatMap.2 ⟨o, ho, hu⟩))))
      (fun o ho => hf o.var (List.mem_cons_of_mem _ (List.mem_map.2 ⟨o, ho, rfl⟩))) c k hk
    refine ⟨{ ρ with heap := upd ρ.heap o (some (alter put k l)) }, by simp [exec, hxρ, hho, hl, hk'], ?_⟩
    have hvirt : ∀ o', newVirt σ (.change x put ops c) o' = if o' = o then some σ.time else σ.virt o' := by
      intro o'; simp only [newVirt, ho, upd]
    have hts : ∀ n, ¬ σ.py.env n = some (.ref o) → newTs σ (.change x put ops c) n = σ.ts n := by
      intro n hn
      dsimp only [newTs]
      rw [if_neg]
      intro hal
      obtain ⟨o', h5, h6⟩ := (isAlias_iff σ x n).1 hal
      rw [ho] at h5; cases h5; exact hn h6
    refine ⟨a.unset, fun n k' t hn ht hC' => ?_, fun o' w hv hC' => ?_, fun o' n t hv hn ht hC' => ?_⟩
    · dsimp only at hn ht
      rw [hts n (by rw [hn]; simp)] at ht
      exact a.num n k' t hn ht hC'
    · dsimp only at hv
      rw [hvirt] at hv
      by_cases e : o' = o
      · subst e
        refine ⟨by dsimp only; rw [upd_self, upd_self], fun n hn hnl => ?_⟩
        dsimp only at hn ⊢
        cases hw : σ.virt o' with
        | some w' =>
          exact (a.ns o' w' hw (hux w' (by simp [useName, whole, ho, hw]))).2 n hn (lost_of (by simp [Spec.binds]) hnl)
        | none =>
          have hfrom : Spec.From n x h := by
            by_contra hnf
            refine hnl ⟨by simp [Spec.binds], .inr ⟨x, put, ops, c, o', rfl, (i.obj x o').2 ho, (i.obj n o').2 hn, ?_, hnf⟩⟩
            rw [← i.changed, hw]; simp
          obtain ⟨tx, htx⟩ := Option.isSome_iff_exists.1 ((i.known x).2 (by rw [ho]; rfl))
          obtain ⟨_, _, h3⟩ := a.plain o' x tx hw ho htx (hux tx (by simp [useName, htx]))
          obtain ⟨u, hu, huC⟩ := h3 n hfrom
          exact (a.plain o' n u hw hn hu huC).1
      · rw [if_neg e] at hv
        obtain ⟨h1, h2⟩ := a.ns o' w hv hC'
        exact ⟨by dsimp only; rw [upd_ne _ _ e, upd_ne _ _ e]; exact h1, fun n hn hl => h2 n hn (lost_of (by simp [Spec.binds]) hl)⟩
    · dsimp only at hv
      rw [hvirt] at hv
      by_cases e : o' = o
      · rw [if_pos e] at hv; cases hv
      · rw [if_neg e] at hv
        dsimp only at hn ht
        rw [hts n (by rw [hn]; simp [e])] at ht
        obtain ⟨h1, h2, h3⟩ := a.plain o' n t hv hn ht hC'
        refine ⟨h1, by dsimp only; rw [upd_ne _ _ e, upd_ne _ _ e]; exact h2, fun m hm => ?_⟩
        obtain ⟨_, hm2⟩ := from_of (by simp [Spec.binds]) hm
        obtain ⟨u, hu, huC⟩ := h3 m hm2
        refine ⟨u, ?_, huC⟩
        obtain ⟨σ', hσ', hp⟩ := track_of_run i.ran
        have hmn := from_env hσ' hm2
        rw [hp, hn] at hmn
        dsimp only
        rw [hts m (by rw [hmn]; simp [e])]
        exact hu

theorem agree {C : List Nat} {h : List Stmt} {σ : State} (ht : track h = some σ) (hc : Closed C σ) (hf : Spec.Fine h) :
    ∃ ρ, Spec.only C h = some ρ ∧ Agree C h σ ρ := by
  induction h generalizing σ with
  | nil =>
    cases ht
    refine ⟨Spec.empty, rfl, fun n _ => rfl, ?_, ?_, ?_⟩
    · intro n k t hn; simp [State.init] at hn
    · intro o v hv; simp [State.init] at hv
    · intro o n t _ hn; simp [State.init] at hn
  | cons s h ih =>
    unfold track at ht
    rw [Option.bind_eq_some_iff] at ht
    obtain ⟨σ0, h0, hs⟩ := ht
    have i := inv_track h0
    obtain ⟨ρ, hρ, a⟩ := ih h0 (closed_prev i hs hc) hf.1
    unfold Spec.only
    rw [hρ, Option.bind_some, ← i.time]
    by_cases hC : σ0.time ∈ C
    · rw [if_pos hC]
      refine agree_run i hs a hC (fun u hu => hc σ0.time hC u ?_) hf.2
      obtain ⟨p, _, rfl⟩ := step_eq hs
      dsimp only
      rw [upd_self, upd_self]; exact hu
    · rw [if_neg hC]
      exact ⟨ρ, rfl, agree_skip i hs a hC⟩

end Verif.Inplace
