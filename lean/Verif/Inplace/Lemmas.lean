import Verif.Inplace.Spec

/-! What is known about a notebook after each statement. -/

namespace Verif.Inplace
open Verif

theorem upd_self {α : Type} (f : Nat → α) (a : Nat) (v : α) : upd f a v a = v := by simp [upd]

theorem upd_ne {α : Type} (f : Nat → α) {a b : Nat} (v : α) (h : b ≠ a) : upd f a v b = f b := by simp [upd, h]

theorem isAlias_iff (σ : State) (x y : Nat) : isAlias σ x y = true ↔ ∃ o, σ.py.env x = some (.ref o) ∧ σ.py.env y = some (.ref o) := by
  unfold isAlias
  cases hx : σ.py.env x with
  | none => simp
  | some v =>
    cases v with
    | num n => simp
    | ref o =>
      cases hy : σ.py.env y with
      | none => simp
      | some w =>
        cases w with
        | num n => simp
        | ref o' => simp [eq_comm]

/-- What a statement does, as a relation. -/
inductive Eff (t : Nat) (p : Py) : Stmt → Py → Prop
  | num {x ops c n} : evalSum p ops c = some n → Eff t p (.num x ops c) { p with env := upd p.env x (some (.num n)) }
  | fresh {x} : Eff t p (.fresh x) ⟨upd p.env x (some (.ref t)), upd p.heap t (some [])⟩
  | same {y x v} : p.env x = some v → p.env y = none → Eff t p (.same y x) { p with env := upd p.env y (some v) }
  | change {x put ops c o l n} : p.env x = some (.ref o) → p.heap o = some l → evalSum p ops c = some n →
      Eff t p (.change x put ops c) { p with heap := upd p.heap o (some (alter put n l)) }

theorem exec_iff (t : Nat) (s : Stmt) (p q : Py) : exec t s p = some q ↔ Eff t p s q := by
  constructor
  · intro h
    cases s with
    | num x ops c =>
      simp only [exec, Option.map_eq_some_iff] at h
      obtain ⟨n, hn, rfl⟩ := h
      exact .num hn
    | fresh x =>
      simp only [exec, Option.some.injEq] at h
      subst h; exact .fresh
    | same y x =>
      simp only [exec] at h
      split at h
      · next v hv =>
        split at h
        · cases h
        · next hy =>
          simp only [Option.some.injEq] at h
          subst h
          exact .same hv (by simpa using hy)
      · cases h
    | change x put ops c =>
      simp only [exec] at h
      split at h
      · next o ho =>
        split at h
        · next l hl =>
          simp only [Option.map_eq_some_iff] at h
          obtain ⟨n, hn, rfl⟩ := h
          exact .change ho hl hn
        · cases h
      · cases h
  · intro h
    cases h with
    | num hn => simp [exec, hn]
    | fresh => simp [exec]
    | same hv hy => simp [exec, hv, hy]
    | change ho hl hn => simp [exec, ho, hl, hn]

/-- What holds after the statements `h`. -/
structure Inv (h : List Stmt) (σ : State) : Prop where
  ran : Spec.run h = some σ.py
  time : σ.time = h.length
  known : ∀ n, (σ.ts n).isSome ↔ (σ.py.env n).isSome
  tsLt : ∀ n t, σ.ts n = some t → t < σ.time
  virtLt : ∀ o t, σ.virt o = some t → t < σ.time
  valid : ∀ n o, σ.py.env n = some (.ref o) → o < σ.time ∧ (σ.py.heap o).isSome
  changed : ∀ o, (σ.virt o).isSome ↔ Spec.Changed o h
  virtOld : ∀ o, (σ.virt o).isSome → o < σ.time
  dynLt : ∀ t, ∀ u ∈ σ.dyn t, u < t ∧ t < σ.time
  statLt : ∀ t, ∀ u ∈ σ.stat t, u < t ∧ t < σ.time
  text : ∀ t, t < h.length → σ.text t = h.reverse[t]?

theorem Inv.obj {h : List Stmt} {σ : State} (i : Inv h σ) (x o : Nat) : Spec.obj h x = some o ↔ σ.py.env x = some (.ref o) := by
  unfold Spec.obj
  rw [i.ran]
  simp only [Option.bind_some]
  cases hx : σ.py.env x with
  | none => simp
  | some v => cases v <;> simp

theorem Inv.useLt {h : List Stmt} {σ : State} (i : Inv h σ) (x u : Nat) (hu : u ∈ useName σ x) : u < σ.time := by
  unfold useName whole at hu
  rw [List.mem_append] at hu
  rcases hu with hu | hu
  · exact i.tsLt x u (by simpa using hu)
  · split at hu
    · exact i.virtLt _ u (by simpa using hu)
    · cases hu

theorem Inv.opsLt {h : List Stmt} {σ : State} (i : Inv h σ) (ops : List Op) (u : Nat) (hu : u ∈ ops.flatMap fun o => useName σ o.var) :
    u < σ.time := by
  obtain ⟨o, _, ho⟩ := List.mem_flatMap.1 hu
  exact i.useLt _ _ ho

theorem Inv.lateLt {h : List Stmt} {σ : State} (i : Inv h σ) (x : Nat) (ops : List Op) (u : Nat) (hu : u ∈ lateOps σ x ops) : u < σ.time := by
  obtain ⟨o, _, ho⟩ := List.mem_flatMap.1 hu
  split at ho
  · cases ho
  · exact i.useLt _ _ ho

theorem Inv.dynNew {h : List Stmt} {σ : State} (i : Inv h σ) (s : Stmt) (u : Nat) (hu : u ∈ dynLinks σ s) : u < σ.time := by
  cases s with
  | num x ops c => exact i.opsLt ops u hu
  | fresh x => cases hu
  | same y x => exact i.useLt x u hu
  | change x put ops c =>
    rcases List.mem_append.1 hu with hu | hu
    · exact i.useLt x u hu
    · exact i.lateLt x ops u hu

theorem Inv.statNew {h : List Stmt} {σ : State} (i : Inv h σ) (s : Stmt) (u : Nat) (hu : u ∈ statLinks σ s) : u < σ.time := by
  cases s with
  | num x ops c => exact i.opsLt ops u hu
  | fresh x => cases hu
  | same y x => exact i.useLt x u hu
  | change x put ops c =>
    rcases List.mem_append.1 hu with hu | hu
    · exact i.tsLt x u (by simpa using hu)
    · exact i.opsLt ops u hu

theorem step_eq {s : Stmt} {σ τ : State} (hs : step s σ = some τ) : ∃ p, Eff σ.time σ.py s p ∧
    τ = { py := p, time := σ.time + 1, ts := newTs σ s, virt := newVirt σ s,
          dyn := upd σ.dyn σ.time (dynLinks σ s), stat := upd σ.stat σ.time (statLinks σ s), text := upd σ.text σ.time (some s) } := by
  unfold step at hs
  rw [Option.map_eq_some_iff] at hs
  obtain ⟨p, hp, rfl⟩ := hs
  exact ⟨p, (exec_iff _ _ _ _).1 hp, rfl⟩

theorem changed_cons {o : Nat} {h : List Stmt} {s : Stmt} (hn : ∀ x put ops c, s ≠ .change x put ops c) :
    Spec.Changed o (s :: h) ↔ Spec.Changed o h := by
  constructor
  · rintro (h' | ⟨x, put, ops, c, e, _⟩)
    · exact h'
    · exact absurd e (hn _ _ _ _)
  · exact .inl

theorem inv_init : Inv [] .init where
  ran := rfl
  time := rfl
  known := by intro n; simp [State.init]
  tsLt := by intro n t h; simp [State.init] at h
  virtLt := by intro n t h; simp [State.init] at h
  valid := by intro n o h; simp [State.init] at h
  changed := by intro o; simp [State.init, Spec.Changed]
  virtOld := by intro o h; simp [State.init] at h
  dynLt := by intro t u h; simp [State.init] at h
  statLt := by intro t u h; simp [State.init] at h
  text := by intro t h; simp at h

theorem inv_step {h : List Stmt} {σ τ : State} (i : Inv h σ) (s : Stmt) (hs : step s σ = some τ) : Inv (s :: h) τ := by
  obtain ⟨p, he, rfl⟩ := step_eq hs
  have hran : Spec.run (s :: h) = some p := by
    unfold Spec.run
    rw [i.ran]
    rw [Option.bind_some, ← i.time]
    exact (exec_iff _ _ _ _).2 he
  have hdyn : ∀ t, ∀ u ∈ upd σ.dyn σ.time (dynLinks σ s) t, u < t ∧ t < σ.time + 1 := by
    intro t u hu
    by_cases e : t = σ.time
    · subst e; rw [upd_self] at hu; exact ⟨i.dynNew s u hu, by omega⟩
    · rw [upd_ne _ _ e] at hu; have := i.dynLt t u hu; omega
  have hstat : ∀ t, ∀ u ∈ upd σ.stat σ.time (statLinks σ s) t, u < t ∧ t < σ.time + 1 := by
    intro t u hu
    by_cases e : t = σ.time
    · subst e; rw [upd_self] at hu; exact ⟨i.statNew s u hu, by omega⟩
    · rw [upd_ne _ _ e] at hu; have := i.statLt t u hu; omega
  have htext : ∀ t, t < (s :: h).length → upd σ.text σ.time (some s) t = (s :: h).reverse[t]? := by
    intro t ht
    rw [List.reverse_cons]
    by_cases e : t = σ.time
    · subst e
      rw [upd_self, i.time, List.getElem?_append_right (by simp)]
      simp
    · rw [upd_ne _ _ e]
      have : t < h.length := by
        have := i.time
        simp only [List.length_cons] at ht; omega
      rw [i.text t this, List.getElem?_append_left (by simpa using this)]
  have htime : σ.time + 1 = (s :: h).length := by simp [i.time]
  cases he with
  | @num x ops c n hn =>
    refine ⟨hran, htime, ?_, ?_, ?_, ?_, ?_, ?_, hdyn, hstat, htext⟩
    · intro m
      by_cases e : m = x
      · subst e; simp [newTs, upd_self]
      · simp only [newTs, upd_ne _ _ e]; exact i.known m
    · intro m t hm
      dsimp only [newTs] at hm ⊢
      by_cases e : m = x
      · subst e; rw [upd_self] at hm; cases hm; omega
      · rw [upd_ne _ _ e] at hm; have := i.tsLt m t hm; omega
    · intro o t ho; have := i.virtLt o t ho; dsimp only; omega
    · intro m o hm
      dsimp only at hm ⊢
      by_cases e : m = x
      · subst e; rw [upd_self] at hm; cases hm
      · rw [upd_ne _ _ e] at hm; have := i.valid m o hm; exact ⟨by omega, this.2⟩
    · intro o; rw [changed_cons (by intros; simp)]; exact i.changed o
    · intro o ho; have := i.virtOld o ho; dsimp only; omega
  | @fresh x =>
    refine ⟨hran, htime, ?_, ?_, ?_, ?_, ?_, ?_, hdyn, hstat, htext⟩
    · intro m
      by_cases e : m = x
      · subst e; simp [newTs, upd_self]
      · simp only [newTs, upd_ne _ _ e]; exact i.known m
    · intro m t hm
      dsimp only [newTs] at hm ⊢
      by_cases e : m = x
      · subst e; rw [upd_self] at hm; cases hm; omega
      · rw [upd_ne _ _ e] at hm; have := i.tsLt m t hm; omega
    · intro o t ho
      dsimp only [newVirt] at ho ⊢
      by_cases e : o = σ.time
      · subst e; rw [upd_self] at ho; cases ho
      · rw [upd_ne _ _ e] at ho; have := i.virtLt o t ho; omega
    · intro m o hm
      dsimp only at hm ⊢
      by_cases e : m = x
      · subst e; rw [upd_self] at hm; cases hm; exact ⟨by omega, by simp [upd_self]⟩
      · rw [upd_ne _ _ e] at hm
        have := i.valid m o hm
        exact ⟨by omega, by rw [upd_ne _ _ (by omega)]; exact this.2⟩
    · intro o
      rw [changed_cons (by intros; simp), ← i.changed o]
      dsimp only [newVirt]
      by_cases e : o = σ.time
      · subst e
        rw [upd_self]
        have : σ.virt σ.time = none := by
          cases hv : σ.virt σ.time with
          | none => rfl
          | some v => have := i.virtOld _ (by rw [hv]; rfl); omega
        rw [this]
      · rw [upd_ne _ _ e]
    · intro o ho
      dsimp only [newVirt] at ho ⊢
      by_cases e : o = σ.time
      · subst e; rw [upd_self] at ho; cases ho
      · rw [upd_ne _ _ e] at ho; have := i.virtOld o ho; omega
  | @same y x v hv hy =>
    refine ⟨hran, htime, ?_, ?_, ?_, ?_, ?_, ?_, hdyn, hstat, htext⟩
    · intro m
      by_cases e : m = y
      · subst e; simp [newTs, upd_self]
      · simp only [newTs, upd_ne _ _ e]; exact i.known m
    · intro m t hm
      dsimp only [newTs] at hm ⊢
      by_cases e : m = y
      · subst e; rw [upd_self] at hm; cases hm; omega
      · rw [upd_ne _ _ e] at hm; have := i.tsLt m t hm; omega
    · intro o t ho
      dsimp only [newVirt] at ho ⊢
      rw [hv] at ho
      cases v with
      | num n => have := i.virtLt o t ho; omega
      | ref o' =>
        dsimp only at ho
        by_cases e : o = o'
        · subst e
          rw [upd_self, Option.map_eq_some_iff] at ho
          obtain ⟨_, _, rfl⟩ := ho; omega
        · rw [upd_ne _ _ e] at ho; have := i.virtLt o t ho; omega
    · intro m o hm
      dsimp only at hm ⊢
      by_cases e : m = y
      · subst e; rw [upd_self] at hm; cases hm; have := i.valid x o hv; exact ⟨by omega, this.2⟩
      · rw [upd_ne _ _ e] at hm; have := i.valid m o hm; exact ⟨by omega, this.2⟩
    · intro o
      rw [changed_cons (by intros; simp), ← i.changed o]
      dsimp only [newVirt]
      rw [hv]
      cases v with
      | num n => rfl
      | ref o' =>
        dsimp only
        by_cases e : o = o'
        · subst e; rw [upd_self]; simp
        · rw [upd_ne _ _ e]
    · intro o ho
      dsimp only [newVirt] at ho ⊢
      rw [hv] at ho
      cases v with
      | num n => have := i.virtOld o ho; omega
      | ref o' =>
        dsimp only at ho
        by_cases e : o = o'
        · subst e; have := (i.valid x o hv).1; omega
        · rw [upd_ne _ _ e] at ho; have := i.virtOld o ho; omega
  | @change x put ops c o l n ho hl hn =>
    refine ⟨hran, htime, ?_, ?_, ?_, ?_, ?_, ?_, hdyn, hstat, htext⟩
    · intro m
      dsimp only [newTs]
      split
      · next ha =>
        obtain ⟨o', _, hm⟩ := (isAlias_iff σ x m).1 ha
        simp [hm]
      · exact i.known m
    · intro m t hm
      dsimp only [newTs] at hm ⊢
      split at hm
      · cases hm; omega
      · have := i.tsLt m t hm; omega
    · intro o' t ho'
      dsimp only [newVirt] at ho' ⊢
      rw [ho] at ho'
      dsimp only at ho'
      by_cases e : o' = o
      · subst e; rw [upd_self] at ho'; cases ho'; omega
      · rw [upd_ne _ _ e] at ho'; have := i.virtLt o' t ho'; omega
    · intro m o' hm
      dsimp only at hm ⊢
      have := i.valid m o' hm
      refine ⟨by omega, ?_⟩
      by_cases e : o' = o
      · subst e; rw [upd_self]; rfl
      · rw [upd_ne _ _ e]; exact this.2
    · intro o'
      dsimp only [newVirt]
      rw [ho]
      dsimp only
      by_cases e : o' = o
      · subst e
        rw [upd_self]
        simp only [Option.isSome_some, true_iff]
        exact .inr ⟨x, put, ops, c, rfl, (i.obj x o').2 ho⟩
      · rw [upd_ne _ _ e, i.changed]
        constructor
        · exact .inl
        · rintro (h' | ⟨x', put', ops', c', e', hx'⟩)
          · exact h'
          · cases e'
            have := (i.obj x o').1 hx'
            rw [ho] at this; cases this; exact absurd rfl e
    · intro o' ho'
      dsimp only [newVirt] at ho' ⊢
      rw [ho] at ho'
      dsimp only at ho'
      by_cases e : o' = o
      · subst e; have := (i.valid x o' ho).1; omega
      · rw [upd_ne _ _ e] at ho'; have := i.virtOld o' ho'; omega

theorem inv_track {h : List Stmt} {σ : State} (ht : track h = some σ) : Inv h σ := by
  induction h generalizing σ with
  | nil => cases ht; exact inv_init
  | cons s h ih =>
    unfold track at ht
    rw [Option.bind_eq_some_iff] at ht
    obtain ⟨ρ, hρ, hs⟩ := ht
    exact inv_step (ih hρ) s hs

theorem track_of_run {h : List Stmt} {p : Py} (hr : Spec.run h = some p) : ∃ σ, track h = some σ ∧ σ.py = p := by
  induction h generalizing p with
  | nil => exact ⟨.init, rfl, by cases hr; rfl⟩
  | cons s h ih =>
    unfold Spec.run at hr
    rw [Option.bind_eq_some_iff] at hr
    obtain ⟨q, hq, he⟩ := hr
    obtain ⟨σ, hσ, rfl⟩ := ih hq
    have i := inv_track hσ
    rw [← i.time] at he
    have hs : ∃ τ, step s σ = some τ ∧ τ.py = p := by unfold step; rw [he]; exact ⟨_, rfl, rfl⟩
    obtain ⟨τ, hτ, hp⟩ := hs
    exact ⟨τ, by unfold track; rw [hσ, Option.bind_some]; exact hτ, hp⟩

end Verif.Inplace
