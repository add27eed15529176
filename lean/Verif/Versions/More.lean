import Verif.Versions.Props

/-! # C134, C135: when versions are right, and the time of a variable -/

namespace Verif.Versions
open Verif

theorem versions_untouched {x : Nat} {h : List Stmt} (hu : Spec.Untouched x h) : Spec.versions x h = Spec.changes x h := by
  induction h with
  | nil => rfl
  | cons s h ih =>
    obtain ⟨h1, h2⟩ := hu
    simp only [Spec.versions, Spec.changes, ih h1]
    cases s with
    | num y ops c => rfl
    | dict y items => rfl
    | put y k ops c => dsimp only at h2 ⊢; rw [h2]; rfl
    | same y z =>
      dsimp only at h2 ⊢
      simp only [Spec.binds, Option.some.injEq]
      by_cases e : y = x
      · rw [if_pos e, if_pos e, h2.2 e]; rfl
      · rw [if_neg e, if_neg e, h2.1]; rfl

/-- **C134**: `code(x, version=v)` gives a program that makes `x` what it was after the `v`-th of its changes, provided that `x` was only bound. Partial:
not for dictionaries that are changed (`change_lost`) or have a second name (`name_counts`, `first_raises`). -/
theorem old_version_partial {h : List Stmt} {σ : State} (ht : track h = some σ) (hd : Spec.Direct h) {stat : Nat → List Nat}
    (he : Spec.Earlier stat) (x : Nat) (hu : Spec.Untouched x h) (v : Int) (w : Spec.View)
    (hw : pyIndex (Spec.changes x h) v = some (some w)) :
    ∃ C ρ r, code σ stat x v = .ok C ∧ runCode σ C ⟨[], []⟩ = some ρ ∧ Spec.view ρ x = some r ∧ Spec.Same r w := by
  by_cases hv : v = -1
  · subst hv
    refine current_partial ht hd he x w ?_
    rw [pyIndex_last] at hw
    have key : ∀ (g : List Stmt) (τ : State), track g = some τ → Spec.Untouched x g → (Spec.changes x g).getLast?.join = Spec.now g x := by
      intro g
      induction g with
      | nil => intro τ h1 _; rfl
      | cons s g ih =>
        intro τ h1 hu
        have h1' := h1
        simp only [track, Option.bind_eq_some_iff] at h1
        obtain ⟨σ₀, h0, hst⟩ := h1
        have ih := ih σ₀ h0 hu.1
        have i := inv_track h0
        have i' := inv_track h1'
        simp only [step, Option.bind_eq_some_iff, Option.some.injEq] at hst
        obtain ⟨p, hp, rfl⟩ := hst
        have keep : (∀ y, Spec.binds s = some y → y ≠ x) → (∀ y k ops c, s = .put y k ops c → Spec.shared g x y = false) →
            Spec.now (s :: g) x = Spec.now g x := by
          intro hb hsh
          simp only [Spec.now, i.py, i'.py, Option.bind_some]
          cases s with
          | num y ops c =>
            simp only [exec, Option.bind_eq_some_iff, Option.some.injEq] at hp
            obtain ⟨n, _, rfl⟩ := hp
            simp only [Spec.view, Assoc.get_set, if_neg (Ne.symm (hb y rfl))]
          | dict y items =>
            simp only [exec, Option.bind_eq_some_iff, Option.some.injEq] at hp
            obtain ⟨n, _, rfl⟩ := hp
            simp only [Spec.view, Assoc.get_set, if_neg (Ne.symm (hb y rfl))]
            cases e : Assoc.get σ₀.py.env x with
            | none => rfl
            | some a =>
              cases a with
              | num _ => rfl
              | ref o =>
                obtain ⟨d, hd⟩ := Option.isSome_iff_exists.1 (i.ref x o e)
                have := (i.heap o d hd).1
                dsimp only
                rw [if_neg (by omega)]
          | same y z =>
            simp only [exec, Option.bind_eq_some_iff] at hp
            obtain ⟨v, _, hp⟩ := hp
            split at hp
            · cases hp
            · cases hp
              simp only [Spec.view, Assoc.get_set, if_neg (Ne.symm (hb y rfl))]
          | put y k ops c =>
            simp only [exec, Option.bind_eq_some_iff] at hp
            obtain ⟨n, _, hp⟩ := hp
            have hs := hsh y k ops c rfl
            split at hp
            · rename_i o eo
              simp only [Option.bind_eq_some_iff, Option.some.injEq] at hp
              obtain ⟨d, _, rfl⟩ := hp
              simp only [Spec.view]
              cases e : Assoc.get σ₀.py.env x with
              | none => rfl
              | some a =>
                cases a with
                | num _ => rfl
                | ref o' =>
                  have hne : o' ≠ o := by
                    rintro rfl
                    rw [(shared_iff i x y).2 ⟨o', e, eo⟩] at hs
                    cases hs
                  simp only [Assoc.get_set, if_neg hne]
            · cases hp
        have bound : Spec.binds s = some x ∨ ∀ y, Spec.binds s = some y → y ≠ x := by
          cases e : Spec.binds s with
          | none => right; intro y hy; cases hy
          | some y =>
            by_cases e2 : y = x
            · left; rw [e2]
            · right; intro z hz; cases hz; exact e2
        simp only [Spec.changes]
        cases s with
        | put y k ops c =>
          have hsh : Spec.shared g x y = false := hu.2
          dsimp only
          rw [hsh, keep (fun _ h => by cases h) (fun y' k' ops' c' e => by cases e; exact hsh)]
          simpa using ih
        | num y ops c =>
          dsimp only
          rcases bound with hb | hb
          · rw [if_pos hb]; simp
          · rw [if_neg (fun e => hb x e rfl), keep hb (fun _ _ _ _ h => by cases h)]; simpa using ih
        | dict y items =>
          dsimp only
          rcases bound with hb | hb
          · rw [if_pos hb]; simp
          · rw [if_neg (fun e => hb x e rfl), keep hb (fun _ _ _ _ h => by cases h)]; simpa using ih
        | same y z =>
          dsimp only
          rcases bound with hb | hb
          · rw [if_pos hb]; simp
          · rw [if_neg (fun e => hb x e rfl), keep hb (fun _ _ _ _ h => by cases h)]; simpa using ih
    have := key h σ ht hu
    rw [hw] at this
    exact this.symm
  · exact (version_exact ht hd he x v hv).1 w (by rw [versions_untouched hu]; exact hw)

theorem versions_append (x : Nat) (l g : List Stmt) : ∃ r, Spec.versions x (l ++ g) = Spec.versions x g ++ r := by
  induction l with
  | nil => exact ⟨[], by simp⟩
  | cons s l ih =>
    obtain ⟨r, hr⟩ := ih
    cases s <;> exact ⟨r ++ _, by rw [List.cons_append]; simp only [Spec.versions]; rw [hr, List.append_assoc]⟩

theorem pyIndex_at {α : Type} (a : List α) (b : α) (c : List α) : pyIndex (a ++ b :: c) (a.length : Int) = some b := by
  unfold pyIndex
  rw [if_pos (Int.natCast_nonneg _)]
  simp

/-- **C134** is violated: whatever is done later, the version of `x` that is made by `y[k] = …`, where `x` and `y` are the same dictionary, has code that
gives what `x` was when it was last bound, without this change or any that came between. -/
theorem change_lost {l g : List Stmt} {y k : Nat} {ops : List Operand} {c : Int} {σ : State}
    (ht : track (l ++ .put y k ops c :: g) = some σ) (hd : Spec.Direct (l ++ .put y k ops c :: g)) {stat : Nat → List Nat}
    (he : Spec.Earlier stat) (x : Nat) (hsh : Spec.shared g x y = true) :
    ∃ C ρ r w, code σ stat x (Spec.versions x g).length = .ok C ∧ runCode σ C ⟨[], []⟩ = some ρ ∧ Spec.view ρ x = some r ∧
      Spec.lastBound x g = some w ∧ Spec.Same r w := by
  obtain ⟨τ, h1, _⟩ := track_append ht
  simp only [track, Option.bind_eq_some_iff] at h1
  obtain ⟨σ₀, h0, _⟩ := h1
  have i := inv_track h0
  obtain ⟨o, ho, _⟩ := (shared_iff i x y).1 hsh
  have hx : (Assoc.get σ₀.syms x).isSome = true := by rw [i.dom, ho]; rfl
  obtain ⟨s, hs⟩ := Option.isSome_iff_exists.1 hx
  obtain ⟨_, w, hw, _⟩ := (hist_track h0).known x s hs
  obtain ⟨r, hr⟩ := versions_append x l (.put y k ops c :: g)
  have hidx : pyIndex (Spec.versions x (l ++ .put y k ops c :: g)) (Spec.versions x g).length = some (some w) := by
    rw [hr]
    simp only [Spec.versions, hsh, if_true, hw, List.append_assoc, List.singleton_append]
    exact pyIndex_at _ _ _
  obtain ⟨C, ρ, r', a, b, c', d⟩ := (version_exact ht hd he x _ (by omega)).1 w hidx
  exact ⟨C, ρ, r', w, a, b, c', hw, d⟩

/-- **C134** is violated: giving the dictionary `z` another name makes a further version of `z` and of every other name of it. -/
theorem name_counts {g : List Stmt} {y z : Nat} {σ : State} (ht : track (.same y z :: g) = some σ) (x : Nat) (hsh : Spec.shared g x z = true) :
    (Spec.versions x (.same y z :: g)).length = (Spec.versions x g).length + 1 ∧ Spec.now (.same y z :: g) x = Spec.now g x := by
  have i' := inv_track ht
  simp only [track, Option.bind_eq_some_iff] at ht
  obtain ⟨σ₀, h0, hst⟩ := ht
  have i := inv_track h0
  obtain ⟨o, ho, _⟩ := (shared_iff i x z).1 hsh
  simp only [step, Option.bind_eq_some_iff, Option.some.injEq] at hst
  obtain ⟨p, hp, rfl⟩ := hst
  simp only [exec, Option.bind_eq_some_iff] at hp
  obtain ⟨v, _, hp⟩ := hp
  split at hp
  · cases hp
  · rename_i hy
    cases hp
    have hne : y ≠ x := by rintro rfl; rw [ho] at hy; exact hy rfl
    refine ⟨?_, ?_⟩
    · simp only [Spec.versions, if_neg hne, hsh, if_true, List.length_append, List.length_singleton]
    · simp only [Spec.now, i.py, i'.py, Option.bind_some, Spec.view, Assoc.get_set, if_neg (Ne.symm hne)]

/-- **C134** is violated: if `y = z` gives a dictionary the name `y`, then `code(y, version=0)` raises from then on. -/
theorem first_raises {l g : List Stmt} {y z : Nat} {σ : State} (ht : track (l ++ .same y z :: g) = some σ)
    (hd : Spec.Direct (l ++ .same y z :: g)) {stat : Nat → List Nat} (he : Spec.Earlier stat) (hz : Spec.isDict g z = true) :
    code σ stat y 0 = .error .crash := by
  obtain ⟨τ, h1, _⟩ := track_append ht
  simp only [track, Option.bind_eq_some_iff] at h1
  obtain ⟨σ₀, h0, hst⟩ := h1
  have i := inv_track h0
  simp only [step, Option.bind_eq_some_iff, Option.some.injEq] at hst
  obtain ⟨p, hp, _⟩ := hst
  simp only [exec, Option.bind_eq_some_iff] at hp
  obtain ⟨v, _, hp⟩ := hp
  split at hp
  · cases hp
  · rename_i hy
    have hun : Assoc.get σ₀.syms y = none := by
      have := i.dom y
      cases e : Assoc.get σ₀.syms y with
      | none => rfl
      | some s => rw [e] at this; exact absurd this.symm hy
    have hv := (hist_track h0).unknown y hun
    obtain ⟨r, hr⟩ := versions_append y l (.same y z :: g)
    refine (version_exact ht hd he y 0 (by omega)).2 fun w hw => ?_
    rw [hr] at hw
    simp [Spec.versions, hv, hz, pyIndex] at hw

/-! ### Times -/

/-- **C135**: `timestamp(x)` is the number of the last statement that bound `x`, changed the dictionary that it is, or gave it another name. -/
theorem timestamp_exact {h : List Stmt} {σ : State} (ht : track h = some σ) (x : Nat) : timestamp σ x = Spec.lastTouched x h := by
  induction h generalizing σ with
  | nil => cases ht; rfl
  | cons s h ih =>
    have i' := inv_track ht
    simp only [track, Option.bind_eq_some_iff] at ht
    obtain ⟨σ₀, h0, hst⟩ := ht
    have ih := ih h0
    have i := inv_track h0
    simp only [step, Option.bind_eq_some_iff, Option.some.injEq] at hst
    obtain ⟨p, hp, rfl⟩ := hst
    cases s with
    | num y ops c =>
      simp only [exec, Option.bind_eq_some_iff, Option.some.injEq] at hp
      obtain ⟨n, _, rfl⟩ := hp
      simp only [Spec.lastTouched, Spec.binds, Option.some.injEq]
      by_cases e : x = y
      · subst e
        simp only [timestamp, note, get_bindSym, Assoc.get_set, if_true]
        cases Assoc.get σ₀.syms x <;> exact congrArg some i.time
      · rw [if_neg (Ne.symm e), ← ih]
        simp only [timestamp, note, get_bindSym, Assoc.get_set, if_neg e]
    | dict y items =>
      simp only [exec, Option.bind_eq_some_iff, Option.some.injEq] at hp
      obtain ⟨d, _, rfl⟩ := hp
      simp only [Spec.lastTouched, Spec.binds, Option.some.injEq]
      by_cases e : x = y
      · subst e
        simp only [timestamp, note, get_bindSym, Assoc.get_set, if_true, literalNs]
        cases Assoc.get σ₀.syms x <;> simp [i.time]
      · rw [if_neg (Ne.symm e), ← ih]
        simp only [timestamp, note, get_bindSym, Assoc.get_set, if_neg e]
        cases hs : Assoc.get σ₀.syms x with
        | none => rfl
        | some s =>
          dsimp only
          cases ho : Assoc.get σ₀.py.env x with
          | none => rfl
          | some a =>
            cases a with
            | num _ => rfl
            | ref o =>
              obtain ⟨d', hd'⟩ := Option.isSome_iff_exists.1 (i.ref x o ho)
              have := (i.heap o d' hd').1
              dsimp only
              rw [if_neg (by omega)]
    | put y k ops c =>
      simp only [exec, Option.bind_eq_some_iff] at hp
      obtain ⟨n, _, hp⟩ := hp
      split at hp
      · rename_i o ho
        simp only [Option.bind_eq_some_iff, Option.some.injEq] at hp
        obtain ⟨d, hd, rfl⟩ := hp
        obtain ⟨_, ns, hns, ok⟩ := i.heap o d hd
        simp only [Spec.lastTouched]
        simp only [timestamp, note, ho, hns, get_snapshotAll, Assoc.get_set]
        by_cases e : Assoc.get σ₀.py.env x = some (.ref o)
        · rw [if_pos ((shared_iff i x y).2 ⟨o, e, ho⟩)]
          have hx : (Assoc.get σ₀.syms x).isSome = true := by rw [i.dom, e]; rfl
          obtain ⟨s, hs⟩ := Option.isSome_iff_exists.1 hx
          simp only [hs, Option.map_some, e, if_true, refreshNs]
          have h1 := (i.sym x s hs).1
          have h2 := ok.desc
          have h3 := i.time
          congr 1
          omega
        · rw [if_neg (fun hsh => by
            obtain ⟨o', h1, h2⟩ := (shared_iff i x y).1 hsh
            rw [ho] at h2; cases h2; exact e h1), ← ih]
          simp only [timestamp, if_neg e]
          cases hs : Assoc.get σ₀.syms x with
          | none => rfl
          | some s =>
            simp only [Option.map_some]
            cases hx : Assoc.get σ₀.py.env x with
            | none => rfl
            | some a =>
              cases a with
              | num _ => rfl
              | ref o' =>
                have hne : o' ≠ o := by rintro rfl; exact e hx
                simp only [if_neg hne]
      · cases hp
    | same y z =>
      simp only [exec, Option.bind_eq_some_iff] at hp
      obtain ⟨v, hv, hp⟩ := hp
      split at hp
      · cases hp
      · rename_i hy
        cases hp
        simp only [Spec.lastTouched]
        cases v with
        | num n =>
          have hsh : Spec.shared h x z = false := by
            cases e : Spec.shared h x z with
            | false => rfl
            | true =>
              obtain ⟨o, _, h2⟩ := (shared_iff i x z).1 e
              rw [hv] at h2; cases h2
          rw [hsh]
          by_cases e : x = y
          · subst e
            simp only [timestamp, note, hv, get_bindSym, Assoc.get_set, if_true]
            cases Assoc.get σ₀.syms x <;> exact congrArg some i.time
          · rw [if_neg (Ne.symm e), if_neg (by simp), ← ih]
            simp only [timestamp, note, hv, get_bindSym, Assoc.get_set, if_neg e]
        | ref o =>
          obtain ⟨d, hd⟩ := Option.isSome_iff_exists.1 (i.ref z o hv)
          obtain ⟨_, ns, hns, ok⟩ := i.heap o d hd
          have h2 := ok.desc
          have h3 := i.time
          by_cases e : x = y
          · subst e
            simp only [timestamp, note, hv, hns, Assoc.get_set, if_true, refreshNs]
            congr 1
            omega
          · rw [if_neg (Ne.symm e)]
            simp only [timestamp, note, hv, hns, Assoc.get_set, if_neg e, get_snapshotAll]
            by_cases ex : Assoc.get σ₀.py.env x = some (.ref o)
            · rw [if_pos ((shared_iff i x z).2 ⟨o, ex, hv⟩)]
              have hx : (Assoc.get σ₀.syms x).isSome = true := by rw [i.dom, ex]; rfl
              obtain ⟨s, hs⟩ := Option.isSome_iff_exists.1 hx
              simp only [hs, Option.map_some, ex, if_true, refreshNs]
              have h1 := (i.sym x s hs).1
              congr 1
              omega
            · rw [if_neg (fun hsh => by
                obtain ⟨o', h1, h2⟩ := (shared_iff i x z).1 hsh
                rw [hv] at h2; cases h2; exact ex h1), ← ih]
              simp only [timestamp, if_neg ex]
              cases hs : Assoc.get σ₀.syms x with
              | none => rfl
              | some s =>
                simp only [Option.map_some]
                cases hx : Assoc.get σ₀.py.env x with
                | none => rfl
                | some a =>
                  cases a with
                  | num _ => rfl
                  | ref o' =>
                    have hne : o' ≠ o := by rintro rfl; exact ex hx
                    simp only [if_neg hne]

/-- **C135**: `timestamp(x)` is the number of the last statement that bound `x` or changed the dictionary that it is. Partial: as long as no dictionary
is given another name (`timestamp_moved`). -/
theorem timestamp_partial {h : List Stmt} {σ : State} (ht : track h = some σ) (hn : Spec.NoNames h) (x : Nat) :
    timestamp σ x = Spec.lastChange x h := by
  rw [timestamp_exact ht]
  clear ht
  induction h with
  | nil => rfl
  | cons s h ih =>
    have ih := ih fun s hs => hn s (List.mem_cons_of_mem _ hs)
    cases s with
    | same y z => exact absurd rfl (hn _ List.mem_cons_self y z)
    | num y ops c => simp only [Spec.lastTouched, Spec.lastChange, ih]
    | dict y items => simp only [Spec.lastTouched, Spec.lastChange, ih]
    | put y k ops c => simp only [Spec.lastTouched, Spec.lastChange, ih]

/-- **C135** is violated: after `y = z`, every other name `x` of the dictionary has that statement's time, though it was last changed by an earlier
one. -/
theorem timestamp_moved {g : List Stmt} {y z : Nat} {σ : State} (ht : track (.same y z :: g) = some σ) (x : Nat)
    (hsh : Spec.shared g x z = true) :
    timestamp σ x = some g.length ∧ Spec.now (.same y z :: g) x = Spec.now g x ∧
      ∃ t, Spec.lastChange x (.same y z :: g) = some t ∧ t < g.length := by
  have hnow := (name_counts ht x hsh).2
  have hts := timestamp_exact ht x
  simp only [track, Option.bind_eq_some_iff] at ht
  obtain ⟨σ₀, h0, hst⟩ := ht
  have i := inv_track h0
  obtain ⟨o, ho, _⟩ := (shared_iff i x z).1 hsh
  simp only [step, Option.bind_eq_some_iff, Option.some.injEq] at hst
  obtain ⟨p, hp, _⟩ := hst
  simp only [exec, Option.bind_eq_some_iff] at hp
  obtain ⟨v, _, hp⟩ := hp
  split at hp
  · cases hp
  · rename_i hy
    have hne : y ≠ x := by rintro rfl; rw [ho] at hy; exact hy rfl
    refine ⟨?_, hnow, ?_⟩
    · rw [hts]; simp only [Spec.lastTouched, if_neg hne, hsh, if_true]
    · have hb : ∀ s, Spec.binds (.same y z) = some s → s ≠ x := fun s e => by cases e; exact hne
      simp only [Spec.lastChange, Spec.binds, Option.some.injEq, if_neg hne]
      -- a variable that is bound has a last change
      have key : ∀ (l : List Stmt) (τ : State), track l = some τ → (Assoc.get τ.py.env x).isSome = true → ∃ t, Spec.lastChange x l = some t ∧ t < l.length := by
        intro l
        induction l with
        | nil => intro τ h1 h2; cases h1; simp [State.init] at h2
        | cons s l ih =>
          intro τ h1 h2
          simp only [track, Option.bind_eq_some_iff] at h1
          obtain ⟨σ₁, h0', hst⟩ := h1
          simp only [step, Option.bind_eq_some_iff, Option.some.injEq] at hst
          obtain ⟨p, hp, rfl⟩ := hst
          have rest : (Assoc.get σ₁.py.env x).isSome = true → ∃ t, Spec.lastChange x l = some t ∧ t < (s :: l).length := fun h => by
            obtain ⟨t, ht, hlt⟩ := ih σ₁ h0' h
            exact ⟨t, ht, by rw [List.length_cons]; omega⟩
          have here : l.length < (s :: l).length := by simp
          cases s with
          | num y ops c =>
            simp only [exec, Option.bind_eq_some_iff, Option.some.injEq] at hp
            obtain ⟨n, _, rfl⟩ := hp
            simp only [Spec.lastChange, Spec.binds, Option.some.injEq]
            by_cases e : y = x
            · rw [if_pos e]; exact ⟨_, rfl, here⟩
            · rw [if_neg e]
              simp only [Assoc.get_set, if_neg (Ne.symm e)] at h2
              exact rest h2
          | dict y items =>
            simp only [exec, Option.bind_eq_some_iff, Option.some.injEq] at hp
            obtain ⟨n, _, rfl⟩ := hp
            simp only [Spec.lastChange, Spec.binds, Option.some.injEq]
            by_cases e : y = x
            · rw [if_pos e]; exact ⟨_, rfl, here⟩
            · rw [if_neg e]
              simp only [Assoc.get_set, if_neg (Ne.symm e)] at h2
              exact rest h2
          | put y k ops c =>
            simp only [Spec.lastChange]
            by_cases e : Spec.shared l x y = true
            · rw [if_pos e]; exact ⟨_, rfl, here⟩
            · rw [if_neg e]
              simp only [exec, Option.bind_eq_some_iff] at hp
              obtain ⟨n, _, hp⟩ := hp
              split at hp
              · simp only [Option.bind_eq_some_iff, Option.some.injEq] at hp
                obtain ⟨d, _, rfl⟩ := hp
                exact rest h2
              · cases hp
          | same y z =>
            simp only [exec, Option.bind_eq_some_iff] at hp
            obtain ⟨v, _, hp⟩ := hp
            split at hp
            · cases hp
            · cases hp
              simp only [Spec.lastChange, Spec.binds, Option.some.injEq]
              by_cases e : y = x
              · rw [if_pos e]; exact ⟨_, rfl, here⟩
              · rw [if_neg e]
                simp only [Assoc.get_set, if_neg (Ne.symm e)] at h2
                exact rest h2
      exact key g σ₀ h0 (by rw [ho]; rfl)

end Verif.Versions
