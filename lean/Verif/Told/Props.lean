import Verif.Told.Lemmas

/-!
# What is told by the client: the theorems
-/

namespace Verif.Told

open Verif Verif.Assoc

theorem state_tell {h : List Ev} {s s' : St} {x o : Nat} {deps : List Nat} (hs : state h = .ok s)
    (hn : holds h x ≠ some o) (hs' : state (.tell x (some o) deps :: h) = .ok s') :
    ∃ b, Updated s s' x o deps b := by
  have hi := inv_of hs
  have hx := hi.good.obj x
  obtain ⟨s1, b, h1, hu⟩ := update_ok s x o deps
  have e1 : state (.tell x (some o) deps :: h) = match state h with
    | .error e => Except.error e
    | .ok s => step s (.tell x (some o) deps) := rfl
  rw [e1, hs] at hs'
  have e2 : step s (.tell x (some o) deps) = match get s.syms x with
    | none => update s x o deps
    | some y => if y.obj = o then .ok s else update s x o deps := rfl
  dsimp only at hs'
  rw [e2] at hs'
  cases hg : get s.syms x with
  | none =>
    rw [hg] at hs'
    dsimp only at hs'
    rw [h1, Except.ok.injEq] at hs'
    exact ⟨b, hs' ▸ hu⟩
  | some y =>
    rw [hg] at hs'
    dsimp only at hs'
    rw [if_neg, h1, Except.ok.injEq] at hs'
    · exact ⟨b, hs' ▸ hu⟩
    · intro q
      rw [hg, Option.map_some, q] at hx
      exact hn hx.symm

theorem outdated_eq {s : St} {z : Nat} : outdated s z = true ↔
    ∃ y r, get s.syms z = some y ∧ y.required = some r ∧ y.ts < r := by
  unfold outdated
  cases hg : get s.syms z with
  | none => simp
  | some y =>
    cases hr : y.required with
    | none => simp [hr]
    | some r => simp [hr]

/-- C168: the requests never fail. -/
theorem never_fails (h : List Ev) : ∃ s, state h = .ok s := by
  obtain ⟨s, hs, _⟩ := inv h
  exact ⟨s, hs⟩

/-- C168: a request is accepted exactly if the object is a new one for the variable. -/
theorem accepted_iff {h : List Ev} {s : St} (hs : state h = .ok s) (x : Nat) (obj : Option Nat) :
    accepted s x obj = true ↔ News h x obj := by
  have hx := (inv_of hs).good.obj x
  unfold News
  cases obj with
  | none => simp [accepted]
  | some o =>
    rw [← hx]
    cases hg : get s.syms x with
    | none => simp [accepted, hg]
    | some y => simp [accepted, hg]

/-- C168: a request that is not accepted changes nothing. -/
theorem declined {h : List Ev} (x : Nat) (obj : Option Nat) (deps : List Nat) (hn : ¬ News h x obj) :
    state (.tell x obj deps :: h) = state h := by
  obtain ⟨s, hs, hi⟩ := inv h
  have e1 : state (.tell x obj deps :: h) = match state h with
    | .error e => Except.error e
    | .ok s => step s (.tell x obj deps) := rfl
  rw [e1, hs]
  dsimp only
  cases obj with
  | none => rfl
  | some o =>
    have hh : holds h x = some o := by
      by_contra q
      exact hn ⟨o, rfl, q⟩
    have hx := hi.good.obj x
    have e2 : step s (.tell x (some o) deps) = match get s.syms x with
      | none => update s x o deps
      | some y => if y.obj = o then .ok s else update s x o deps := rfl
    rw [e2]
    cases hg : get s.syms x with
    | none => rw [hg, hh] at hx; cases hx
    | some y =>
      rw [hg, hh, Option.map_some, Option.some.injEq] at hx
      dsimp only
      rw [if_pos hx]

/-- C168: a variable assigned by the cell run last, or told of or refreshed since, is never out of
date. -/
theorem recent_never {h : List Ev} {s : St} (hs : state h = .ok s) (z : Nat)
    (hz : touched h z = some (clock h)) : outdated s z = false := by
  have hi := inv_of hs
  cases ho : outdated s z with
  | false => rfl
  | true =>
    obtain ⟨y, r, h1, h2, h3⟩ := outdated_eq.1 ho
    have ht := hi.good.ts z
    rw [h1, hz, Option.map_some, Option.some.injEq] at ht
    have := (hi.good.old z y h1).2 r h2
    omega

/-- C168: the variables that are out of date after an accepted request: those that were, except the
variable itself, and those computed from it that were not assigned by the cell run last, nor told of or
refreshed since. -/
theorem marked_iff {h : List Ev} {s s' : St} (hs : state h = .ok s) (x : Nat) (obj : Option Nat)
    (deps : List Nat) (hn : News h x obj) (hs' : state (.tell x obj deps :: h) = .ok s') (z : Nat) :
    outdated s' z = true ↔ z ≠ x ∧ (outdated s z = true ∨
      (From (parents s'.syms) x deps z ∧ touched h z ≠ some (clock h))) := by
  obtain ⟨o, rfl, hn⟩ := hn
  obtain ⟨b, hu⟩ := state_tell hs hn hs'
  have hi := inv_of hs
  have hn' : (get s.syms x).map Sym.obj ≠ some o := by rw [hi.good.obj x]; exact hn
  have hc : s.ctr = clock h := hi.good.ctr
  by_cases hz : z = x
  · subst hz
    constructor
    · intro q
      obtain ⟨y, r, h1, h2, h3⟩ := outdated_eq.1 q
      rw [hu.self, Option.some.injEq] at h1
      subst h1
      cases h2
    · exact fun q => absurd rfl q.1
  · have hm := hu.marks hn' z hz
    have ho := hu.other z hz
    cases hg : get s.syms z with
    | none =>
      rw [hg, Option.map_none] at ho
      constructor
      · intro q
        obtain ⟨y, r, h1, _⟩ := outdated_eq.1 q
        rw [ho] at h1
        cases h1
      · rintro ⟨_, q | ⟨q, _⟩⟩
        · obtain ⟨y, r, h1, _⟩ := outdated_eq.1 q
          rw [hg] at h1
          cases h1
        · exfalso
          have hk : z ∈ keys s'.syms := by
            cases q with
            | direct _ h1 _ _ => exact parents_key h1
            | through _ _ _ h1 _ _ => exact parents_key h1
          rw [← get_isSome_iff, ho] at hk
          cases hk
    | some y =>
      have ht := hi.good.ts z
      rw [hg, Option.map_some] at ht
      have hold := hi.good.old z y hg
      rw [hg, Option.map_some] at ho
      by_cases hb : b z = true
      · rw [if_pos hb] at ho
        have hf := hm.1 hb
        constructor
        · intro q
          obtain ⟨y', r, h1, h2, h3⟩ := outdated_eq.1 q
          rw [ho, Option.some.injEq] at h1
          subst h1
          simp only [Option.some.injEq] at h2
          refine ⟨hz, .inr ⟨hf.1, ?_⟩⟩
          rw [← ht]
          intro e
          rw [Option.some.injEq] at e
          dsimp only at h3
          omega
        · rintro ⟨_, q⟩
          refine outdated_eq.2 ⟨_, s.ctr, ho, rfl, ?_⟩
          dsimp only
          rcases q with q | ⟨_, q⟩
          · obtain ⟨y', r, h1, h2, h3⟩ := outdated_eq.1 q
            rw [hg, Option.some.injEq] at h1
            subst h1
            have := hold.2 r h2
            omega
          · rw [← ht] at q
            have : y.ts ≠ clock h := fun e => q (by rw [e])
            have := hold.1
            omega
      · rw [if_neg hb] at ho
        have e : outdated s' z = outdated s z := by
          unfold outdated
          rw [ho, hg]
        rw [e]
        refine ⟨fun q => ⟨hz, .inl q⟩, ?_⟩
        rintro ⟨_, q | ⟨q1, q2⟩⟩
        · exact q
        · exfalso
          refine hb (hm.2 ⟨q1, fun hr => q2 ?_⟩)
          obtain ⟨y', h1, h2⟩ := hi.good.recent z hr
          rw [hg, Option.some.injEq] at h1
          rw [← ht, h1, h2]

/-- C168: the variables computed from the one told of are out of date, if they were not assigned by
the cell run last, nor told of or refreshed since.  The full claim is `UsersClaim`. -/
theorem users_partial {h : List Ev} {s' : St} (x : Nat) (obj : Option Nat)
    (deps : List Nat) (hn : News h x obj) (hs' : state (.tell x obj deps :: h) = .ok s') (z : Nat)
    (hf : From (parents s'.syms) x deps z) (ht : touched h z ≠ some (clock h)) :
    outdated s' z = true := by
  obtain ⟨s, hs⟩ := never_fails h
  exact (marked_iff hs x obj deps hn hs' z).2 ⟨(from_out hf).1, .inr ⟨hf, ht⟩⟩

/-- C168: the others are not. -/
theorem recent_missed {h : List Ev} {s' : St} (x : Nat) (obj : Option Nat) (deps : List Nat)
    (hn : News h x obj) (hs' : state (.tell x obj deps :: h) = .ok s') (z : Nat)
    (ht : touched h z = some (clock h)) : outdated s' z = false := by
  obtain ⟨o, rfl, hn⟩ := hn
  refine recent_never hs' z ?_
  show (if z = x ∧ holds h z ≠ some o then some (clock h) else touched h z) = some (clock h)
  by_cases q : z = x ∧ holds h z ≠ some o
  · rw [if_pos q]
  · rw [if_neg q, ht]

/-- C168: what the variable is computed from after an accepted request: the known variables named by
the client; what it was computed from before is kept if the variable itself is named, or one that is
computed from it. -/
theorem deps_iff {h : List Ev} {s s' : St} (hs : state h = .ok s) (x : Nat) (obj : Option Nat)
    (deps : List Nat) (hn : News h x obj) (hs' : state (.tell x obj deps :: h) = .ok s') (d : Nat) :
    d ∈ parents s'.syms x ↔ (d ∈ deps ∧ d ≠ x ∧ (holds h d).isSome) ∨
      (d ∈ parents s.syms x ∧ ((x ∈ deps ∧ (holds h x).isSome) ∨ ∃ e ∈ deps, x ∈ parents s.syms e)) := by
  obtain ⟨o, rfl, hn⟩ := hn
  obtain ⟨b, hu⟩ := state_tell hs hn hs'
  have hi := inv_of hs
  have hk : ∀ d, (get s.syms d).isSome = (holds h d).isSome := by
    intro d
    rw [← hi.good.obj d]
    cases get s.syms d <;> rfl
  have e : parents s'.syms x = newParents s.syms x (deps.filter fun d => (get s.syms d).isSome) := by
    show (match get s'.syms x with | none => [] | some y => y.parents) = _
    rw [hu.self]
  have hmem : ∀ d, d ∈ deps.filter (fun d => (get s.syms d).isSome) ↔ d ∈ deps ∧ (holds h d).isSome := by
    intro d
    rw [List.mem_filter, hk]
  have hcond : (x ∈ deps.filter (fun d => (get s.syms d).isSome) ∨
      ∃ e ∈ deps.filter (fun d => (get s.syms d).isSome), x ∈ parents s.syms e) ↔
      ((x ∈ deps ∧ (holds h x).isSome) ∨ ∃ e ∈ deps, x ∈ parents s.syms e) := by
    rw [hmem]
    refine or_congr_right ⟨?_, ?_⟩
    · rintro ⟨e, h1, h2⟩
      exact ⟨e, ((hmem e).1 h1).1, h2⟩
    · rintro ⟨e, h1, h2⟩
      exact ⟨e, (hmem e).2 ⟨h1, by rw [← hk]; exact get_isSome_iff.2 (parents_key h2)⟩, h2⟩
  rw [e]
  unfold newParents
  by_cases hc : (x ∈ deps ∧ (holds h x).isSome) ∨ ∃ e ∈ deps, x ∈ parents s.syms e
  · rw [if_pos (hcond.2 hc), List.mem_append, List.mem_filter, hmem, decide_eq_true_eq]
    constructor
    · rintro (q | ⟨⟨q1, q2⟩, q3, _⟩)
      · exact .inr ⟨q, hc⟩
      · exact .inl ⟨q1, q3, q2⟩
    · rintro (⟨q1, q2, q3⟩ | ⟨q, _⟩)
      · by_cases q : d ∈ parents s.syms x
        · exact .inl q
        · exact .inr ⟨⟨q1, q3⟩, q2, q⟩
      · exact .inl q
  · rw [if_neg (fun q => hc (hcond.1 q)), List.mem_filter, hmem, decide_eq_true_eq]
    constructor
    · rintro ⟨⟨q1, q2⟩, q3⟩
      exact .inl ⟨q1, q3, q2⟩
    · rintro (⟨q1, q2, q3⟩ | ⟨_, q⟩)
      · exact ⟨⟨q1, q3⟩, q2⟩
      · exact absurd q hc

/-- C168: what other variables are computed from stays. -/
theorem deps_others {h : List Ev} {s s' : St} (hs : state h = .ok s) (x : Nat) (obj : Option Nat)
    (deps : List Nat) (hs' : state (.tell x obj deps :: h) = .ok s') (z : Nat) (hz : z ≠ x) :
    parents s'.syms z = parents s.syms z := by
  by_cases hn : News h x obj
  · obtain ⟨o, rfl, hn⟩ := hn
    obtain ⟨b, hu⟩ := state_tell hs hn hs'
    unfold parents
    rw [hu.other z hz]
    cases get s.syms z with
    | none => rfl
    | some y => cases b z <;> rfl
  · rw [declined x obj deps hn, hs, Except.ok.injEq] at hs'
    rw [hs']

theorem refresh_get (xs : List Nat) (z : Nat) : ∀ s : St, get (xs.foldl refresh1 s).syms z =
    (get s.syms z).map fun y => if z ∈ xs then { y with ts := s.ctr } else y := by
  induction xs with
  | nil =>
    intro s
    show get s.syms z = _
    cases get s.syms z <;> rfl
  | cons a xs ih =>
    intro s
    have hctr : (refresh1 s a).ctr = s.ctr := by
      unfold refresh1
      cases get s.syms a <;> rfl
    rw [List.foldl_cons, ih, hctr]
    by_cases e : z = a
    · subst e
      unfold refresh1
      cases hg : get s.syms z with
      | none => simp only [hg, Option.map_none]
      | some y =>
        dsimp only
        rw [get_set_self, Option.map_some, Option.map_some, if_pos List.mem_cons_self]
        by_cases hm : z ∈ xs
        · rw [if_pos hm]
        · rw [if_neg hm]
    · have hg : get (refresh1 s a).syms z = get s.syms z := by
        unfold refresh1
        cases get s.syms a with
        | none => rfl
        | some y => exact get_set_ne _ _ e
      rw [hg]
      simp only [List.mem_cons, e, false_or]

theorem state_refresh {h : List Ev} {s s' : St} {xs : List Nat} (hs : state h = .ok s)
    (hs' : state (.refresh xs :: h) = .ok s') : s' = xs.foldl refresh1 s := by
  have e1 : state (.refresh xs :: h) = match state h with
    | .error e => Except.error e
    | .ok s => step s (.refresh xs) := rfl
  rw [e1, hs] at hs'
  exact (Except.ok.inj hs').symm

/-- C168: a request to refresh makes no variable out of date; the refreshed ones no longer are. -/
theorem refresh_iff {h : List Ev} {s s' : St} (hs : state h = .ok s) (xs : List Nat)
    (hs' : state (.refresh xs :: h) = .ok s') (z : Nat) :
    outdated s' z = true ↔ outdated s z = true ∧ z ∉ xs := by
  have e := state_refresh hs hs'
  have hi := inv_of hs
  have hg := refresh_get xs z s
  rw [← e] at hg
  cases hy : get s.syms z with
  | none =>
    rw [hy, Option.map_none] at hg
    simp [outdated, hy, hg]
  | some y =>
    rw [hy, Option.map_some] at hg
    by_cases hz : z ∈ xs
    · rw [if_pos hz] at hg
      constructor
      · intro q
        obtain ⟨y', r, h1, h2, h3⟩ := outdated_eq.1 q
        rw [hg, Option.some.injEq] at h1
        subst h1
        have := (hi.good.old z y hy).2 r h2
        have hc := hi.good.ctr
        dsimp only at h3
        omega
      · exact fun q => absurd hz q.2
    · rw [if_neg hz] at hg
      have e2 : outdated s' z = outdated s z := by
        unfold outdated
        rw [hg, hy]
      rw [e2]
      exact ⟨fun q => ⟨q, hz⟩, fun q => q.1⟩

/-- C168: the cells that are offered to be run again: those that wait for no variable and read one
that was assigned, told of or refreshed at the time of a later run. -/
theorem offered_iff {h : List Ev} {s : St} (hs : state h = .ok s) (c : Nat) :
    offered s c = true ↔ waits s c = false ∧ ∃ n reads, latest h c = some (n, reads) ∧
      ∃ x ∈ reads, ∃ m, touched h x = some m ∧ n < m := by
  have hi := inv_of hs
  have hc := hi.cells c
  unfold offered
  cases hg : get s.cells c with
  | none =>
    rw [hg, Option.map_none] at hc
    constructor
    · intro q; cases q
    · rintro ⟨_, n, reads, q, _⟩
      rw [← hc] at q
      cases q
  | some k =>
    rw [hg, Option.map_some] at hc
    dsimp only
    rw [Bool.and_eq_true, Bool.not_eq_true', List.any_eq_true]
    refine and_congr_right fun _ => ?_
    constructor
    · rintro ⟨x, h1, h2⟩
      refine ⟨k.ctr, k.reads, hc.symm, x, h1, ?_⟩
      have ht := hi.good.ts x
      cases hx : get s.syms x with
      | none => rw [hx] at h2; cases h2
      | some y =>
        rw [hx] at h2 ht
        exact ⟨y.ts, ht.symm, of_decide_eq_true h2⟩
    · rintro ⟨n, reads, h1, x, h2, m, h3, h4⟩
      rw [← hc, Option.some.injEq, Prod.mk.injEq] at h1
      refine ⟨x, h1.2 ▸ h2, ?_⟩
      have ht := hi.good.ts x
      cases hx : get s.syms x with
      | none => rw [hx, h3] at ht; cases ht
      | some y =>
        rw [hx, h3, Option.map_some, Option.some.injEq] at ht
        dsimp only
        exact decide_eq_true (by omega)

/-- C168: the cells that wait: those that read a variable that is out of date. -/
theorem waits_iff {h : List Ev} {s : St} (hs : state h = .ok s) (c : Nat) :
    waits s c = true ↔ ∃ x, Reads h c x ∧ outdated s x = true := by
  have hi := inv_of hs
  have hc := hi.cells c
  unfold waits Reads
  cases hg : get s.cells c with
  | none =>
    rw [hg, Option.map_none] at hc
    constructor
    · intro q; cases q
    · rintro ⟨x, ⟨n, reads, q, _⟩, _⟩
      rw [← hc] at q
      cases q
  | some k =>
    rw [hg, Option.map_some] at hc
    dsimp only
    rw [List.any_eq_true]
    constructor
    · rintro ⟨x, h1, h2⟩
      exact ⟨x, ⟨_, _, hc.symm, h1⟩, h2⟩
    · rintro ⟨x, ⟨n, reads, h1, h2⟩, h3⟩
      rw [← hc, Option.some.injEq, Prod.mk.injEq] at h1
      exact ⟨x, h1.2 ▸ h2, h3⟩

theorem readers_aux {h : List Ev} {s : St} (hs : state h = .ok s) {x c : Nat} (hr : Reads h c x)
    (hl : ¬ RanLast h c) (ht : touched h x = some (clock h)) : offered s c = true ∨ waits s c = true := by
  cases hw : waits s c with
  | true => exact .inr rfl
  | false =>
    left
    obtain ⟨n, reads, h1, h2⟩ := hr
    refine (offered_iff hs c).2 ⟨hw, n, reads, h1, x, h2, clock h, ht, ?_⟩
    have hi := inv_of hs
    have hc := hi.cells c
    cases hg : get s.cells c with
    | none => rw [hg, h1] at hc; cases hc
    | some k =>
      rw [hg, h1, Option.map_some, Option.some.injEq, Prod.mk.injEq] at hc
      have hb := hi.before c k hg
      have hne : n ≠ clock h := fun e => hl ⟨reads, by rw [h1, e]⟩
      omega

/-- C168: a cell that reads the variable is offered to be run again, or waits, if it is not the cell
that was run last.  The full claim is `ReadersClaim`. -/
theorem readers_partial {h : List Ev} {s' : St} (x : Nat) (obj : Option Nat)
    (deps : List Nat) (hn : News h x obj) (hs' : state (.tell x obj deps :: h) = .ok s') (c : Nat)
    (hr : Reads h c x) (hl : ¬ RanLast h c) : offered s' c = true ∨ waits s' c = true := by
  obtain ⟨o, rfl, hn⟩ := hn
  refine readers_aux (x := x) hs' hr hl ?_
  show (if x = x ∧ holds h x ≠ some o then some (clock h) else touched h x) = some (clock h)
  rw [if_pos ⟨rfl, hn⟩]

/-- C168: the same after a request to refresh. -/
theorem refresh_readers_partial {h : List Ev} {s' : St} (xs : List Nat) (x : Nat)
    (hs' : state (.refresh xs :: h) = .ok s') (hx : x ∈ xs) (hk : (holds h x).isSome) (c : Nat)
    (hr : Reads h c x) (hl : ¬ RanLast h c) : offered s' c = true ∨ waits s' c = true := by
  refine readers_aux (x := x) hs' hr hl ?_
  show (if x ∈ xs ∧ (holds h x).isSome then some (clock h) else touched h x) = some (clock h)
  rw [if_pos ⟨hx, hk⟩]

/-- C168: the cell that was run last is never offered, whatever the client tells. -/
theorem last_run_missed {h : List Ev} {s : St} (hs : state h = .ok s) (c : Nat) (hl : RanLast h c) :
    offered s c = false := by
  cases ho : offered s c with
  | false => rfl
  | true =>
    exfalso
    obtain ⟨_, n, reads, h1, x, _, m, h2, h3⟩ := (offered_iff hs c).1 ho
    obtain ⟨reads', hl⟩ := hl
    rw [h1, Option.some.injEq, Prod.mk.injEq] at hl
    have hi := inv_of hs
    have ht := hi.good.ts x
    cases hg : get s.syms x with
    | none => rw [hg, h2] at ht; cases ht
    | some y =>
      rw [hg, h2, Option.map_some, Option.some.injEq] at ht
      have := (hi.good.old x y hg).1
      omega

theorem touched_le (h : List Ev) (x n : Nat) (ht : touched h x = some n) : n ≤ clock h := by
  obtain ⟨s, hs, hi⟩ := inv h
  have := hi.good.ts x
  cases hg : get s.syms x with
  | none => rw [hg, ht] at this; cases this
  | some y =>
    rw [hg, ht, Option.map_some, Option.some.injEq] at this
    exact this ▸ (hi.good.old x y hg).1

/-- C169: the cell named for a variable: the one that made the run during or after which the variable
was last assigned, told of with a new object, or refreshed. -/
theorem last_updated {h : List Ev} {s : St} (hs : state h = .ok s) (x : Nat) :
    lastUpdated s x = (touched h x).bind (idAt h) := by
  have hi := inv_of hs
  rw [← hi.good.ts x]
  unfold lastUpdated
  cases get s.syms x with
  | none => rfl
  | some y => exact hi.runs y.ts

theorem idAt_iff (h : List Ev) (n : Nat) : (idAt h n).isSome ↔ 1 ≤ n ∧ n ≤ clock h := by
  induction h with
  | nil => simp [idAt, clock]; omega
  | cons e h ih =>
    cases e with
    | run id reads sets =>
      show (if n = clock h + 1 then some id else idAt h n).isSome ↔ 1 ≤ n ∧ n ≤ clock h + 1
      by_cases q : n = clock h + 1
      · rw [if_pos q]; simp; omega
      · rw [if_neg q, ih]; omega
    | tell x obj deps => exact ih
    | refresh xs => exact ih
    | rename old new =>
      show (if (latest h new).isSome then idAt h n else match idAt h n with
        | none => none
        | some c => if c = old then some new else some c).isSome ↔ 1 ≤ n ∧ n ≤ clock h
      by_cases q : (latest h new).isSome = true
      · rw [if_pos q]; exact ih
      · rw [if_neg q, ← ih]
        cases idAt h n with
        | none => exact Iff.rfl
        | some c =>
          dsimp only
          by_cases r : c = old
          · rw [if_pos r]; exact Iff.rfl
          · rw [if_neg r]

theorem touched_iff (h : List Ev) (x : Nat) : (touched h x).isSome ↔ (holds h x).isSome := by
  obtain ⟨s, hs, hi⟩ := inv h
  rw [← hi.good.ts x, ← hi.good.obj x]
  cases get s.syms x <;> exact Iff.rfl

/-- C169: a cell is named for the known variables, unless no cell had been run when the variable was
told of or refreshed last. -/
theorem named_iff {h : List Ev} {s : St} (hs : state h = .ok s) (x : Nat) :
    (lastUpdated s x).isSome ↔ (holds h x).isSome ∧ touched h x ≠ some 0 := by
  rw [last_updated hs, ← touched_iff]
  cases ht : touched h x with
  | none => simp
  | some n =>
    show (idAt h n).isSome ↔ _
    rw [idAt_iff]
    have := touched_le h x n ht
    simp
    omega

/-- C169: after a run, the cell is named for the variables it assigned. -/
theorem named_after_run {h : List Ev} {s : St} (id : Nat) (reads : List Nat)
    (sets : List (Nat × Nat × List Nat)) (hs : state (.run id reads sets :: h) = .ok s) (x : Nat)
    (hx : x ∈ sets.map Prod.fst) : lastUpdated s x = some id := by
  have hset : (setBy sets x).isSome := by
    clear hs
    induction sets with
    | nil => cases hx
    | cons a sets ih =>
      obtain ⟨y, o, ds⟩ := a
      have e : setBy ((y, o, ds) :: sets) x = match setBy sets x with
        | some o' => some o'
        | none => if x = y then some o else none := rfl
      rw [e]
      cases hb : setBy sets x with
      | some o' => rfl
      | none =>
        dsimp only
        rw [List.map_cons, List.mem_cons] at hx
        rcases hx with hx | hx
        · rw [if_pos hx]; rfl
        · have := ih hx
          rw [hb] at this
          cases this
  rw [last_updated hs]
  show (if (setBy sets x).isSome then some (clock h + 1) else touched h x).bind _ = _
  rw [if_pos hset]
  show (if clock h + 1 = clock h + 1 then some id else idAt h (clock h + 1)) = some id
  rw [if_pos rfl]

/-- C169: for the other variables nothing changes. -/
theorem named_stays {h : List Ev} {s s' : St} (hs : state h = .ok s) (id : Nat) (reads : List Nat)
    (sets : List (Nat × Nat × List Nat)) (hs' : state (.run id reads sets :: h) = .ok s') (x : Nat)
    (hx : x ∉ sets.map Prod.fst) : lastUpdated s' x = lastUpdated s x := by
  have hset : setBy sets x = none := by
    clear hs'
    induction sets with
    | nil => rfl
    | cons a sets ih =>
      obtain ⟨y, o, ds⟩ := a
      rw [List.map_cons, List.mem_cons, not_or] at hx
      have e : setBy ((y, o, ds) :: sets) x = match setBy sets x with
        | some o' => some o'
        | none => if x = y then some o else none := rfl
      rw [e, ih hx.2]
      dsimp only
      rw [if_neg hx.1]
  rw [last_updated hs', last_updated hs]
  show (if (setBy sets x).isSome then some (clock h + 1) else touched h x).bind _ = _
  rw [hset]
  show (touched h x).bind _ = _
  cases ht : touched h x with
  | none => rfl
  | some n =>
    have := touched_le h x n ht
    show (if n = clock h + 1 then some id else idAt h n) = idAt h n
    rw [if_neg (by omega)]

end Verif.Told
