import Verif.Sym.Lemmas

/-! # Symbols: properties C27, C28, C29, C30, C60 -/

namespace Verif.Sym
open Verif
variable {τ : Type}

/-! ## C27: dependency edges are mutual -/

/-- C27. Whatever the notebook did so far: of two symbols that were not collected, `a` lists `b` as a dependency, with some
times, iff `b` lists `a` as a user, with the same times. No symbol depends on itself, and the symbols listed are not
collected ones. -/
theorem edges_mutual {s : St τ} (h : Reachable s) :
    (∀ a b ts, s.reg a = true → s.reg b = true →
      (Assoc.get (s.par a) b = some ts ↔ Assoc.get (s.chi b) a = some ts)) ∧
    (∀ a, s.reg a = true → a ∉ Assoc.keys (s.par a) ∧ a ∉ Assoc.keys (s.chi a)) ∧
    (∀ a b, s.reg a = true → b ∈ Assoc.keys (s.par a) ∨ b ∈ Assoc.keys (s.chi a) → s.reg b = true) := by
  have hi := Inv.reachable h
  refine ⟨fun a b ts ha hb => ?_, fun a ha => ⟨fun hm => ?_, fun hm => ?_⟩, fun a b ha hm => ?_⟩
  · have := hi.mutl a b ha hb
    unfold P C at this
    rw [this]
  · exact mem_keys_par.1 hm (hi.irr a ha)
  · refine mem_keys_chi.1 hm ?_
    rw [← hi.mutl a a ha ha]
    exact hi.irr a ha
  · rcases hm with hm | hm
    · exact hi.clP a b ha (mem_keys_par.1 hm)
    · exact hi.clC a b ha (mem_keys_chi.1 hm)

/-- A history can be replayed. -/
theorem reachable_run : ∀ (ops : List (Op τ)) (s : St τ), Reachable s →
    (∀ i (hi : i < ops.length), Allowed ((ops.take i).foldl step s) ops[i]) → Reachable (ops.foldl step s)
  | [], _, h, _ => h
  | op :: ops, s, h, ha => by
    refine reachable_run ops (step s op) (h.step op (ha 0 (by simp))) (fun i hi => ?_)
    have := ha (i + 1) (by simpa using hi)
    simpa using this

/-! ## C28: what an assignment does to dependencies -/

/-- C28 in part. After `x` is assigned from the symbols `D`, its dependencies are exactly `D` and each of them lists `x` as
user, if `x` is not in `D`, no member of `D` depends directly on `x`, and `x` is not an import bound to the same object
again. Missing: those cases, see `overwrite_violated`. -/
theorem overwrite_partial {s : St τ} (h : Reachable s) (x o : Nat) (D : List Nat) (t : τ)
    (ha : Allowed s (.assign x o D true t)) (hx : x ∉ D) (hd : ∀ d ∈ D, x ∉ Assoc.keys (s.par d))
    (hi : s.imp x = true → s.obj x ≠ o) (b : Nat) :
    (b ∈ Assoc.keys ((step s (.assign x o D true t)).par x) ↔ b ∈ D) ∧
    (s.reg b = true → (x ∈ Assoc.keys ((step s (.assign x o D true t)).chi b) ↔ b ∈ D)) := by
  have main : ∀ b, b ∈ Assoc.keys ((step s (.assign x o D true t)).par x) ↔ b ∈ D := by
    intro b
    obtain ⟨f1, f2, f3, f4, f5, f6, f7, f8, f9⟩ := updateObjRef_frame x o false s
    have hca := (Inv.reachable h).ca x ha.1
    show b ∈ Assoc.keys ((updateDeps t x D true false (updateObjRef x o false s)).par x) ↔ _
    unfold updateDeps
    rw [if_neg, if_neg (by decide)]
    · have he : effective (updateObjRef x o false s) x D true = true := by
        unfold effective
        rw [f4]
        simp only [Bool.true_and, Bool.and_eq_true, Bool.not_eq_true', decide_eq_false_iff_not]
        refine ⟨hx, ?_⟩
        rw [List.any_eq_false]
        intro d hd'
        simpa using hd d hd'
      rw [he]
      show b ∈ Assoc.keys ((setDeps t x D true (updateObjRef x o false s)).par x) ↔ _
      rw [mem_keys_par, (setDeps_spec t x D true _ ha.2.1).2.1]
      by_cases h1 : b ∈ D
      · have hbx : b ≠ x := fun e => hx (e ▸ h1)
        rw [if_neg (fun hc => hc.2.2.2 ⟨h1, hbx⟩)]
        by_cases h2 : P (updateObjRef x o false s) x b = none
        · rw [if_pos ⟨rfl, h1, hbx, h2⟩]
          simp [h1]
        · rw [if_neg (fun hc => h2 hc.2.2.2)]
          simp [h1, h2]
      · by_cases h2 : P (updateObjRef x o false s) x b = none
        · rw [if_neg (fun hc => hc.2.2.1 h2), if_neg (fun hc => h1 hc.2.1)]
          simp [h1, h2]
        · rw [if_pos ⟨rfl, rfl, h2, fun hc => h1 hc.1⟩]
          simp [h1]
    · rw [Bool.and_eq_true, decide_eq_true_iff, f9, f2, f3, if_neg (by decide), hca, Function.update_self]
      rintro ⟨h1, h2⟩
      exact hi h1 (Option.some.inj h2)
  refine ⟨main b, fun hb => ?_⟩
  have hi' := Inv.reachable (h.step _ ha)
  have hr : ∀ y, s.reg y = true → (step s (.assign x o D true t)).reg y = true := by
    intro y hy
    show (updateDeps t x D true false (updateObjRef x o false s)).reg y = true
    rw [(updateDeps_frame t x D true false _ ha.2.1).1, (updateObjRef_frame x o false s).1]
    exact hy
  rw [← main b, mem_keys_par, mem_keys_chi, hi'.mutl x b (hr x ha.1) (hr b hb)]

/-- C28, the augmenting case. After a mutation of `x` involving the symbols `D`, or an assignment that does not overwrite, its
dependencies are the old ones and those of `D` other than `x` (unless `x` is an unchanged import, or immutable). -/
theorem augment_exact {s : St τ} (x : Nat) (D : List Nat) (dups : Finset Nat) (t : τ)
    (ha : Allowed s (.mutate x D false dups t)) (hi : s.imp x = false) (b : Nat) :
    (b ∈ Assoc.keys ((step s (.mutate x D false dups t)).par x) ↔ b ∈ Assoc.keys (s.par x) ∨ b ∈ D ∧ b ≠ x) ∧
    ∀ a, a ≠ x → (b ∈ Assoc.keys ((step s (.mutate x D false dups t)).par a) ↔ b ∈ Assoc.keys (s.par a)) := by
  have e : (step s (.mutate x D false dups t)).par = (setDeps t x D false s).par := by
    show (updateDeps t x D false false s).par = _
    unfold updateDeps
    rw [hi, Bool.false_and, if_neg (by decide), if_neg (by decide)]
    unfold effective
    rw [Bool.false_and, Bool.false_and]
    rfl
  have hs := (setDeps_spec t x D false s ha.2.1).2.1
  rw [e]
  refine ⟨?_, fun a hax => ?_⟩
  · rw [mem_keys_par, hs, mem_keys_par, if_neg (fun hc => by cases hc.2.1)]
    by_cases h1 : Added s x D b
    · rw [if_pos ⟨rfl, h1⟩]
      simp [h1.1, h1.2.1]
    · rw [if_neg (fun hc => h1 hc.2)]
      constructor
      · exact fun hp => .inl hp
      · rintro (hp | ⟨hb, hbx⟩)
        · exact hp
        · intro hp
          exact h1 ⟨hb, hbx, hp⟩
  · rw [mem_keys_par, hs, mem_keys_par, if_neg (fun hc => hax hc.1), if_neg (fun hc => hax hc.1)]

/-- `z = 1; y = 1; x = y; x = x + z` (symbols 1, 2, 3) and `y = 1; x = y; w = x; x = w` (symbols 1, 2, 3). -/
def ex28a : List (Op Nat) :=
  [.define 1 10 0 1 false [] 1, .define 2 10 0 2 false [] 2, .define 3 10 0 3 false [2] 3, .assign 3 11 [3, 1] true 4]

/-- The second history of `overwrite_violated`. -/
def ex28b : List (Op Nat) :=
  [.define 1 10 0 1 false [] 1, .define 2 10 0 2 false [1] 2, .define 3 10 0 3 false [2] 3, .assign 2 10 [3] true 4]

theorem ex28a_reachable : Reachable (ex28a.foldl step empty) := by
  refine reachable_run _ _ .empty (fun i hi => ?_)
  match i, hi with
  | 0, _ => exact ⟨rfl, rfl, by decide, by simp⟩
  | 1, _ => exact ⟨rfl, rfl, by decide, by simp⟩
  | 2, _ => exact ⟨rfl, rfl, by decide, by simp [ex28a]; rfl⟩
  | 3, _ => exact ⟨rfl, by decide, by simp [ex28a]; exact ⟨rfl, rfl⟩⟩

theorem ex28b_reachable : Reachable (ex28b.foldl step empty) := by
  refine reachable_run _ _ .empty (fun i hi => ?_)
  match i, hi with
  | 0, _ => exact ⟨rfl, rfl, by decide, by simp⟩
  | 1, _ => exact ⟨rfl, rfl, by decide, by simp [ex28b]; rfl⟩
  | 2, _ => exact ⟨rfl, rfl, by decide, by simp [ex28b]; rfl⟩
  | 3, _ => exact ⟨rfl, by decide, by simp [ex28b]; rfl⟩

/-- C28 does not hold as stated. After `x = y` and `x = x + z` the symbol of `x` still depends on `y`; after `x = y`, `w = x`
and `x = w` it still depends on `y` and not only on `w`. -/
theorem overwrite_violated :
    Assoc.keys ((ex28a.foldl step empty).par 3) = [2, 1] ∧ Assoc.keys ((ex28b.foldl step empty).par 2) = [1, 3] :=
  ⟨rfl, rfl⟩

/-! ## C29: garbage collection -/

theorem gc_reg {s : St τ} (M : List Nat) (all : List Nat) (y : Nat) :
    (gc M all s).reg y = true ↔ s.reg y = true ∧ ¬ (y ∈ all ∧ (s.tomb y = true ∨ y ∈ M)) := by
  have hfold : ∀ (xs : List Nat) (s : St τ), (xs.foldl collect s).reg y = true ↔ s.reg y = true ∧ y ∉ xs := by
    intro xs
    induction xs with
    | nil => intro s; simp
    | cons x xs ih =>
      intro s
      rw [List.foldl_cons, ih, (collect_spec s x).1]
      by_cases hyx : y = x
      · subst hyx
        simp
      · rw [Function.update_of_ne hyx]
        simp [hyx]
  unfold gc
  rw [hfold, List.mem_filter]
  show s.reg y = true ∧ _ ↔ _
  simp [mark]

/-- C29 but for alias entries. A collection removes exactly the symbols marked as garbage. Afterwards no symbol lists a
collected symbol among its dependencies or users, no scope entry yields one, and dependencies between the symbols that
remain are unchanged, with their times. -/
theorem gc_exact {s : St τ} (h : Reachable s) (M all : List Nat) (ha : Allowed s (.gc M all)) :
    (∀ y, (gc M all s).reg y = true ↔ s.reg y = true ∧ ¬ (s.tomb y = true ∨ y ∈ M)) ∧
    (∀ a b, (gc M all s).reg a = true →
      b ∈ Assoc.keys ((gc M all s).par a) ∨ b ∈ Assoc.keys ((gc M all s).chi a) → (gc M all s).reg b = true) ∧
    (∀ k n x, (gc M all s).scope k n = some x → (gc M all s).reg x = true) ∧
    (∀ a b, (gc M all s).reg a = true → (gc M all s).reg b = true →
      Assoc.get ((gc M all s).par a) b = Assoc.get (s.par a) b ∧
      Assoc.get ((gc M all s).chi a) b = Assoc.get (s.chi a) b) := by
  have hi := Inv.reachable h
  have hi' : Inv (gc M all s) := hi.step (.gc M all) ha
  have hreg : ∀ y, (gc M all s).reg y = true ↔ s.reg y = true ∧ ¬ (s.tomb y = true ∨ y ∈ M) := by
    intro y
    rw [gc_reg]
    constructor
    · rintro ⟨h1, h2⟩
      exact ⟨h1, fun hc => h2 ⟨(ha.2 y).2 ⟨_, hi.al y h1⟩, hc⟩⟩
    · rintro ⟨h1, h2⟩
      exact ⟨h1, fun hc => h2 hc.2⟩
  have hfold : ∀ (xs : List Nat) (s : St τ) (a b : Nat), b ∉ xs →
      P (xs.foldl collect s) a b = P s a b ∧ C (xs.foldl collect s) a b = C s a b := by
    intro xs
    induction xs with
    | nil => intro s a b _; exact ⟨rfl, rfl⟩
    | cons x xs ih =>
      intro s a b hb
      rw [List.mem_cons, not_or] at hb
      obtain ⟨h1, h2⟩ := ih (collect s x) a b hb.2
      obtain ⟨_, _, _, _, _, _, _, _, f9, f10⟩ := collect_spec s x
      rw [List.foldl_cons, h1, h2, f9, f10, if_neg (fun hc => hb.1 hc.1), if_neg (fun hc => hb.1 hc.1)]
      exact ⟨rfl, rfl⟩
  refine ⟨hreg, fun a b ha' hm => ?_, fun k n x hk => (hi'.sc k n x hk).1, fun a b _ hb => ?_⟩
  · rcases hm with hm | hm
    · exact hi'.clP a b ha' (mem_keys_par.1 hm)
    · exact hi'.clC a b ha' (mem_keys_chi.1 hm)
  · refine hfold _ (mark M s) a b ?_
    intro hm
    rw [List.mem_filter] at hm
    refine ((hreg b).1 hb).2 ?_
    simpa [mark] using hm.2

/-! ## C30: the alias table -/

/-- The operation does not add members of another object to an alias set. -/
def Clean : Op τ → Prop
  | .mutate _ _ _ dups _ => dups = ∅
  | _ => True

/-- States reached by operations none of which does. -/
inductive CleanReachable : St τ → Prop where
  | empty : CleanReachable empty
  | step {s : St τ} (op : Op τ) : CleanReachable s → Allowed s op → Clean op → CleanReachable (step s op)

theorem CleanReachable.reachable {s : St τ} (h : CleanReachable s) : Reachable s := by
  induction h with
  | empty => exact .empty
  | step op _ ha _ ih => exact ih.step op ha

/-- C30, one half. In every state reached, a symbol is listed as an alias of the object it refers to. -/
theorem alias_complete {s : St τ} (h : Reachable s) (x : Nat) (hx : s.reg x = true) : x ∈ s.aliases (s.obj x) :=
  (Inv.reachable h).al x hx

/-- The listed symbols refer to the object. -/
def Exact (s : St τ) : Prop := ∀ y o, y ∈ s.aliases o → s.reg y = true ∧ s.obj y = o

theorem Exact.congr {s s' : St τ} (h : Exact s) (h1 : s'.reg = s.reg) (h2 : s'.obj = s.obj)
    (h3 : s'.aliases = s.aliases) : Exact s' := by
  intro y o hy
  rw [h3] at hy
  rw [h1, h2]
  exact h y o hy

theorem Exact.updateDeps {s : St τ} (h : Exact s) (t : τ) (x : Nat) (D : List Nat) (ow skip : Bool) (hD : D.Nodup) :
    Exact (updateDeps t x D ow skip s) := by
  obtain ⟨f1, f2, f3, f4, _⟩ := updateDeps_frame t x D ow skip s hD
  exact h.congr f1 f2 f4

theorem Exact.collect {s : St τ} (h : Exact s) (x : Nat) : Exact (collect s x) := by
  obtain ⟨f1, f2, f3, f4, f5, f6, f7, _⟩ := collect_spec s x
  intro y o hy
  rw [f7] at hy
  have : y ≠ x ∧ y ∈ s.aliases o := by
    by_cases ho : o = s.obj x
    · rw [ho, Function.update_self] at hy
      rw [ho]
      exact Finset.mem_erase.1 hy
    · rw [Function.update_of_ne ho] at hy
      refine ⟨?_, hy⟩
      rintro rfl
      exact ho (h y o hy).2.symm
  rw [f1, f2, Function.update_of_ne this.1, Function.update_of_ne this.1]
  exact h y o this.2

theorem Exact.step {s : St τ} (hi : Inv s) (h : Exact s) (op : Op τ) (ha : Allowed s op) (hc : Clean op) :
    Exact (step s op) := by
  cases op with
  | define x o sc n imp D t =>
    refine Exact.updateDeps (s := create x o sc n imp s) ?_ t x D true false ha.2.2.1
    intro y o' hy
    show Function.update s.reg x true y = true ∧ Function.update s.obj x o y = o'
    have hy' : y ∈ Function.update s.aliases o (insert x (s.aliases o)) o' := hy
    by_cases hyx : y = x
    · subst hyx
      rw [Function.update_self, Function.update_self]
      refine ⟨rfl, ?_⟩
      by_contra ho
      rw [Function.update_of_ne (Ne.symm ho)] at hy'
      have := (h y o' hy').1
      rw [ha.1] at this
      cases this
    · rw [Function.update_of_ne hyx, Function.update_of_ne hyx]
      by_cases ho : o' = o
      · rw [ho, Function.update_self] at hy'
        rw [ho]
        exact h y o ((Finset.mem_insert.1 hy').resolve_left hyx)
      · rw [Function.update_of_ne ho] at hy'
        exact h y o' hy'
  | assign x o D ow t =>
    refine Exact.updateDeps (s := updateObjRef x o false s) ?_ t x D ow false ha.2.1
    obtain ⟨f1, f2, _⟩ := updateObjRef_frame x o false s
    intro y o' hy
    rw [f1, f2]
    have hy' : y ∈ (moveAlias x { s with
        tomb := Function.update s.tomb x false
        obj := Function.update s.obj x o }).aliases o' := hy
    rw [moveAlias_aliases (c := s.obj x) (s := { s with
        tomb := Function.update s.tomb x false
        obj := Function.update s.obj x o }) (hi.ca x ha.1) _ _ (fun _ => hi.al x ha.1)] at hy'
    rcases hy' with ⟨rfl, ho | ⟨ho, hm⟩⟩ | ⟨hyx, hm⟩
    · exact ⟨ha.1, ho.symm⟩
    · exact absurd (h y o' hm).2.symm ho
    · rw [Function.update_of_ne hyx]
      exact h y o' hm
  | mutate x D immutable dups t =>
    have hd : dups = ∅ := hc
    refine Exact.congr (h.updateDeps t x D false immutable ha.2.1) rfl rfl ?_
    show Function.update (Sym.updateDeps t x D false immutable s).aliases _
      ((Sym.updateDeps t x D false immutable s).aliases _ ∪ dups) = (Sym.updateDeps t x D false immutable s).aliases
    have hu : ∀ S : Finset Nat, S ∪ ∅ = S := fun S => by ext; simp
    rw [hd, hu, Function.update_eq_self]
  | resync x o =>
    have hx : s.reg x = true := ha
    have hA := mem_resyncAliases (o := o) (hi.ca x hx)
    show Exact (updateObjRef x o true { s with aliases := resyncAliases x o s })
    generalize resyncAliases x o s = A at hA
    obtain ⟨f1, f2, _⟩ := updateObjRef_frame x o true { s with aliases := A }
    intro y o' hy
    rw [f1, f2]
    have hy' : y ∈ (moveAlias x { s with
        aliases := A
        tomb := Function.update s.tomb x false
        obj := Function.update s.obj x o }).aliases o' := hy
    have hr : (y = x ∧ o' = o) ∨ y ≠ x ∧ y ∈ A o' := by
      rw [moveAlias_aliases (c := s.obj x) (s := { s with
        aliases := A
        tomb := Function.update s.tomb x false
        obj := Function.update s.obj x o }) (hi.ca x hx) _ _ (fun ho => (hA x _).2 (.inl ⟨rfl, by simpa using ho⟩))] at hy'
      rcases hy' with ⟨rfl, ho | ⟨ho, hm⟩⟩ | hm
      · left
        refine ⟨rfl, ?_⟩
        simpa using ho
      · left
        refine ⟨rfl, ?_⟩
        rcases (hA y o').1 hm with hm | hm
        · exact hm.2
        · exact absurd (h y o' hm.2).2.symm ho
      · exact .inr hm
    rcases hr with ⟨rfl, rfl⟩ | ⟨hyx, hm⟩
    · exact ⟨hx, Function.update_self _ _ _⟩
    · show s.reg y = true ∧ Function.update s.obj x o y = o'
      rw [Function.update_of_ne hyx]
      rcases (hA y o').1 hm with hm | hm
      · exact absurd hm.1 hyx
      · exact h y o' hm.2
  | delete sc n t =>
    show Exact (match s.scope sc n with | none => s | some x => deleteSym sc n t x s)
    cases hs : s.scope sc n with
    | none => exact h
    | some x =>
      exact Exact.congr (Exact.updateDeps (s := { s with
        scope := Function.update s.scope sc (Function.update (s.scope sc) n none) }) h t x [] true false
        List.nodup_nil) rfl rfl rfl
  | remap sc a b t =>
    show Exact (match s.scope sc a with | none => s | some x => remapSym sc a b t x s)
    cases hs : s.scope sc a with
    | none => exact h
    | some x =>
      exact Exact.congr (Exact.updateDeps (s := { s with
        scope := Function.update s.scope sc (Function.update (s.scope sc) a none)
        name := Function.update s.name x b
        cached := Function.update s.cached x none }) h t x [] false false List.nodup_nil) rfl rfl rfl
  | gc M all =>
    show Exact (gc M all s)
    unfold gc
    have hfold : ∀ (xs : List Nat) (s : St τ), Exact s → Exact (xs.foldl Sym.collect s) := by
      intro xs
      induction xs with
      | nil => exact fun _ h => h
      | cons x xs ih => exact fun s h => ih _ (h.collect x)
    exact hfold _ _ h

theorem CleanReachable.exact {s : St τ} (h : CleanReachable s) : Exact s := by
  induction h with
  | empty => exact fun y o hy => absurd hy (Finset.notMem_empty y)
  | step op hr ha hc ih => exact Exact.step (Inv.reachable hr.reachable) ih op ha hc

/-- C30 in part. If no operation was a mutation of a container whose columns and attributes share objects (`Clean`), a symbol
that was not collected is listed as an alias of an object iff it refers to it, and no collected symbol is listed. Missing:
such mutations, see `alias_violated`. -/
theorem alias_exact_partial {s : St τ} (h : CleanReachable s) (x o : Nat) :
    x ∈ s.aliases o ↔ s.reg x = true ∧ s.obj x = o := by
  refine ⟨h.exact x o, ?_⟩
  rintro ⟨hx, rfl⟩
  exact alias_complete h.reachable x hx

/-- C29, alias entries, in part: after a collection only symbols that remain are listed. Missing: as in
`alias_exact_partial`. -/
theorem gc_alias_partial {s : St τ} (h : CleanReachable s) (M all : List Nat) (ha : Allowed s (.gc M all)) (x o : Nat)
    (hx : x ∈ (gc M all s).aliases o) : (gc M all s).reg x = true ∧ ¬ (s.tomb x = true ∨ x ∈ M) := by
  have h1 := (CleanReachable.step (.gc M all) h ha trivial).exact x o hx
  exact ⟨h1.1, (((gc_exact h.reachable M all ha).1 x).1 h1.1).2⟩

/-- A frame `df` (symbol 1, object 10) with the column `df["a"]` (symbol 2, object 11) that is also `df.a` (symbol 3,
object 11); a mutation of `df` puts symbol 3 into the alias set of object 10. Then `df.a` is deleted and collected. -/
def ex30 : List (Op Nat) :=
  [.define 1 10 0 1 false [] 1, .define 2 11 5 1 false [] 2, .define 3 11 5 2 false [] 3, .mutate 1 [] false {3} 4,
    .delete 5 2 5, .gc [] [1, 2, 3]]

theorem mem_upd {f : Nat → Finset Nat} {o : Nat} {S : Finset Nat} {y o' : Nat} :
    y ∈ Function.update f o S o' ↔ if o' = o then y ∈ S else y ∈ f o' := by
  by_cases h : o' = o
  · subst h; simp
  · simp [h]

theorem ex30_reachable : Reachable (ex30.foldl step empty) ∧ Reachable ((ex30.take 4).foldl step empty) := by
  have key : ∀ i (hi : i < ex30.length), Allowed ((ex30.take i).foldl step empty) ex30[i] := by
    intro i hi
    match i, hi with
    | 0, _ => exact ⟨rfl, rfl, by decide, by simp⟩
    | 1, _ => exact ⟨rfl, rfl, by decide, by simp⟩
    | 2, _ => exact ⟨rfl, rfl, by decide, by simp⟩
    | 3, _ => exact ⟨rfl, by decide, by simp, fun d hd => by
        rw [Finset.mem_singleton] at hd
        subst hd
        rfl⟩
    | 4, _ => trivial
    | 5, _ =>
      refine ⟨by decide, fun x => ?_⟩
      have hal : ((ex30.take 5).foldl step empty).aliases = fun o => if o = 10 then {1, 3} else if o = 11 then {3, 2}
          else ∅ := by
        funext o
        rcases eq_or_ne o 10 with rfl | h10
        · rfl
        · rcases eq_or_ne o 11 with rfl | h11
          · rfl
          · rw [if_neg h10, if_neg h11]
            show Function.update (Function.update (Function.update (Function.update _ 10 _) 11 _) 11 _) 10 _ o = _
            rw [Function.update_of_ne h10, Function.update_of_ne h11, Function.update_of_ne h11,
              Function.update_of_ne h10]
            rfl
      show x ∈ [1, 2, 3] ↔ ∃ o, x ∈ ((ex30.take 5).foldl step empty).aliases o
      rw [hal]
      constructor
      · intro hx
        rcases List.mem_cons.1 hx with rfl | hx
        · exact ⟨10, by decide⟩
        rcases List.mem_cons.1 hx with rfl | hx
        · exact ⟨11, by decide⟩
        rcases List.mem_cons.1 hx with rfl | hx
        · exact ⟨11, by decide⟩
        · exact absurd hx List.not_mem_nil
      · rintro ⟨o, ho⟩
        by_cases h10 : o = 10
        · rw [h10] at ho
          have : x ∈ ({1, 3} : Finset Nat) := ho
          rw [Finset.mem_insert, Finset.mem_singleton] at this
          rcases this with rfl | rfl <;> decide
        · by_cases h11 : o = 11
          · rw [h11] at ho
            have : x ∈ ({3, 2} : Finset Nat) := ho
            rw [Finset.mem_insert, Finset.mem_singleton] at this
            rcases this with rfl | rfl <;> decide
          · simp only [if_neg h10, if_neg h11] at ho
            exact absurd ho (Finset.notMem_empty x)
  refine ⟨reachable_run _ _ .empty key, reachable_run _ _ .empty (fun i hi => ?_)⟩
  have hi' : i < ex30.length := lt_of_lt_of_le hi (by decide)
  have hi4 : i < 4 := hi
  have := key i hi'
  rw [List.getElem_take, List.take_take, min_eq_left hi4.le]
  exact this

/-- C30 and the last part of C29 do not hold as stated. After the mutation the column's symbol is listed as an alias of the
frame although it refers to another object; after it was collected it is still listed. -/
theorem alias_violated :
    (3 ∈ ((ex30.take 4).foldl step empty).aliases 10 ∧ ((ex30.take 4).foldl step empty).obj 3 = 11) ∧
    3 ∈ (ex30.foldl step empty).aliases 10 ∧ (ex30.foldl step empty).reg 3 = false := by
  refine ⟨⟨?_, rfl⟩, ?_, rfl⟩
  · exact Finset.mem_union_right _ (Finset.mem_singleton_self 3)
  · decide

/-! ## C60: names of live symbols -/

/-- C60 in part. If a name stands for a symbol that is not garbage and no garbage symbol of the same scope has that name, the
name stands for the symbol after a collection. Missing: garbage of the same name, see `name_violated`. -/
theorem name_kept_partial {s : St τ} (M all : List Nat) (k n x : Nat) (hx : s.scope k n = some x)
    (hno : ∀ y ∈ all, s.tomb y = true ∨ y ∈ M → ¬ (s.home y = k ∧ s.name y = n)) : (gc M all s).scope k n = some x := by
  have hfold : ∀ (xs : List Nat) (s : St τ), s.scope k n = some x →
      (∀ y ∈ xs, ¬ (s.home y = k ∧ s.name y = n)) → (xs.foldl collect s).scope k n = some x := by
    intro xs
    induction xs with
    | nil => exact fun _ h _ => h
    | cons z xs ih =>
      intro s h hn
      obtain ⟨f1, f2, f3, f4, f5, f6, f7, f8, _⟩ := collect_spec s z
      refine ih (collect s z) ?_ (fun y hy => ?_)
      · rw [f8, if_neg]
        · exact h
        · rintro ⟨h1, h2⟩
          exact hn z List.mem_cons_self ⟨h1.symm, h2.symm⟩
      · rw [f5, f6]
        exact hn y (List.mem_cons_of_mem _ hy)
  refine hfold _ (mark M s) hx (fun y hy => ?_)
  rw [List.mem_filter] at hy
  exact hno y hy.1 (by simpa [mark] using hy.2)

/-- `x = 1; del x; x = 5` and a collection; the first `x` is symbol 1, the second symbol 2. -/
def ex60 : List (Op Nat) :=
  [.define 1 10 0 1 false [] 1, .delete 0 1 2, .define 2 11 0 1 false [] 3, .gc [] [1, 2]]

theorem ex60_reachable : Reachable (ex60.foldl step empty) := by
  refine reachable_run _ _ .empty (fun i hi => ?_)
  match i, hi with
  | 0, _ => exact ⟨rfl, rfl, by decide, by simp⟩
  | 1, _ => trivial
  | 2, _ => exact ⟨rfl, rfl, by decide, by simp⟩
  | 3, _ =>
    refine ⟨by decide, fun x => ?_⟩
    have hal : ((ex60.take 3).foldl step empty).aliases = fun o => if o = 11 then {2} else if o = 10 then {1} else ∅ := by
      funext o
      rcases eq_or_ne o 11 with rfl | h11
      · rfl
      · rcases eq_or_ne o 10 with rfl | h10
        · rfl
        · rw [if_neg h11, if_neg h10]
          show Function.update (Function.update _ 10 _) 11 _ o = _
          rw [Function.update_of_ne h11, Function.update_of_ne h10]
          rfl
    show x ∈ [1, 2] ↔ ∃ o, x ∈ ((ex60.take 3).foldl step empty).aliases o
    rw [hal]
    constructor
    · intro hx
      rcases List.mem_cons.1 hx with rfl | hx
      · exact ⟨10, by decide⟩
      rcases List.mem_cons.1 hx with rfl | hx
      · exact ⟨11, by decide⟩
      · exact absurd hx List.not_mem_nil
    · rintro ⟨o, ho⟩
      by_cases h11 : o = 11
      · rw [h11] at ho
        have : x ∈ ({2} : Finset Nat) := ho
        rw [Finset.mem_singleton] at this
        subst this
        decide
      · by_cases h10 : o = 10
        · rw [h10] at ho
          have : x ∈ ({1} : Finset Nat) := ho
          rw [Finset.mem_singleton] at this
          subst this
          decide
        · simp only [if_neg h10, if_neg h11] at ho
          exact absurd ho (Finset.notMem_empty x)

/-- C60 does not hold as stated: after `x = 1; del x; x = 5` and a collection the live symbol of `x` is not found by its name
any more. -/
theorem name_violated :
    ((ex60.take 3).foldl step empty).scope 0 1 = some 2 ∧ (ex60.foldl step empty).reg 2 = true ∧
    (ex60.foldl step empty).scope 0 1 = none :=
  ⟨rfl, rfl, rfl⟩

/-! ## Cases meeting the hypotheses -/

/-- `edges_mutual`: in the history `ex28b` symbol 3 uses 2, with the time 3, and 2 uses 1 and 3. -/
example : Assoc.get ((ex28b.foldl step empty).par 3) 2 = some [3] ∧
    Assoc.get ((ex28b.foldl step empty).chi 2) 3 = some [3] :=
  ⟨(edges_mutual ex28b_reachable).1 3 2 [3] rfl rfl |>.2 rfl, rfl⟩

/-- `overwrite_partial`: `x = z` after `ex28a`, in which `x` depends on `y` and `z`. -/
example : ∀ b, b ∈ Assoc.keys ((step (ex28a.foldl step empty) (.assign 3 12 [1] true 9)).par 3) ↔ b ∈ [1] := fun b =>
  (overwrite_partial ex28a_reachable 3 12 [1] 9 ⟨rfl, by decide, by simp; rfl⟩ (by decide)
    (fun d hd => by
      rw [List.mem_singleton] at hd
      subst hd
      exact List.not_mem_nil) (fun h => by cases h) b).1

/-- `augment_exact`: a mutation of `x` involving `x` and `z` after `ex28b`. -/
example : ∀ b, b ∈ Assoc.keys ((step (ex28b.foldl step empty) (.mutate 3 [3, 1] false ∅ 9)).par 3) ↔
    b ∈ [2] ∨ b ∈ [3, 1] ∧ b ≠ 3 := fun b =>
  (augment_exact (s := ex28b.foldl step empty) 3 [3, 1] ∅ 9
    ⟨rfl, by decide, by simp; exact ⟨rfl, rfl⟩, fun d hd => absurd hd (Finset.notMem_empty d)⟩ rfl b).1

/-- `gc_exact`, `gc_alias_partial`, `alias_exact_partial`, `name_kept_partial`: `y = 1` (symbol 1), `x = y` (symbol 2), then
`y` is collected. -/
example : ∃ s : St Nat, CleanReachable s ∧ Allowed s (.gc [1] [1, 2]) ∧ 1 ∈ Assoc.keys (s.par 2) ∧
    s.scope 0 2 = some 2 ∧ s.aliases 10 = {2, 1} ∧ (∀ y ∈ [1, 2], s.tomb y = true ∨ y ∈ [1] → ¬ (s.home y = 0 ∧ s.name y = 2)) ∧
    Assoc.keys ((gc [1] [1, 2] s).par 2) = [] ∧ (gc [1] [1, 2] s).aliases 10 = {2} := by
  refine ⟨step (step empty (.define 1 10 0 1 false [] 1)) (.define 2 10 0 2 false [1] 2),
    .step _ (.step _ .empty ⟨rfl, rfl, by decide, by simp⟩ trivial) ⟨rfl, rfl, by decide, by simp; rfl⟩ trivial,
    ⟨by decide, fun x => ?_⟩, List.mem_cons_self, rfl, rfl, by decide, rfl, rfl⟩
  constructor
  · intro hx
    refine ⟨10, ?_⟩
    show x ∈ ({2, 1} : Finset Nat)
    rcases List.mem_cons.1 hx with rfl | hx
    · decide
    rcases List.mem_cons.1 hx with rfl | hx
    · decide
    · exact absurd hx List.not_mem_nil
  · rintro ⟨o, ho⟩
    have ho' : x ∈ Function.update (Function.update (fun _ => (∅ : Finset Nat)) 10 {1}) 10 {2, 1} o := ho
    by_cases h10 : o = 10
    · rw [h10, Function.update_self, Finset.mem_insert, Finset.mem_singleton] at ho'
      rcases ho' with rfl | rfl <;> decide
    · rw [Function.update_of_ne h10, Function.update_of_ne h10] at ho'
      exact absurd ho' (Finset.notMem_empty x)

end Verif.Sym
