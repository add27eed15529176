import Verif.Sym.Model

/-! # Symbols: lemmas and the invariant -/

namespace Verif.Sym
open Verif
variable {τ : Type}

/-- The times recorded at `a` for the dependency `b`. -/
def P (s : St τ) (a b : Nat) : Option (List τ) := Assoc.get (s.par a) b

/-- The times recorded at `a` for the user `b`. -/
def C (s : St τ) (a b : Nat) : Option (List τ) := Assoc.get (s.chi a) b

/-- Everything but the edges is the same. -/
structure Same (s s' : St τ) : Prop where
  reg : s'.reg = s.reg
  obj : s'.obj = s.obj
  cached : s'.cached = s.cached
  tomb : s'.tomb = s.tomb
  imp : s'.imp = s.imp
  aliases : s'.aliases = s.aliases
  scope : s'.scope = s.scope
  home : s'.home = s.home
  name : s'.name = s.name

theorem Same.refl (s : St τ) : Same s s := ⟨rfl, rfl, rfl, rfl, rfl, rfl, rfl, rfl, rfl⟩

theorem Same.trans {s s' s'' : St τ} (h : Same s s') (h' : Same s' s'') : Same s s'' :=
  ⟨h'.reg.trans h.reg, h'.obj.trans h.obj, h'.cached.trans h.cached, h'.tomb.trans h.tomb, h'.imp.trans h.imp,
    h'.aliases.trans h.aliases, h'.scope.trans h.scope, h'.home.trans h.home, h'.name.trans h.name⟩

theorem get_update (f : Nat → Dict τ) (p a b : Nat) (d : Dict τ) :
    Assoc.get (Function.update f p d a) b = if a = p then Assoc.get d b else Assoc.get (f a) b := by
  by_cases h : a = p
  · subst h; simp
  · simp [h]

theorem upd2 (f : Nat → Nat → Option Nat) (k n k' n' : Nat) (v : Option Nat) :
    Function.update f k (Function.update (f k) n v) k' n' = if k' = k ∧ n' = n then v else f k' n' := by
  by_cases hk : k' = k
  · subst hk
    by_cases hn : n' = n
    · subst hn
      simp
    · simp [hn]
  · simp [hk]

/-! ## Dropping and adding parents -/

theorem drop_spec (x : Nat) : ∀ (ps : List Nat) (s : St τ),
    Same s (ps.foldl (dropParent x) s) ∧
    (∀ a b, P (ps.foldl (dropParent x) s) a b = if a = x ∧ b ∈ ps then none else P s a b) ∧
    (∀ a b, C (ps.foldl (dropParent x) s) a b = if b = x ∧ a ∈ ps then none else C s a b)
  | [], s => ⟨Same.refl s, by simp, by simp⟩
  | p :: ps, s => by
    obtain ⟨h1, h2, h3⟩ := drop_spec x ps (dropParent x s p)
    rw [List.foldl_cons]
    refine ⟨Same.trans (s' := (dropParent x s p)) ⟨rfl, rfl, rfl, rfl, rfl, rfl, rfl, rfl, rfl⟩ h1, fun a b => ?_, fun a b => ?_⟩
    · rw [h2]
      have : P (dropParent x s p) a b = if a = x ∧ b = p then none else P s a b := by
        unfold P dropParent
        simp only
        rw [get_update, Assoc.get_erase]
        by_cases ha : a = x <;> by_cases hb : b = p <;> simp [ha, hb]
      rw [this]
      by_cases ha : a = x <;> by_cases hb : b = p <;> simp [ha, hb]
    · rw [h3]
      have : C (dropParent x s p) a b = if b = x ∧ a = p then none else C s a b := by
        unfold C dropParent
        simp only
        rw [get_update, Assoc.get_erase]
        by_cases ha : b = x <;> by_cases hb : a = p <;> simp [ha, hb]
      rw [this]
      by_cases ha : b = x <;> by_cases hb : a = p <;> simp [ha, hb]

theorem get_appendAt (d : Dict τ) (k b : Nat) (t : τ) :
    Assoc.get (appendAt d k t) b = if b = k then some ((Assoc.get d k).getD [] ++ [t]) else Assoc.get d b := by
  unfold appendAt
  rw [Assoc.get_set]

theorem add_spec (t : τ) (x : Nat) : ∀ (ps : List Nat) (s : St τ), ps.Nodup →
    Same s (ps.foldl (addParent t x) s) ∧
    (∀ a b, P (ps.foldl (addParent t x) s) a b =
      if a = x ∧ b ∈ ps then some ((P s x b).getD [] ++ [t]) else P s a b) ∧
    (∀ a b, C (ps.foldl (addParent t x) s) a b =
      if b = x ∧ a ∈ ps then some ((C s a x).getD [] ++ [t]) else C s a b)
  | [], s, _ => ⟨Same.refl s, by simp, by simp⟩
  | p :: ps, s, hn => by
    rw [List.nodup_cons] at hn
    obtain ⟨h1, h2, h3⟩ := add_spec t x ps (addParent t x s p) hn.2
    rw [List.foldl_cons]
    have e1 : ∀ a b, P (addParent t x s p) a b =
        if a = x ∧ b = p then some ((P s x p).getD [] ++ [t]) else P s a b := by
      intro a b
      unfold P addParent
      simp only
      rw [get_update, get_appendAt]
      by_cases ha : a = x <;> by_cases hb : b = p <;> simp [ha, hb]
    have e2 : ∀ a b, C (addParent t x s p) a b =
        if b = x ∧ a = p then some ((C s p x).getD [] ++ [t]) else C s a b := by
      intro a b
      unfold C addParent
      simp only
      rw [get_update, get_appendAt]
      by_cases ha : b = x <;> by_cases hb : a = p <;> simp [ha, hb]
    refine ⟨Same.trans (s' := (addParent t x s p)) ⟨rfl, rfl, rfl, rfl, rfl, rfl, rfl, rfl, rfl⟩ h1, fun a b => ?_, fun a b => ?_⟩
    · rw [h2, e1, e1]
      by_cases ha : a = x <;> by_cases hb : b = p
      · subst hb; simp [ha, hn.1]
      · simp [ha, hb]
      · simp [ha]
      · simp [ha]
    · rw [h3, e2, e2]
      by_cases ha : b = x <;> by_cases hb : a = p
      · subst hb; simp [ha, hn.1]
      · simp [ha, hb]
      · simp [ha]
      · simp [ha]

theorem mem_keys_par {s : St τ} {a b : Nat} : b ∈ Assoc.keys (s.par a) ↔ P s a b ≠ none := by
  unfold P
  rw [Ne, Assoc.get_eq_none_iff, not_not]

theorem mem_keys_chi {s : St τ} {a b : Nat} : b ∈ Assoc.keys (s.chi a) ↔ C s a b ≠ none := by
  unfold C
  rw [Ne, Assoc.get_eq_none_iff, not_not]

/-- The parents dropped by `setDeps`. -/
def Dropped (s : St τ) (x : Nat) (D : List Nat) (ow : Bool) (b : Nat) : Prop :=
  ow = true ∧ P s x b ≠ none ∧ ¬ (b ∈ D ∧ b ≠ x)

/-- The parents added by `setDeps`. -/
def Added (s : St τ) (x : Nat) (D : List Nat) (b : Nat) : Prop := b ∈ D ∧ b ≠ x ∧ P s x b = none

open Classical in
theorem setDeps_spec (t : τ) (x : Nat) (D : List Nat) (ow : Bool) (s : St τ) (hD : D.Nodup) :
    Same s (setDeps t x D ow s) ∧
    (∀ a b, P (setDeps t x D ow s) a b =
      if a = x ∧ Dropped s x D ow b then none
      else if a = x ∧ Added s x D b then some ((P s x b).getD [] ++ [t]) else P s a b) ∧
    (∀ a b, C (setDeps t x D ow s) a b =
      if b = x ∧ Dropped s x D ow a then none
      else if b = x ∧ Added s x D a then some ((C s a x).getD [] ++ [t]) else C s a b) := by
  -- the state between the loops
  have hmid : ∃ s1, (if ow then ((Assoc.keys (s.par x)).filter
        (fun p => p ∉ D.filter (fun d => d ≠ x))).foldl (dropParent x) s else s) = s1 ∧ Same s s1 ∧
      (∀ a b, P s1 a b = if a = x ∧ Dropped s x D ow b then none else P s a b) ∧
      (∀ a b, C s1 a b = if b = x ∧ Dropped s x D ow a then none else C s a b) := by
    refine ⟨_, rfl, ?_⟩
    cases ow with
    | false => exact ⟨Same.refl s, by simp [Dropped], by simp [Dropped]⟩
    | true =>
      obtain ⟨h1, h2, h3⟩ := drop_spec x ((Assoc.keys (s.par x)).filter
        (fun p => p ∉ D.filter (fun d => d ≠ x))) s
      have hm : ∀ b, b ∈ (Assoc.keys (s.par x)).filter (fun p => p ∉ D.filter (fun d => d ≠ x)) ↔
          Dropped s x D true b := by
        intro b
        rw [List.mem_filter, mem_keys_par, decide_eq_true_iff, List.mem_filter, decide_eq_true_iff]
        unfold Dropped
        simp
      refine ⟨by simpa using h1, fun a b => ?_, fun a b => ?_⟩
      · simp only [if_true]
        rw [h2]
        simp only [hm]
      · simp only [if_true]
        rw [h3]
        simp only [hm]
  obtain ⟨s1, e, hs, hP, hC⟩ := hmid
  unfold setDeps
  simp only
  rw [e]
  obtain ⟨h1, h2, h3⟩ := add_spec t x
    ((D.filter (fun d => d ≠ x)).filter (fun d => d ∉ Assoc.keys (s1.par x))) s1 ((hD.filter _).filter _)
  have hm : ∀ b, b ∈ (D.filter (fun d => d ≠ x)).filter (fun d => d ∉ Assoc.keys (s1.par x)) ↔
      Added s x D b := by
    intro b
    rw [List.mem_filter, List.mem_filter, decide_eq_true_iff, decide_eq_true_iff, mem_keys_par, hP]
    unfold Added
    constructor
    · rintro ⟨⟨hb, hx⟩, hp⟩
      refine ⟨hb, hx, ?_⟩
      by_contra hc
      refine hp ?_
      rw [if_neg (fun h => h.2.2.2 ⟨hb, hx⟩)]
      exact hc
    · rintro ⟨hb, hx, hp⟩
      refine ⟨⟨hb, hx⟩, ?_⟩
      rw [not_not, hp, ite_self]
  have hex : ∀ b, Added s x D b → ¬ Dropped s x D ow b := fun b ha hd => hd.2.1 ha.2.2
  refine ⟨hs.trans h1, fun a b => ?_, fun a b => ?_⟩
  · rw [h2]
    simp only [hm]
    rw [hP, hP]
    by_cases ha : a = x ∧ Added s x D b
    · rw [if_pos ha, if_neg (fun h => hex b ha.2 h.2), if_neg (fun h => hex b ha.2 h.2), if_pos ha]
    · rw [if_neg ha, if_neg ha]
  · rw [h3]
    simp only [hm]
    rw [hC, hC]
    by_cases ha : b = x ∧ Added s x D a
    · rw [if_pos ha, if_neg (fun h => hex a ha.2 h.2), if_neg (fun h => hex a ha.2 h.2), if_pos ha]
    · rw [if_neg ha, if_neg ha]

/-! ## The invariant -/

/-- What always holds. -/
structure Inv (s : St τ) : Prop where
  mutl : ∀ a b, s.reg a = true → s.reg b = true → P s a b = C s b a
  clP : ∀ a b, s.reg a = true → P s a b ≠ none → s.reg b = true
  clC : ∀ a b, s.reg a = true → C s a b ≠ none → s.reg b = true
  irr : ∀ a, s.reg a = true → P s a a = none
  al : ∀ x, s.reg x = true → x ∈ s.aliases (s.obj x)
  ca : ∀ x, s.reg x = true → s.cached x = some (s.obj x)
  sc : ∀ k n x, s.scope k n = some x → s.reg x = true ∧ s.home x = k ∧ s.name x = n

/-- The part about edges. -/
structure EInv (s : St τ) : Prop where
  mutl : ∀ a b, s.reg a = true → s.reg b = true → P s a b = C s b a
  clP : ∀ a b, s.reg a = true → P s a b ≠ none → s.reg b = true
  clC : ∀ a b, s.reg a = true → C s a b ≠ none → s.reg b = true
  irr : ∀ a, s.reg a = true → P s a a = none

theorem Inv.e {s : St τ} (h : Inv s) : EInv s := ⟨h.mutl, h.clP, h.clC, h.irr⟩

open Classical in
theorem EInv.setDeps {s : St τ} (h : EInv s) (t : τ) (x : Nat) (D : List Nat) (ow : Bool) (hD : D.Nodup)
    (hx : s.reg x = true) (hr : ∀ d ∈ D, s.reg d = true) : EInv (setDeps t x D ow s) := by
  obtain ⟨hs, hP, hC⟩ := setDeps_spec t x D ow s hD
  refine ⟨fun a b ha hb => ?_, fun a b ha hp => ?_, fun a b ha hp => ?_, fun a ha => ?_⟩
  · rw [hs.reg] at ha hb
    rw [hP, hC]
    have := h.mutl a b ha hb
    by_cases hax : a = x
    · subst hax
      rw [this]
    · simp [hax, this]
  · rw [hs.reg] at ha ⊢
    rw [hP] at hp
    by_cases h1 : a = x ∧ Dropped s x D ow b
    · rw [if_pos h1] at hp
      exact absurd rfl hp
    rw [if_neg h1] at hp
    by_cases h2 : a = x ∧ Added s x D b
    · exact hr b h2.2.1
    rw [if_neg h2] at hp
    exact h.clP a b ha hp
  · rw [hs.reg] at ha ⊢
    rw [hC] at hp
    by_cases h1 : b = x ∧ Dropped s x D ow a
    · rw [if_pos h1] at hp
      exact absurd rfl hp
    rw [if_neg h1] at hp
    by_cases h2 : b = x ∧ Added s x D a
    · rw [h2.1]
      exact hx
    rw [if_neg h2] at hp
    exact h.clC a b ha hp
  · rw [hs.reg] at ha
    rw [hP]
    by_cases h1 : a = x ∧ Dropped s x D ow a
    · rw [if_pos h1]
    rw [if_neg h1]
    by_cases h2 : a = x ∧ Added s x D a
    · exact absurd h2.1 h2.2.2.1
    rw [if_neg h2]
    exact h.irr a ha

/-- What `updateDeps` keeps besides the edges. -/
theorem updateDeps_frame (t : τ) (x : Nat) (D : List Nat) (ow skip : Bool) (s : St τ) (hD : D.Nodup) :
    (updateDeps t x D ow skip s).reg = s.reg ∧ (updateDeps t x D ow skip s).obj = s.obj ∧
    (updateDeps t x D ow skip s).tomb = s.tomb ∧ (updateDeps t x D ow skip s).aliases = s.aliases ∧
    (updateDeps t x D ow skip s).scope = s.scope ∧ (updateDeps t x D ow skip s).home = s.home ∧
    (updateDeps t x D ow skip s).name = s.name ∧
    ∀ y, (updateDeps t x D ow skip s).cached y = s.cached y ∨
      y = x ∧ (updateDeps t x D ow skip s).cached y = some (s.obj x) := by
  unfold updateDeps
  split_ifs
  · exact ⟨rfl, rfl, rfl, rfl, rfl, rfl, rfl, fun y => .inl rfl⟩
  · exact ⟨rfl, rfl, rfl, rfl, rfl, rfl, rfl, fun y => .inl rfl⟩
  · obtain ⟨hs, _, _⟩ := setDeps_spec t x D (effective s x D ow) s hD
    refine ⟨hs.reg, hs.obj, hs.tomb, hs.aliases, hs.scope, hs.home, hs.name, fun y => ?_⟩
    unfold refreshCached
    simp only
    by_cases hy : y = x
    · subst hy
      right
      simp [hs.obj]
    · left
      simp [hy, hs.cached]

/-- If nothing is skipped the cached object is up to date afterwards. -/
theorem updateDeps_cached (t : τ) (x : Nat) (D : List Nat) (ow : Bool) (s : St τ) (hD : D.Nodup) :
    (updateDeps t x D ow false s).cached x = some (s.obj x) := by
  unfold updateDeps
  by_cases h : (s.imp x && decide (s.cached x = some (s.obj x))) = true
  · rw [if_pos h]
    rw [Bool.and_eq_true, decide_eq_true_iff] at h
    exact h.2
  · rw [if_neg h, if_neg (by decide)]
    unfold refreshCached
    simp [(setDeps_spec t x D (effective s x D ow) s hD).1.obj]

theorem EInv.updateDeps {s : St τ} (h : EInv s) (t : τ) (x : Nat) (D : List Nat) (ow skip : Bool) (hD : D.Nodup)
    (hx : s.reg x = true) (hr : ∀ d ∈ D, s.reg d = true) : EInv (updateDeps t x D ow skip s) := by
  unfold Sym.updateDeps
  split_ifs
  · exact h
  · exact h
  · have := h.setDeps t x D (effective s x D ow) hD hx hr
    exact ⟨this.mutl, this.clP, this.clC, this.irr⟩

/-- `updateDeps` keeps the invariant if the cached object of other symbols is fine before. -/
theorem Inv.updateDeps {s : St τ} (he : EInv s) (hal : ∀ y, s.reg y = true → y ∈ s.aliases (s.obj y))
    (hsc : ∀ k n y, s.scope k n = some y → s.reg y = true ∧ s.home y = k ∧ s.name y = n) (t : τ) (x : Nat)
    (D : List Nat) (ow : Bool) (hD : D.Nodup) (hx : s.reg x = true) (hr : ∀ d ∈ D, s.reg d = true)
    (hca : ∀ y, y ≠ x → s.reg y = true → s.cached y = some (s.obj y)) : Inv (updateDeps t x D ow false s) := by
  have e := he.updateDeps t x D ow false hD hx hr
  obtain ⟨f1, f2, f3, f4, f5, f6, f7, f8⟩ := updateDeps_frame t x D ow false s hD
  refine ⟨e.mutl, e.clP, e.clC, e.irr, ?_, ?_, ?_⟩
  · intro y hy
    rw [f1] at hy
    rw [f4, f2]
    exact hal y hy
  · intro y hy
    rw [f1] at hy
    rw [f2]
    by_cases hyx : y = x
    · subst hyx
      exact updateDeps_cached t y D ow s hD
    · rcases f8 y with h | ⟨h, _⟩
      · rw [h]
        exact hca y hyx hy
      · exact absurd h hyx
  · intro k n y h
    rw [f5] at h
    rw [f1, f6, f7]
    exact hsc k n y h

/-! ## Collection -/

theorem eraseChi_spec (x : Nat) : ∀ (ps : List Nat) (s : St τ),
    Same s (ps.foldl (popChild x) s) ∧
    (∀ a b, P (ps.foldl (popChild x) s) a b =
      P s a b) ∧
    (∀ a b, C (ps.foldl (popChild x) s) a b =
      if b = x ∧ a ∈ ps then none else C s a b)
  | [], s => ⟨Same.refl s, fun _ _ => rfl, by simp⟩
  | p :: ps, s => by
    obtain ⟨h1, h2, h3⟩ := eraseChi_spec x ps (popChild x s p)
    rw [List.foldl_cons]
    refine ⟨Same.trans (s' := (popChild x s p)) ⟨rfl, rfl, rfl, rfl, rfl, rfl, rfl, rfl, rfl⟩ h1, fun a b => h2 a b, fun a b => ?_⟩
    rw [h3]
    have : C (popChild x s p) a b = if b = x ∧ a = p then none else C s a b := by
      unfold C popChild
      simp only
      rw [get_update, Assoc.get_erase]
      by_cases ha : b = x <;> by_cases hb : a = p <;> simp [ha, hb]
    rw [this]
    by_cases ha : b = x <;> by_cases hb : a = p <;> simp [ha, hb]

theorem erasePar_spec (x : Nat) : ∀ (ps : List Nat) (s : St τ),
    Same s (ps.foldl (popParent x) s) ∧
    (∀ a b, C (ps.foldl (popParent x) s) a b =
      C s a b) ∧
    (∀ a b, P (ps.foldl (popParent x) s) a b =
      if b = x ∧ a ∈ ps then none else P s a b)
  | [], s => ⟨Same.refl s, fun _ _ => rfl, by simp⟩
  | p :: ps, s => by
    obtain ⟨h1, h2, h3⟩ := erasePar_spec x ps (popParent x s p)
    rw [List.foldl_cons]
    refine ⟨Same.trans (s' := (popParent x s p)) ⟨rfl, rfl, rfl, rfl, rfl, rfl, rfl, rfl, rfl⟩ h1, fun a b => h2 a b, fun a b => ?_⟩
    rw [h3]
    have : P (popParent x s p) a b = if b = x ∧ a = p then none else P s a b := by
      unfold P popParent
      simp only
      rw [get_update, Assoc.get_erase]
      by_cases ha : b = x <;> by_cases hb : a = p <;> simp [ha, hb]
    rw [this]
    by_cases ha : b = x <;> by_cases hb : a = p <;> simp [ha, hb]

open Classical in
theorem unlink_spec (x : Nat) (s : St τ) : Same s (unlink x s) ∧
    (∀ a b, C (unlink x s) a b = if b = x ∧ P s x a ≠ none then none else C s a b) ∧
    (∀ a b, P (unlink x s) a b = if b = x ∧ C (unlink x s) x a ≠ none then none else P s a b) := by
  obtain ⟨a1, a2, a3⟩ := eraseChi_spec x (Assoc.keys (s.par x)) s
  obtain ⟨b1, b2, b3⟩ := erasePar_spec x
    (Assoc.keys (((Assoc.keys (s.par x)).foldl (popChild x) s).chi x)) ((Assoc.keys (s.par x)).foldl (popChild x) s)
  have hC : ∀ a b, C (unlink x s) a b = C ((Assoc.keys (s.par x)).foldl (popChild x) s) a b := b2
  refine ⟨a1.trans b1, fun a b => ?_, fun a b => ?_⟩
  · rw [hC, a3]
    simp only [mem_keys_par]
  · rw [hC]
    refine (b3 a b).trans ?_
    rw [a2]
    simp only [mem_keys_chi]

open Classical in
/-- What `collect` does. -/
theorem collect_spec (s : St τ) (x : Nat) :
    (collect s x).reg = Function.update s.reg x false ∧ (collect s x).obj = Function.update s.obj x 0 ∧
    (collect s x).cached = s.cached ∧ (collect s x).tomb = s.tomb ∧ (collect s x).home = s.home ∧
    (collect s x).name = s.name ∧
    (collect s x).aliases = Function.update s.aliases (s.obj x) ((s.aliases (s.obj x)).erase x) ∧
    (∀ k n, (collect s x).scope k n = if k = s.home x ∧ n = s.name x then none else s.scope k n) ∧
    (∀ a b, C (collect s x) a b = if b = x ∧ P s x a ≠ none then none else C s a b) ∧
    (∀ a b, P (collect s x) a b = if b = x ∧ C (collect s x) x a ≠ none then none else P s a b) := by
  obtain ⟨f, hC, hP⟩ := unlink_spec x (dropAliases x s)
  refine ⟨?_, f.obj, f.cached, f.tomb, f.home, f.name, f.aliases, fun k n => ?_, hC, hP⟩
  · show Function.update (unlink x (dropAliases x s)).reg x false = _
    rw [f.reg]
    rfl
  · show Function.update (unlink x (dropAliases x s)).scope ((unlink x (dropAliases x s)).home x)
      (Function.update ((unlink x (dropAliases x s)).scope ((unlink x (dropAliases x s)).home x))
        ((unlink x (dropAliases x s)).name x) none) k n = _
    rw [f.scope, f.home, f.name]
    show Function.update s.scope (s.home x) (Function.update (s.scope (s.home x)) (s.name x) none) k n = _
    by_cases hk : k = s.home x
    · subst hk
      by_cases hn : n = s.name x
      · subst hn
        simp
      · simp [hn]
    · simp [hk]

open Classical in
theorem Inv.collect {s : St τ} (h : Inv s) (x : Nat) : Inv (collect s x) := by
  obtain ⟨f1, f2, f3, f4, f5, f6, f7, f8, f9, f10⟩ := collect_spec s x
  have hreg : ∀ a, (Sym.collect s x).reg a = true → a ≠ x ∧ s.reg a = true := by
    intro a ha
    rw [f1] at ha
    by_cases hax : a = x
    · subst hax
      simp at ha
    · rw [Function.update_of_ne hax] at ha
      exact ⟨hax, ha⟩
  have hregI : ∀ a, a ≠ x → s.reg a = true → (Sym.collect s x).reg a = true := by
    intro a hax ha
    rw [f1, Function.update_of_ne hax]
    exact ha
  -- edges of a registered symbol to `x` go away
  have hPx : ∀ a, a ≠ x → s.reg a = true → P (Sym.collect s x) a x = none := by
    intro a hax ha
    rw [f10]
    by_cases hp : P s a x = none
    · rw [hp, ite_self]
    · have hx := h.clP a x ha hp
      rw [if_pos]
      refine ⟨rfl, ?_⟩
      rw [f9, if_neg (fun hc => hax hc.1), ← h.mutl a x ha hx]
      exact hp
  have hCx : ∀ a, a ≠ x → s.reg a = true → C (Sym.collect s x) a x = none := by
    intro a hax ha
    rw [f9]
    by_cases hp : C s a x = none
    · rw [hp, ite_self]
    · have hx := h.clC a x ha hp
      rw [if_pos]
      refine ⟨rfl, ?_⟩
      rw [h.mutl x a hx ha]
      exact hp
  have hP : ∀ a b, b ≠ x → P (Sym.collect s x) a b = P s a b := by
    intro a b hb
    rw [f10, if_neg (fun hc => hb hc.1)]
  have hC : ∀ a b, b ≠ x → C (Sym.collect s x) a b = C s a b := by
    intro a b hb
    rw [f9, if_neg (fun hc => hb hc.1)]
  refine ⟨fun a b ha hb => ?_, fun a b ha hp => ?_, fun a b ha hp => ?_, fun a ha => ?_, fun a ha => ?_, fun a ha => ?_,
    fun k n a hk => ?_⟩
  · obtain ⟨ha1, ha2⟩ := hreg a ha
    obtain ⟨hb1, hb2⟩ := hreg b hb
    rw [hP a b hb1, hC b a ha1]
    exact h.mutl a b ha2 hb2
  · obtain ⟨ha1, ha2⟩ := hreg a ha
    by_cases hb : b = x
    · subst hb
      exact absurd (hPx a ha1 ha2) hp
    · rw [hP a b hb] at hp
      exact hregI b hb (h.clP a b ha2 hp)
  · obtain ⟨ha1, ha2⟩ := hreg a ha
    by_cases hb : b = x
    · subst hb
      exact absurd (hCx a ha1 ha2) hp
    · rw [hC a b hb] at hp
      exact hregI b hb (h.clC a b ha2 hp)
  · obtain ⟨ha1, ha2⟩ := hreg a ha
    rw [hP a a ha1]
    exact h.irr a ha2
  · obtain ⟨ha1, ha2⟩ := hreg a ha
    rw [f7, f2, Function.update_of_ne ha1]
    by_cases ho : s.obj a = s.obj x
    · rw [ho, Function.update_self, ← ho]
      exact Finset.mem_erase.2 ⟨ha1, h.al a ha2⟩
    · rw [Function.update_of_ne ho]
      exact h.al a ha2
  · obtain ⟨ha1, ha2⟩ := hreg a ha
    rw [f3, f2, Function.update_of_ne ha1]
    exact h.ca a ha2
  · rw [f8] at hk
    by_cases hc : k = s.home x ∧ n = s.name x
    · rw [if_pos hc] at hk
      cases hk
    · rw [if_neg hc] at hk
      obtain ⟨h1, h2, h3⟩ := h.sc k n a hk
      rw [f5, f6]
      refine ⟨hregI a ?_ h1, h2, h3⟩
      rintro rfl
      exact hc ⟨h2.symm, h3.symm⟩

theorem Inv.mark {s : St τ} (h : Inv s) (M : List Nat) : Inv (mark M s) :=
  ⟨h.mutl, h.clP, h.clC, h.irr, h.al, h.ca, h.sc⟩

theorem Inv.collects : ∀ (xs : List Nat) {s : St τ}, Inv s → Inv (xs.foldl Sym.collect s)
  | [], _, h => h
  | x :: xs, _, h => Inv.collects xs (h.collect x)

/-! ## Rebinding -/

theorem moveAlias_frame (x : Nat) (s : St τ) :
    (moveAlias x s).reg = s.reg ∧ (moveAlias x s).obj = s.obj ∧ (moveAlias x s).cached = s.cached ∧
    (moveAlias x s).par = s.par ∧ (moveAlias x s).chi = s.chi ∧ (moveAlias x s).scope = s.scope ∧
    (moveAlias x s).home = s.home ∧ (moveAlias x s).name = s.name ∧ (moveAlias x s).tomb = s.tomb ∧
    (moveAlias x s).imp = s.imp := by
  unfold moveAlias
  split
  · exact ⟨rfl, rfl, rfl, rfl, rfl, rfl, rfl, rfl, rfl, rfl⟩
  · split_ifs <;> exact ⟨rfl, rfl, rfl, rfl, rfl, rfl, rfl, rfl, rfl, rfl⟩

/-- The alias table after the object of `x` was set to something else, when the cached object is `c`. -/
theorem moveAlias_aliases {x c : Nat} {s : St τ} (hc : s.cached x = some c) (o y : Nat) (hx : c = s.obj x → x ∈ s.aliases c) :
    y ∈ (moveAlias x s).aliases o ↔ (y = x ∧ (o = s.obj x ∨ o ≠ c ∧ y ∈ s.aliases o)) ∨ y ≠ x ∧ y ∈ s.aliases o := by
  unfold moveAlias
  rw [hc]
  simp only
  by_cases h : c = s.obj x
  · rw [if_neg (fun h' => h' h)]
    by_cases hy : y = x
    · subst hy
      by_cases ho : o = s.obj y
      · subst ho
        simp [← h, hx h]
      · simp [ho, h]
    · simp [hy]
  · rw [if_pos h]
    unfold handleAliases
    simp only
    by_cases ho : o = s.obj x
    · subst ho
      rw [Function.update_self, Finset.mem_insert, Function.update_of_ne (Ne.symm h)]
      by_cases hy : y = x
      · simp [hy]
      · simp [hy]
    · rw [Function.update_of_ne ho]
      by_cases hoc : o = c
      · subst hoc
        rw [Function.update_self, Finset.mem_erase]
        by_cases hy : y = x <;> simp [hy, h]
      · rw [Function.update_of_ne hoc]
        by_cases hy : y = x <;> simp [hy, ho, hoc]

theorem updateObjRef_frame (x o : Nat) (r : Bool) (s : St τ) :
    (updateObjRef x o r s).reg = s.reg ∧ (updateObjRef x o r s).obj = Function.update s.obj x o ∧
    (updateObjRef x o r s).cached = (if r then Function.update s.cached x (some o) else s.cached) ∧
    (updateObjRef x o r s).par = s.par ∧ (updateObjRef x o r s).chi = s.chi ∧ (updateObjRef x o r s).scope = s.scope ∧
    (updateObjRef x o r s).home = s.home ∧ (updateObjRef x o r s).name = s.name ∧
    (updateObjRef x o r s).imp = s.imp := by
  unfold updateObjRef
  obtain ⟨h1, h2, h3, h4, h5, h6, h7, h8, h9, h10⟩ := moveAlias_frame x
    { s with tomb := Function.update s.tomb x false, obj := Function.update s.obj x o }
  cases r with
  | false => exact ⟨h1, h2, h3, h4, h5, h6, h7, h8, h10⟩
  | true =>
    unfold refreshCached
    simp only [if_true]
    refine ⟨h1, h2, ?_, h4, h5, h6, h7, h8, h10⟩
    rw [h3, h2]
    simp

/-- After rebinding, edges and scopes are as before and every symbol is listed with its object. -/
theorem updateObjRef_inv {s : St τ} (h : Inv s) (x o : Nat) (r : Bool) (hx : s.reg x = true) :
    EInv (updateObjRef x o r s) ∧
    (∀ y, (updateObjRef x o r s).reg y = true → y ∈ (updateObjRef x o r s).aliases ((updateObjRef x o r s).obj y)) ∧
    (∀ k n y, (updateObjRef x o r s).scope k n = some y →
      (updateObjRef x o r s).reg y = true ∧ (updateObjRef x o r s).home y = k ∧ (updateObjRef x o r s).name y = n) ∧
    (∀ y, y ≠ x → (updateObjRef x o r s).reg y = true →
      (updateObjRef x o r s).cached y = some ((updateObjRef x o r s).obj y)) := by
  obtain ⟨f1, f2, f3, f4, f5, f6, f7, f8, f9⟩ := updateObjRef_frame x o r s
  have hP : ∀ a b, P (updateObjRef x o r s) a b = P s a b := fun a b => by unfold P; rw [f4]
  have hC : ∀ a b, C (updateObjRef x o r s) a b = C s a b := fun a b => by unfold C; rw [f5]
  refine ⟨⟨?_, ?_, ?_, ?_⟩, ?_, ?_, ?_⟩
  · intro a b ha hb
    rw [f1] at ha hb
    rw [hP, hC]
    exact h.mutl a b ha hb
  · intro a b ha hp
    rw [f1] at ha ⊢
    rw [hP] at hp
    exact h.clP a b ha hp
  · intro a b ha hp
    rw [f1] at ha ⊢
    rw [hC] at hp
    exact h.clC a b ha hp
  · intro a ha
    rw [f1] at ha
    rw [hP]
    exact h.irr a ha
  · intro y hy
    rw [f1] at hy
    rw [f2]
    have ha : (updateObjRef x o r s).aliases = (moveAlias x
        { s with tomb := Function.update s.tomb x false, obj := Function.update s.obj x o }).aliases := by
      unfold updateObjRef
      cases r <;> rfl
    rw [ha, moveAlias_aliases (s := { s with tomb := Function.update s.tomb x false, obj := Function.update s.obj x o })
      (h.ca x hx) _ _ (fun _ => h.al x hx)]
    by_cases hyx : y = x
    · subst hyx
      simp
    · right
      refine ⟨hyx, ?_⟩
      rw [Function.update_of_ne hyx]
      exact h.al y hy
  · intro k n y hk
    rw [f6] at hk
    rw [f1, f7, f8]
    exact h.sc k n y hk
  · intro y hyx hy
    rw [f1] at hy
    rw [f2, f3, Function.update_of_ne hyx]
    cases r with
    | false => exact h.ca y hy
    | true =>
      rw [if_pos rfl, Function.update_of_ne hyx]
      exact h.ca y hy

/-- The state after a creation. -/
theorem create_inv {s : St τ} (h : Inv s) {x : Nat} (o sc n : Nat) (imp : Bool) (hx : s.reg x = false)
    (hn : s.scope sc n = none) :
    EInv (create x o sc n imp s) ∧
    (∀ y, (create x o sc n imp s).reg y = true → y ∈ (create x o sc n imp s).aliases ((create x o sc n imp s).obj y)) ∧
    (∀ k m y, (create x o sc n imp s).scope k m = some y →
      (create x o sc n imp s).reg y = true ∧ (create x o sc n imp s).home y = k ∧ (create x o sc n imp s).name y = m) ∧
    (∀ y, y ≠ x → (create x o sc n imp s).reg y = true →
      (create x o sc n imp s).cached y = some ((create x o sc n imp s).obj y)) := by
  have hP : ∀ a b, P (create x o sc n imp s) a b = if a = x then none else P s a b := by
    intro a b
    unfold P create
    simp only
    rw [get_update]
    rfl
  have hC : ∀ a b, C (create x o sc n imp s) a b = if a = x then none else C s a b := by
    intro a b
    unfold C create
    simp only
    rw [get_update]
    rfl
  have hreg : ∀ a, a ≠ x → (create x o sc n imp s).reg a = s.reg a := fun a ha => Function.update_of_ne ha _ _
  have hregx : (create x o sc n imp s).reg x = true := Function.update_self _ _ _
  have nP : ∀ a, s.reg a = true → P s a x = none := by
    intro a ha
    by_contra hc
    rw [h.clP a x ha hc] at hx
    cases hx
  have nC : ∀ a, s.reg a = true → C s a x = none := by
    intro a ha
    by_contra hc
    rw [h.clC a x ha hc] at hx
    cases hx
  refine ⟨⟨?_, ?_, ?_, ?_⟩, ?_, ?_, ?_⟩
  · intro a b ha hb
    rw [hP, hC]
    by_cases hax : a = x
    · subst hax
      by_cases hbx : b = a
      · rw [if_pos rfl, if_pos hbx]
      · rw [hreg b hbx] at hb
        rw [if_pos rfl, if_neg hbx, nC b hb]
    · rw [hreg a hax] at ha
      by_cases hbx : b = x
      · subst hbx
        rw [if_neg hax, if_pos rfl, nP a ha]
      · rw [hreg b hbx] at hb
        rw [if_neg hax, if_neg hbx]
        exact h.mutl a b ha hb
  · intro a b ha hp
    rw [hP] at hp
    by_cases hax : a = x
    · rw [if_pos hax] at hp
      exact absurd rfl hp
    · rw [if_neg hax] at hp
      rw [hreg a hax] at ha
      by_cases hbx : b = x
      · rw [hbx]
        exact hregx
      · rw [hreg b hbx]
        exact h.clP a b ha hp
  · intro a b ha hp
    rw [hC] at hp
    by_cases hax : a = x
    · rw [if_pos hax] at hp
      exact absurd rfl hp
    · rw [if_neg hax] at hp
      rw [hreg a hax] at ha
      by_cases hbx : b = x
      · rw [hbx]
        exact hregx
      · rw [hreg b hbx]
        exact h.clC a b ha hp
  · intro a ha
    rw [hP]
    by_cases hax : a = x
    · rw [if_pos hax]
    · rw [if_neg hax]
      rw [hreg a hax] at ha
      exact h.irr a ha
  · intro y hy
    show y ∈ Function.update s.aliases o (insert x (s.aliases o)) (Function.update s.obj x o y)
    by_cases hyx : y = x
    · subst hyx
      simp
    · rw [hreg y hyx] at hy
      rw [Function.update_of_ne hyx]
      by_cases ho : s.obj y = o
      · rw [ho, Function.update_self, ← ho]
        exact Finset.mem_insert_of_mem (h.al y hy)
      · rw [Function.update_of_ne ho]
        exact h.al y hy
  · intro k m y hk
    have hk' : Function.update s.scope sc (Function.update (s.scope sc) n (some x)) k m = some y := hk
    show _ ∧ Function.update s.home x sc y = k ∧ Function.update s.name x n y = m
    by_cases hc : k = sc ∧ m = n
    · obtain ⟨rfl, rfl⟩ := hc
      rw [Function.update_self, Function.update_self] at hk'
      obtain rfl := Option.some.inj hk'
      exact ⟨hregx, Function.update_self _ _ _, Function.update_self _ _ _⟩
    · have : s.scope k m = some y := by
        by_cases hk1 : k = sc
        · subst hk1
          rw [Function.update_self, Function.update_of_ne (fun hm => hc ⟨rfl, hm⟩)] at hk'
          exact hk'
        · rw [Function.update_of_ne hk1] at hk'
          exact hk'
      obtain ⟨h1, h2, h3⟩ := h.sc k m y this
      have hyx : y ≠ x := by
        rintro rfl
        rw [hx] at h1
        cases h1
      rw [hreg y hyx, Function.update_of_ne hyx, Function.update_of_ne hyx]
      exact ⟨h1, h2, h3⟩
  · intro y hyx hy
    rw [hreg y hyx] at hy
    show Function.update s.cached x none y = some (Function.update s.obj x o y)
    rw [Function.update_of_ne hyx, Function.update_of_ne hyx]
    exact h.ca y hy

/-- Who is listed after the loops of `resync_if_necessary`. -/
theorem mem_resyncAliases {s : St τ} {x o : Nat} (hc : s.cached x = some (s.obj x)) (y o' : Nat) :
    y ∈ resyncAliases x o s o' ↔ (y = x ∧ o' = o) ∨ (y = x → o' ≠ s.obj x) ∧ y ∈ s.aliases o' := by
  unfold resyncAliases
  rw [hc]
  simp only
  by_cases ho : o' = o
  · subst ho
    rw [Function.update_self, Finset.mem_insert]
    by_cases hyx : y = x
    · simp [hyx]
    · by_cases hx : o' = s.obj x
      · subst hx
        simp [hyx]
      · simp [hyx, hx]
  · rw [Function.update_of_ne ho]
    by_cases hx : o' = s.obj x
    · subst hx
      by_cases hyx : y = x
      · simp [hyx, ho]
      · simp [hyx]
    · simp [hx, ho]

/-- Every operation keeps the invariant. -/
theorem Inv.step {s : St τ} (h : Inv s) (op : Op τ) (ha : Allowed s op) : Inv (step s op) := by
  cases op with
  | define x o sc n imp D t =>
    obtain ⟨hx, hn, hD, hr⟩ := ha
    obtain ⟨e, al, sc', ca⟩ := create_inv h o sc n imp hx hn
    refine Inv.updateDeps e al sc' t x D true hD (Function.update_self _ _ _) (fun d hd => ?_) ca
    have : d ≠ x := by
      rintro rfl
      rw [hr d hd] at hx
      cases hx
    show Function.update s.reg x true d = true
    rw [Function.update_of_ne this]
    exact hr d hd
  | assign x o D ow t =>
    obtain ⟨hx, hD, hr⟩ := ha
    obtain ⟨e, al, sc', ca⟩ := updateObjRef_inv h x o false hx
    have f1 := (updateObjRef_frame x o false s).1
    exact Inv.updateDeps e al sc' t x D ow hD (by rw [f1]; exact hx) (fun d hd => by rw [f1]; exact hr d hd) ca
  | mutate x D immutable dups t =>
    obtain ⟨hx, hD, hr, _⟩ := ha
    have e := h.e.updateDeps t x D false immutable hD hx hr
    obtain ⟨f1, f2, f3, f4, f5, f6, f7, f8⟩ := updateDeps_frame t x D false immutable s hD
    refine ⟨e.mutl, e.clP, e.clC, e.irr, ?_, ?_, ?_⟩
    · intro y hy
      have hy' : s.reg y = true := by
        rw [← f1]
        exact hy
      show y ∈ Function.update (Sym.updateDeps t x D false immutable s).aliases _ _
        ((Sym.updateDeps t x D false immutable s).obj y)
      rw [f2, f4]
      by_cases ho : s.obj y = s.obj x
      · rw [ho, Function.update_self, ← ho]
        exact Finset.mem_union_left _ (h.al y hy')
      · rw [Function.update_of_ne ho]
        exact h.al y hy'
    · intro y hy
      have hy' : s.reg y = true := by
        rw [← f1]
        exact hy
      show (Sym.updateDeps t x D false immutable s).cached y = some ((Sym.updateDeps t x D false immutable s).obj y)
      rw [f2]
      rcases f8 y with hc | ⟨rfl, hc⟩
      · rw [hc]
        exact h.ca y hy'
      · exact hc
    · intro k n y hk
      have hk' : s.scope k n = some y := by
        rw [← f5]
        exact hk
      show (Sym.updateDeps t x D false immutable s).reg y = true ∧
        (Sym.updateDeps t x D false immutable s).home y = k ∧ (Sym.updateDeps t x D false immutable s).name y = n
      rw [f1, f6, f7]
      exact h.sc k n y hk'
  | resync x o =>
    have hx : s.reg x = true := ha
    have hc := h.ca x hx
    have hA := mem_resyncAliases (o := o) hc
    show Inv (updateObjRef x o true { s with aliases := resyncAliases x o s })
    generalize resyncAliases x o s = A at hA
    obtain ⟨f1, f2, f3, f4, f5, f6, f7, f8, f9⟩ := updateObjRef_frame x o true { s with aliases := A }
    refine ⟨?_, ?_, ?_, ?_, ?_, ?_, ?_⟩
    · intro a b ha hb
      unfold P C
      rw [f4, f5]
      rw [f1] at ha hb
      exact h.mutl a b ha hb
    · intro a b ha hp
      unfold P at hp
      rw [f4] at hp
      rw [f1] at ha ⊢
      exact h.clP a b ha hp
    · intro a b ha hp
      unfold C at hp
      rw [f5] at hp
      rw [f1] at ha ⊢
      exact h.clC a b ha hp
    · intro a ha
      unfold P
      rw [f4]
      rw [f1] at ha
      exact h.irr a ha
    · intro y hy
      rw [f1] at hy
      rw [f2]
      unfold updateObjRef refreshCached
      simp only [if_true]
      rw [moveAlias_aliases (s := { s with
        aliases := A
        tomb := Function.update s.tomb x false
        obj := Function.update s.obj x o }) (c := s.obj x) hc]
      · by_cases hyx : y = x
        · subst hyx
          simp
        · right
          refine ⟨hyx, ?_⟩
          have hy' := h.al y hy
          simp only [Function.update_of_ne hyx]
          exact (hA y _).2 (.inr ⟨fun hc => absurd hc hyx, hy'⟩)
      · intro ho
        have ho' : s.obj x = o := by simpa using ho
        exact (hA x _).2 (.inl ⟨rfl, ho'⟩)
    · intro y hy
      rw [f1] at hy
      rw [f2, f3, if_pos rfl]
      by_cases hyx : y = x
      · subst hyx
        rw [Function.update_self, Function.update_self]
      · rw [Function.update_of_ne hyx, Function.update_of_ne hyx]
        exact h.ca y hy
    · intro k n y hk
      rw [f6] at hk
      rw [f1, f7, f8]
      exact h.sc k n y hk
  | delete sc n t =>
    show Inv (match s.scope sc n with | none => s | some x => deleteSym sc n t x s)
    cases hs : s.scope sc n with
    | none => exact h
    | some x =>
      refine Inv.mark ?_ [x]
      refine Inv.updateDeps (s := { s with scope := Function.update s.scope sc (Function.update (s.scope sc) n none) })
        ⟨h.mutl, h.clP, h.clC, h.irr⟩ h.al ?_ t x [] true List.nodup_nil (h.sc sc n x hs).1
        (fun d hd => absurd hd List.not_mem_nil) (fun y _ hy => h.ca y hy)
      intro k m y hk
      have hk' : Function.update s.scope sc (Function.update (s.scope sc) n none) k m = some y := hk
      refine h.sc k m y ?_
      by_cases hk1 : k = sc
      · subst hk1
        rw [Function.update_self] at hk'
        by_cases hm : m = n
        · subst hm
          rw [Function.update_self] at hk'
          cases hk'
        · rw [Function.update_of_ne hm] at hk'
          exact hk'
      · rw [Function.update_of_ne hk1] at hk'
        exact hk'
  | remap sc a b t =>
    show Inv (match s.scope sc a with | none => s | some x => remapSym sc a b t x s)
    cases hs : s.scope sc a with
    | none => exact h
    | some x =>
      obtain ⟨hx, hh, hna⟩ := h.sc sc a x hs
      -- after the entry was removed and the symbol renamed
      have key : ∀ k m y, Function.update s.scope sc (Function.update (s.scope sc) a none) k m = some y →
          y ≠ x ∧ s.scope k m = some y := by
        intro k m y hk
        have : s.scope k m = some y ∧ ¬ (k = sc ∧ m = a) := by
          by_cases hk1 : k = sc
          · subst hk1
            rw [Function.update_self] at hk
            by_cases hm : m = a
            · subst hm
              rw [Function.update_self] at hk
              cases hk
            · rw [Function.update_of_ne hm] at hk
              exact ⟨hk, fun hc => hm hc.2⟩
          · rw [Function.update_of_ne hk1] at hk
            exact ⟨hk, fun hc => hk1 hc.1⟩
        refine ⟨?_, this.1⟩
        rintro rfl
        obtain ⟨_, h2, h3⟩ := h.sc k m y this.1
        exact this.2 ⟨h2.symm.trans hh, h3.symm.trans hna⟩
      have hin := Inv.updateDeps (s := { s with
          scope := Function.update s.scope sc (Function.update (s.scope sc) a none)
          name := Function.update s.name x b
          cached := Function.update s.cached x none }) ⟨h.mutl, h.clP, h.clC, h.irr⟩ h.al (by
          intro k m y hk
          obtain ⟨hyx, hk'⟩ := key k m y hk
          obtain ⟨h1, h2, h3⟩ := h.sc k m y hk'
          refine ⟨h1, h2, ?_⟩
          show Function.update s.name x b y = m
          rw [Function.update_of_ne hyx]
          exact h3) t x [] false List.nodup_nil hx (fun d hd => absurd hd List.not_mem_nil) (by
          intro y hyx hy
          show Function.update s.cached x none y = some (s.obj y)
          rw [Function.update_of_ne hyx]
          exact h.ca y hy)
      obtain ⟨f1, f2, f3, f4, f5, f6, f7, f8⟩ := updateDeps_frame t x [] false false { s with
          scope := Function.update s.scope sc (Function.update (s.scope sc) a none)
          name := Function.update s.name x b
          cached := Function.update s.cached x none } List.nodup_nil
      show Inv (remapSym sc a b t x s)
      unfold remapSym
      simp only
      generalize Sym.updateDeps t x [] false false { s with
          scope := Function.update s.scope sc (Function.update (s.scope sc) a none)
          name := Function.update s.name x b
          cached := Function.update s.cached x none } = S at hin f1 f2 f3 f4 f5 f6 f7 f8
      refine ⟨hin.mutl, hin.clP, hin.clC, hin.irr, hin.al, hin.ca, ?_⟩
      intro k m y hk
      have hk' : Function.update S.scope sc (Function.update (S.scope sc) b (some x)) k m = some y := hk
      rw [upd2] at hk'
      by_cases hc : k = sc ∧ m = b
      · rw [if_pos hc] at hk'
        obtain rfl := Option.some.inj hk'
        refine ⟨by show S.reg x = true; rw [f1]; exact hx, by show S.home x = k; rw [f6, hc.1]; exact hh, ?_⟩
        show S.name x = m
        rw [f7, hc.2]
        exact Function.update_self _ _ _
      · rw [if_neg hc] at hk'
        exact hin.sc k m y hk'
  | gc M all => exact Inv.collects _ (h.mark M)

/-- The invariant holds in every reachable state. -/
theorem Inv.reachable {s : St τ} (h : Reachable s) : Inv s := by
  induction h with
  | empty =>
    refine ⟨fun a b ha => ?_, fun a b ha => ?_, fun a b ha => ?_, fun a ha => ?_, fun a ha => ?_, fun a ha => ?_,
      fun k n x hk => ?_⟩
    · cases ha
    · cases ha
    · cases ha
    · cases ha
    · cases ha
    · cases ha
    · cases hk
  | step op _ ha ih => exact ih.step op ha

end Verif.Sym
