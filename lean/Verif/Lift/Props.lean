import Verif.Lift.Model
import Verif.Sym.Props

/-! # C45: transitive dependencies and users -/

namespace Verif.Lift
open Verif
variable {τ : Type}

/-! ## Finitely many symbols -/

theorem reg_foldl {α : Type} (f : Sym.St τ → α → Sym.St τ) (h : ∀ s a, (f s a).reg = s.reg) (l : List α)
    (s : Sym.St τ) : (l.foldl f s).reg = s.reg := by
  induction l generalizing s with
  | nil => rfl
  | cons a l ih => rw [List.foldl_cons, ih, h]

theorem reg_updateDeps (t : τ) (x : Nat) (D : List Nat) (ow skip : Bool) (s : Sym.St τ) :
    (Sym.updateDeps t x D ow skip s).reg = s.reg := by
  unfold Sym.updateDeps
  split
  · rfl
  · split
    · rfl
    · show (Sym.setDeps t x D (Sym.effective s x D ow) s).reg = s.reg
      unfold Sym.setDeps
      simp only
      rw [reg_foldl (Sym.addParent t x) fun _ _ => rfl]
      split
      · rw [reg_foldl (Sym.dropParent x) fun _ _ => rfl]
      · rfl

theorem reg_updateObjRef (x o : Nat) (r : Bool) (s : Sym.St τ) : (Sym.updateObjRef x o r s).reg = s.reg := by
  have h : ∀ s' : Sym.St τ, (Sym.moveAlias x s').reg = s'.reg := by
    intro s'
    unfold Sym.moveAlias
    split
    · rfl
    · split <;> rfl
  unfold Sym.updateObjRef
  simp only
  split
  · exact h _
  · exact h _

theorem reg_gc (M all : List Nat) (s : Sym.St τ) (x : Nat) (h : (Sym.gc M all s).reg x = true) : s.reg x = true := by
  suffices H : ∀ (l : List Nat) (s : Sym.St τ), (l.foldl Sym.collect s).reg x = true → s.reg x = true from
    H (all.filter fun x => (Sym.mark M s).tomb x) (Sym.mark M s) h
  intro l
  induction l with
  | nil => intro s h; exact h
  | cons a l ih =>
    intro s h
    have h1 := ih _ h
    unfold Sym.collect Sym.unname at h1
    simp only at h1
    have h2 : (Sym.unlink a (Sym.dropAliases a s)).reg = s.reg := by
      unfold Sym.unlink
      simp only
      rw [reg_foldl (Sym.popParent a) fun _ _ => rfl, reg_foldl (Sym.popChild a) fun _ _ => rfl]
      rfl
    rw [h2] at h1
    by_cases hx : x = a
    · subst hx; simp at h1
    · simpa [hx] using h1

/-- At any time there are finitely many symbols. -/
theorem finite_symbols {s : Sym.St τ} (h : Sym.Reachable s) : ∃ U : Finset Nat, ∀ x, s.reg x = true ↔ x ∈ U := by
  suffices H : ∃ U : Finset Nat, ∀ x, s.reg x = true → x ∈ U by
    obtain ⟨U, hU⟩ := H
    exact ⟨U.filter fun x => s.reg x = true, fun x => by simpa using hU x⟩
  induction h with
  | empty => exact ⟨∅, fun x hx => by simp [Sym.empty] at hx⟩
  | @step s op _ _ ih =>
    obtain ⟨U, hU⟩ := ih
    cases op with
    | define x o sc n imp D t =>
      refine ⟨insert x U, fun y hy => ?_⟩
      simp only [Sym.step] at hy
      rw [reg_updateDeps] at hy
      by_cases hyx : y = x
      · subst hyx; exact Finset.mem_insert_self _ _
      · simp [Sym.create, hyx] at hy
        exact Finset.mem_insert_of_mem (hU y hy)
    | assign x o D ow t =>
      refine ⟨U, fun y hy => hU y ?_⟩
      simpa only [Sym.step, reg_updateDeps, reg_updateObjRef] using hy
    | mutate x D im dups t =>
      refine ⟨U, fun y hy => hU y ?_⟩
      simpa only [Sym.step, reg_updateDeps] using hy
    | resync x o =>
      refine ⟨U, fun y hy => hU y ?_⟩
      simpa only [Sym.step, reg_updateObjRef] using hy
    | delete sc n t =>
      refine ⟨U, fun y hy => hU y ?_⟩
      simp only [Sym.step] at hy
      split at hy
      · exact hy
      · simpa only [Sym.deleteSym, Sym.mark, reg_updateDeps] using hy
    | remap sc a b t =>
      refine ⟨U, fun y hy => hU y ?_⟩
      simp only [Sym.step] at hy
      split at hy
      · exact hy
      · simpa only [Sym.remapSym, reg_updateDeps] using hy
    | gc M all => exact ⟨U, fun y hy => hU y (reg_gc M all s y hy)⟩

/-! ## Specification -/

/-- `b` is among the direct dependencies of `a`. -/
def Dep (s : Sym.St τ) (a b : Nat) : Prop := b ∈ Assoc.keys (s.par a)

/-- `b` is among the direct users of `a`. -/
def Use (s : Sym.St τ) (a b : Nat) : Prop := b ∈ Assoc.keys (s.chi a)

/-! ## C45 -/

theorem traverse_exact (next : Nat → List Nat) (U : Finset Nat) (hU : ∀ x ∈ U, ∀ y ∈ next x, y ∈ U) (a : Nat) (ha : a ∈ U)
    (n : Nat) (hn : U.card < n) : ∃ l, traverse next n [] a = .ok l ∧ l.Nodup ∧
      ∀ y, y ∈ l ↔ Relation.ReflTransGen (fun x y => y ∈ next x) a y := by
  obtain ⟨m, rfl⟩ : ∃ m, n = m + 1 := ⟨n - 1, by omega⟩
  have hnf := dfs_noFuel (fun x => Except.ok (next x)) U (by
      intro x hx ys h y hy
      cases h
      exact hU x hx y hy) (fun x h => by cases h) m [] a ha (by simpa using (by omega : U.card ≤ m))
  have hnc : ∀ (k : Nat) (seen : List Nat) (x : Nat), dfs (fun x => Except.ok (next x)) k seen x ≠ .error .crash := by
    intro k
    induction k with
    | zero => intro seen x h; simp [dfs] at h
    | succ k ih =>
      intro seen x h
      unfold dfs at h
      by_cases hx : x ∈ seen
      · simp [hx] at h
      · simp only [hx, if_false] at h
        generalize seen ++ [x] = s0 at h
        clear hx
        generalize next x = ys at h
        induction ys generalizing s0 with
        | nil => simp [pure, Except.pure] at h
        | cons y ys ihy =>
          rw [List.foldlM_cons] at h
          cases hd : dfs (fun x => Except.ok (next x)) k s0 y with
          | error e =>
            rw [hd] at h
            simp only [bind, Except.bind] at h
            cases h
            exact ih s0 y hd
          | ok s1 =>
            rw [hd] at h
            simp only [bind, Except.bind] at h
            exact ihy s1 h
  unfold traverse
  cases hd : dfs (fun x => Except.ok (next x)) (m + 1) [] a with
  | error e =>
    cases e with
    | crash => exact absurd hd (hnc _ _ _)
    | fuel => exact absurd hd hnf
  | ok l =>
    have hstep : ∀ x y, StepOf (fun x => (Except.ok (next x) : Except Err (List Nat))) x y ↔ y ∈ next x := by
      intro x y
      constructor
      · rintro ⟨ys, h1, h2⟩; cases h1; exact h2
      · intro h; exact ⟨_, rfl, h⟩
    have heq : StepOf (fun x => (Except.ok (next x) : Except Err (List Nat))) = fun x y => y ∈ next x := by
      funext x y; exact propext (hstep x y)
    have hv := visit_exact (fun x => Except.ok (next x)) (m + 1) [a] l (by
      rw [List.foldlM_cons, hd]; rfl)
    refine ⟨l, rfl, (dfs_post _ _ _ _ _ hd).nodup List.nodup_nil, fun y => ?_⟩
    rw [hv y, heq]
    simp

theorem reflTrans_ne {α : Type} {r : α → α → Prop} {a b : α} (h : b ≠ a) :
    Relation.ReflTransGen r a b ↔ Relation.TransGen r a b := by
  constructor
  · intro h1
    rcases Relation.reflTransGen_iff_eq_or_transGen.1 h1 with h2 | h2
    · exact absurd h2 h
    · exact h2
  · exact Relation.TransGen.to_reflTransGen

/-- The value of `rdeps`, for every state of a notebook: it terminates (also on cyclic graphs), lists each symbol once,
never the value itself, and a symbol is listed iff it is not anonymous and reached over one or more dependency
edges. -/
theorem rdeps_exact {s : Sym.St τ} (h : Sym.Reachable s) (anon : Nat → Bool) (a : Nat) (ha : s.reg a = true) :
    ∃ N, ∀ n ≥ N, ∃ l, rdeps s anon n a = .ok l ∧ l.Nodup ∧
      ∀ b, b ∈ l ↔ b ≠ a ∧ anon b = false ∧ Relation.TransGen (Dep s) a b := by
  obtain ⟨U, hU⟩ := finite_symbols h
  refine ⟨U.card + 1, fun n hn => ?_⟩
  obtain ⟨l, h1, h2, h3⟩ := traverse_exact (fun x => Assoc.keys (s.par x)) U (fun x hx y hy =>
    (hU y).1 ((Sym.edges_mutual h).2.2 x y ((hU x).2 hx) (.inl hy))) a ((hU a).1 ha) n (by omega)
  refine ⟨_, by unfold rdeps; rw [h1]; rfl, h2.filter _, fun b => ?_⟩
  rw [List.mem_filter, h3]
  by_cases hb : b = a
  · subst hb; simp
  · rw [reflTrans_ne hb]
    simp only [ne_eq, hb, not_false_eq_true, decide_true, Bool.true_and, Bool.not_eq_true', true_and]
    exact and_comm

/-- The value of `rusers`, likewise. -/
theorem rusers_exact {s : Sym.St τ} (h : Sym.Reachable s) (anon : Nat → Bool) (a : Nat) (ha : s.reg a = true) :
    ∃ N, ∀ n ≥ N, ∃ l, rusers s anon n a = .ok l ∧ l.Nodup ∧
      ∀ b, b ∈ l ↔ b ≠ a ∧ anon b = false ∧ Relation.TransGen (Use s) a b := by
  obtain ⟨U, hU⟩ := finite_symbols h
  refine ⟨U.card + 1, fun n hn => ?_⟩
  obtain ⟨l, h1, h2, h3⟩ := traverse_exact (fun x => Assoc.keys (s.chi x)) U (fun x hx y hy =>
    (hU y).1 ((Sym.edges_mutual h).2.2 x y ((hU x).2 hx) (.inr hy))) a ((hU a).1 ha) n (by omega)
  refine ⟨_, by unfold rusers; rw [h1]; rfl, h2.filter _, fun b => ?_⟩
  rw [List.mem_filter, h3]
  by_cases hb : b = a
  · subst hb; simp
  · rw [reflTrans_ne hb]
    simp only [ne_eq, hb, not_false_eq_true, decide_true, Bool.true_and, Bool.not_eq_true', true_and]
    exact and_comm

theorem reg_of_dep {s : Sym.St τ} (h : Sym.Reachable s) {a b : Nat} (ha : s.reg a = true)
    (hab : Relation.TransGen (Dep s) a b) : s.reg b = true := by
  induction hab with
  | single h1 => exact (Sym.edges_mutual h).2.2 _ _ ha (.inl h1)
  | tail _ h1 ih => exact (Sym.edges_mutual h).2.2 _ _ ih (.inl h1)

theorem reg_of_use {s : Sym.St τ} (h : Sym.Reachable s) {a b : Nat} (ha : s.reg a = true)
    (hab : Relation.TransGen (Use s) a b) : s.reg b = true := by
  induction hab with
  | single h1 => exact (Sym.edges_mutual h).2.2 _ _ ha (.inr h1)
  | tail _ h1 ih => exact (Sym.edges_mutual h).2.2 _ _ ih (.inr h1)

theorem dep_iff_use {s : Sym.St τ} (h : Sym.Reachable s) {a b : Nat} (ha : s.reg a = true) (hb : s.reg b = true) :
    Dep s a b ↔ Use s b a := by
  have hm := (Sym.edges_mutual h).1 a b
  unfold Dep Use
  rw [← Assoc.get_isSome_iff, ← Assoc.get_isSome_iff, Option.isSome_iff_exists, Option.isSome_iff_exists]
  exact exists_congr fun ts => hm ts ha hb

theorem transGen_dual {s : Sym.St τ} (h : Sym.Reachable s) {a b : Nat} (ha : s.reg a = true) (hb : s.reg b = true) :
    Relation.TransGen (Dep s) a b ↔ Relation.TransGen (Use s) b a := by
  constructor
  · intro hab
    clear hb
    induction hab with
    | single h1 => exact .single ((dep_iff_use h ha ((Sym.edges_mutual h).2.2 _ _ ha (.inl h1))).1 h1)
    | @tail b c h0 h1 ih =>
      have hb := reg_of_dep h ha h0
      exact Relation.TransGen.head ((dep_iff_use h hb ((Sym.edges_mutual h).2.2 _ _ hb (.inl h1))).1 h1) ih
  · intro hba
    clear ha
    induction hba with
    | single h1 => exact .single ((dep_iff_use h ((Sym.edges_mutual h).2.2 _ _ hb (.inr h1)) hb).2 h1)
    | @tail c d h0 h1 ih =>
      have hc := reg_of_use h hb h0
      exact Relation.TransGen.head ((dep_iff_use h ((Sym.edges_mutual h).2.2 _ _ hc (.inr h1)) hc).2 h1) ih

/-- **C45**: in every state of a notebook, for symbols that are neither anonymous nor collected, `b` is among the
recursive dependencies of `a` iff `a` is among the recursive users of `b`; both terminate. -/
theorem rdeps_rusers_dual {s : Sym.St τ} (h : Sym.Reachable s) (anon : Nat → Bool) (a b : Nat) (ha : s.reg a = true)
    (hb : s.reg b = true) (hna : anon a = false) (hnb : anon b = false) :
    ∃ N, ∀ n ≥ N, ∃ ds us, rdeps s anon n a = .ok ds ∧ rusers s anon n b = .ok us ∧ (b ∈ ds ↔ a ∈ us) := by
  obtain ⟨N, hN⟩ := rdeps_exact h anon a ha
  obtain ⟨M, hM⟩ := rusers_exact h anon b hb
  refine ⟨max N M, fun n hn => ?_⟩
  obtain ⟨ds, h1, -, h2⟩ := hN n (le_trans (le_max_left _ _) hn)
  obtain ⟨us, h3, -, h4⟩ := hM n (le_trans (le_max_right _ _) hn)
  refine ⟨ds, us, h1, h3, ?_⟩
  rw [h2, h4, transGen_dual h ha hb]
  simp only [hna, hnb, true_and]
  exact and_congr_left fun _ => ne_comm

/-- Direct dependencies and users are dual too. -/
theorem deps_users_dual {s : Sym.St τ} (h : Sym.Reachable s) (anon : Nat → Bool) (a b : Nat) (ha : s.reg a = true)
    (hb : s.reg b = true) (hna : anon a = false) (hnb : anon b = false) : b ∈ deps s anon a ↔ a ∈ users s anon b := by
  unfold deps users
  rw [List.mem_filter, List.mem_filter]
  simp only [hna, hnb, Bool.not_false, and_true]
  exact dep_iff_use h ha hb

/-! ## Example: a cycle -/

/-- `x = 1; y = x; z = y; x = z`: the last assignment makes a cycle. -/
def cycle : List (Sym.Op Nat) :=
  [.define 0 10 0 0 false [] 0, .define 1 11 0 1 false [0] 1, .define 2 12 0 2 false [1] 2, .assign 0 13 [2] true 3]

example : Sym.Reachable (cycle.foldl Sym.step Sym.empty) := by
  refine Sym.reachable_run cycle _ .empty fun i hi => ?_
  match i, hi with
  | 0, _ => exact ⟨rfl, rfl, by decide, by decide⟩
  | 1, _ => exact ⟨rfl, rfl, by decide, by decide⟩
  | 2, _ => exact ⟨rfl, rfl, by decide, by decide⟩
  | 3, _ => exact ⟨rfl, by decide, by decide⟩

example : (match rdeps (cycle.foldl Sym.step Sym.empty) (fun _ => false) 9 1 with
    | .ok l => decide (l = [0, 2])
    | .error _ => false) = true := by decide

example : (match rusers (cycle.foldl Sym.step Sym.empty) (fun x => x == 2) 9 1 with
    | .ok l => decide (l = [0])
    | .error _ => false) = true := by decide

end Verif.Lift
