import Verif.Paint.Spec

/-! # Lemmas about marks -/

namespace Verif.Paint
open Verif Store

theorem upd_same {α : Type} (f : Nat → α) (k : Nat) (v : α) : upd f k v k = v := by simp [upd]

theorem upd_other {α : Type} (f : Nat → α) {k x : Nat} (v : α) (h : x ≠ k) : upd f k v x = f x := by simp [upd, h]

theorem backs_fold (edges : Nat → Option (List Nat)) (n : Nat) (closure : List Nat) (todo c out : List Nat)
    (hs : ∀ y ∈ c, ∃ x ∈ closure, Relation.ReflTransGen (Lists edges) x y) (hsub : ∀ x ∈ closure, x ∈ c)
    (htodo : ∀ x ∈ todo, x ∈ closure) (hcl : ∀ y ∈ c, y ∈ todo ∨ ∀ z, Lists edges y z → z ∈ c)
    (h : todo.foldlM (fun c x => push edges n (c.filter (· ≠ x)) x false) c = .ok out) :
    (∀ y ∈ out, ∃ x ∈ closure, Relation.ReflTransGen (Lists edges) x y) ∧ (∀ x ∈ closure, x ∈ out) ∧
      ∀ y ∈ out, ∀ z, Lists edges y z → z ∈ out := by
  induction todo generalizing c with
  | nil =>
    simp only [List.foldlM_nil, pure, Except.pure, Except.ok.injEq] at h
    subst h
    exact ⟨hs, hsub, fun y hy => (hcl y hy).resolve_left (by simp)⟩
  | cons a todo ih =>
    rw [List.foldlM_cons] at h
    cases hm : push edges n (c.filter (· ≠ a)) a false with
    | error e => rw [hm] at h; simp [bind, Except.bind] at h
    | ok mid =>
      rw [hm] at h
      simp only [bind, Except.bind] at h
      rw [push_false] at hm
      have hp := dfs_post _ _ _ _ _ hm
      have hsubm : ∀ y ∈ c, y ∈ mid := by
        intro y hy
        by_cases hya : y = a
        · subst hya; exact hp.roots_mem _ (by simp)
        · exact hp.mono (List.mem_filter.2 ⟨hy, by simpa using hya⟩)
      have hstep : ∀ x y, Relation.ReflTransGen (StepOf (succOf edges)) x y → Relation.ReflTransGen (Lists edges) x y :=
        by
        intro x y h
        induction h with
        | refl => exact .refl
        | tail _ h2 ih => exact ih.tail ((stepOf_iff edges _ _).1 h2)
      refine ih mid ?_ (fun x hx => hsubm x (hsub x hx)) (fun x hx => htodo x (List.mem_cons_of_mem _ hx)) ?_ h
      · intro y hy
        rcases hp.reach y hy with h' | ⟨r, hr, hrx⟩
        · exact hs y (List.mem_filter.1 h').1
        · rw [List.mem_singleton] at hr
          subst hr
          exact ⟨r, htodo r (List.mem_cons_self ..), hstep _ _ hrx⟩
      · intro y hy
        by_cases hyc : y ∈ c.filter (· ≠ a)
        · obtain ⟨hyc, hya⟩ := List.mem_filter.1 hyc
          rcases hcl y hyc with h' | h'
          · rcases List.mem_cons.1 h' with h' | h'
            · subst h'; simp at hya
            · exact .inl h'
          · exact .inr fun z hz => hsubm z (h' z hz)
        · right
          intro z hz
          obtain ⟨ys, hs', hall⟩ := hp.closed y hy hyc
          obtain ⟨ys', hs'', hz'⟩ := (stepOf_iff edges y z).2 hz
          rw [hs'] at hs''
          injection hs'' with hs''
          subst hs''
          exact hall z hz'

/-- The loop over the closure computes what the cells of the closure are computed from. -/
theorem backs_exact (edges : Nat → Option (List Nat)) (n : Nat) (closure out : List Nat) (h : backs edges n closure = .ok out) (y : Nat) :
    y ∈ out ↔ ∃ x ∈ closure, Relation.ReflTransGen (Lists edges) x y := by
  obtain ⟨h1, h2, h3⟩ := backs_fold edges n closure closure closure out (fun y hy => ⟨y, hy, .refl⟩) (fun _ h => h) (fun _ h => h)
    (fun y hy => .inl hy) h
  refine ⟨h1 y, ?_⟩
  rintro ⟨x, hx, hr⟩
  induction hr with
  | refl => exact h2 x hx
  | tail _ hs ih => exact h3 _ ih _ hs

theorem backs_ok (edges : Nat → Option (List Nat)) (U : Finset Nat) (hU : ∀ x ∈ U, ∀ y, Lists edges x y → y ∈ U) (n : Nat)
    (hn : U.card ≤ n) (closure : List Nat) (hc : ∀ x ∈ closure, x ∈ U) : ∃ out, backs edges (n + 1) closure = .ok out := by
  unfold backs
  suffices h : ∀ (todo c : List Nat), (∀ x ∈ todo, x ∈ U) →
      ∃ out, todo.foldlM (fun c x => push edges (n + 1) (c.filter (· ≠ x)) x false) c = .ok out from h closure closure hc
  intro todo
  induction todo with
  | nil => exact fun c _ => ⟨c, rfl⟩
  | cons a todo ih =>
    intro c ht
    obtain ⟨mid, hm⟩ := foldl_dfs_ok edges U hU n hn [a] (c.filter (· ≠ a)) (fun y hy => by
      rw [List.mem_singleton] at hy; subst hy; exact ht y (List.mem_cons_self ..))
    rw [List.foldlM_cons, push_false]
    have hd : dfs (succOf edges) (n + 1) (c.filter (· ≠ a)) a = .ok mid := by
      rw [List.foldlM_cons] at hm
      cases hd : dfs (succOf edges) (n + 1) (c.filter (· ≠ a)) a with
      | error e => rw [hd] at hm; simp [bind, Except.bind] at hm
      | ok mid' =>
        rw [hd] at hm
        simpa [bind, Except.bind, pure, Except.pure] using hm
    rw [hd]
    exact ih mid fun x hx => ht x (List.mem_cons_of_mem _ hx)

theorem clear_apply (f : Mark → Bool) (m : Mark) : clear f m = false := by
  cases m <;> simp [clear, removeMark]

theorem updateOne_bool (σ : State) (R : Nat → Prop) (b1 b2 : Bool) (c : Nat) (h1 : Feeds σ.data R c ↔ b1 = true) (h2 : R c ↔ b2 = true)
    (m : Mark) : updateOne σ b1 b2 c (fun _ => false) m = true ↔ Shows σ R c m := by
  by_cases h3 : σ.highlights = .none <;> cases m <;>
    simp only [Shows, h1, h2, updateOne, slices, colours, makers, states, h3, if_true, if_false, ne_eq, not_true_eq_false, not_false_eq_true,
      true_and, false_and]
  all_goals
    clear h1 h2
    generalize σ.classic = b4
    generalize σ.data.waiting c = b5
    generalize σ.data.ready c = b6
    generalize σ.reactive = b7
    generalize σ.makers c = b8
    revert b1 b2 b4 b5 b6 b7 b8
    decide

theorem updateOne_iff (σ : State) (back run : List Nat) (c : Nat) (f : Mark → Bool)
    (hb : c ∈ back ↔ Feeds σ.data (· ∈ run) c) (m : Mark) :
    updateOne σ (decide (c ∈ back)) (decide (c ∈ run)) c (clear f) m = true ↔ Shows σ (· ∈ run) c m := by
  have hc : clear f = fun _ => false := funext (clear_apply f)
  rw [hc]
  exact updateOne_bool σ (· ∈ run) _ _ c (by rw [← hb]; simp) (by simp) m

theorem starts_chosen (σ : State) (start : List Nat) (h : starts σ = .ok start) : Chosen σ start := by
  unfold starts at h
  by_cases hs : σ.selected = []
  · rw [if_pos hs] at h
    cases ha : σ.active with
    | none => rw [ha] at h; cases h
    | some a =>
      rw [ha] at h
      injection h with h
      exact .inr ⟨hs, a, ha, h.symm⟩
  · rw [if_neg hs] at h
    injection h with h
    exact .inl ⟨hs, h.symm⟩

/-- What `updateUI` does when the notebook is shown. -/
theorem updateUI_shown (fl : Fuel) (k nb : Nat) (w w' : World) (hc : w.current = nb) (h : updateUI fl k nb w = .ok w') :
    ∃ start run back, Chosen (w.st k) start ∧ raw (w.st k).data (w.st k).opts fl.n fl.m fl.k start true false = .ok run ∧
      (∀ y, y ∈ back ↔ Feeds (w.st k).data (· ∈ run) y) ∧
      w' = { w with
        st := upd w.st k { w.st k with byId := w.cells nb }
        marks := upd w.marks nb (repaint { w.st k with byId := w.cells nb } run back (w.cells nb) (w.marks nb)) } := by
  unfold updateUI at h
  rw [if_neg (by simp [hc])] at h
  simp only [bind, Except.bind] at h
  cases hs : starts { w.st k with byId := w.cells nb } with
  | error e => rw [hs] at h; cases h
  | ok start =>
    rw [hs] at h
    dsimp only at h
    cases hr : raw (w.st k).data (w.st k).opts fl.n fl.m fl.k start true false with
    | error e => rw [hr] at h; cases h
    | ok run =>
      rw [hr] at h
      dsimp only at h
      cases hb : backs (w.st k).data.parents fl.n run with
      | error e => rw [hb] at h; cases h
      | ok back =>
        rw [hb] at h
        dsimp only at h
        split at h
        · cases h
        · injection h with h
          exact ⟨start, run, back, starts_chosen _ _ hs, hr, backs_exact _ _ _ _ hb, h.symm⟩

/-- The marks after `updateUI` of the connection of `k` for the shown notebook. -/
theorem updateUI_painted (fl : Fuel) (k nb : Nat) (w w' : World) (hc : w.current = nb) (h : updateUI fl k nb w = .ok w') :
    ∃ start run, Chosen (w'.st k) start ∧ raw (w'.st k).data (w'.st k).opts fl.n fl.m fl.k start true false = .ok run ∧
      Painted w' nb (w'.st k) (· ∈ run) := by
  obtain ⟨start, run, back, h1, h2, h3, h4⟩ := updateUI_shown fl k nb w w' hc h
  have hst : w'.st k = { w.st k with byId := w.cells nb } := by rw [h4]; exact upd_same _ _ _
  have hcells : w'.cells = w.cells := by rw [h4]
  have hmarks : w'.marks nb = repaint { w.st k with byId := w.cells nb } run back (w.cells nb) (w.marks nb) := by
    rw [h4]; exact upd_same _ _ _
  refine ⟨start, run, ?_, ?_, ?_, ?_⟩
  · rw [hst]; exact h1
  · rw [hst]; exact h2
  · intro c m hm
    rw [hcells] at hm
    rw [hmarks, hst]
    unfold repaint
    rw [if_pos hm]
    exact updateOne_iff { w.st k with byId := w.cells nb } back run c _ (h3 c) m
  · intro c m hm hm'
    rw [hcells] at hm hm'
    rw [hmarks]
    unfold repaint
    rw [if_neg hm, if_pos hm']
    exact clear_apply _ _

/-- What `updateUI` never touches. -/
theorem updateUI_frame (fl : Fuel) (k nb : Nat) (w w' : World) (h : updateUI fl k nb w = .ok w') :
    w'.cells = w.cells ∧ w'.order = w.order ∧ w'.current = w.current ∧ (∀ j, j ≠ k → w'.st j = w.st j) ∧
      (∀ j, j ≠ nb ∨ w.current ≠ nb → w'.marks j = w.marks j) ∧ ∃ b, w'.st k = { w.st k with byId := b } := by
  by_cases hc : w.current = nb
  · obtain ⟨start, run, back, h1, h2, h3, h4⟩ := updateUI_shown fl k nb w w' hc h
    subst h4
    refine ⟨rfl, rfl, rfl, fun j hj => upd_other _ _ hj, fun j hj => ?_, ?_⟩
    · exact upd_other _ _ (hj.resolve_right (by simp [hc]))
    · exact ⟨w.cells nb, upd_same _ _ _⟩
  · unfold updateUI at h
    rw [if_pos hc] at h
    injection h with h
    subst h
    exact ⟨rfl, rfl, rfl, fun _ _ => rfl, fun _ _ => rfl, (w.st k).byId, rfl⟩

end Verif.Paint
