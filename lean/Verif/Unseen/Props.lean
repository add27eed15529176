import Verif.Unseen.Spec

/-!
# The version of an element at its first read -/

namespace Verif.Unseen
open Spec

theorem le_max (n a b : Nat) : n ≤ Nat.max a b ↔ n ≤ a ∨ n ≤ b := by
  show n ≤ max a b ↔ _
  omega

theorem foldl_max (f : Nat × Nat → Nat) (l : List (Nat × Nat)) (m n : Nat) : n ≤ l.foldl (fun m p => Nat.max m (f p)) m ↔ n ≤ m ∨ ∃ p ∈ l, n ≤ f p := by
  induction l generalizing m with
  | nil => simp
  | cons p l ih =>
    rw [List.foldl_cons, ih]
    have : n ≤ Nat.max m (f p) ↔ n ≤ m ∨ n ≤ f p := le_max _ _ _
    rw [this]
    simp only [List.mem_cons, exists_eq_or_imp, or_assoc]

theorem le_newest (s : Sys) (n : Nat) : n ≤ newest s ↔ n = 0 ∨ ∃ p ∈ s.names, n ≤ p.2 ∨ n ≤ s.inner := by
  unfold newest
  rw [foldl_max (fun p => Nat.max p.2 s.inner)]
  simp only [Nat.le_zero]
  have : ∀ p : Nat × Nat, n ≤ Nat.max p.2 s.inner ↔ n ≤ p.2 ∨ n ≤ s.inner := fun p => le_max _ _ _
  simp only [this]

theorem read_same (t : Nat) (s : Sys) (k : Nat) : (step t s (.read k)).names = s.names ∧ (step t s (.read k)).inner = s.inner := by
  simp only [step]
  cases s.elems k <;> exact ⟨rfl, rfl⟩

theorem read_elems (t : Nat) (s : Sys) (j k : Nat) (h : k ≠ j) : (step t s (.read j)).elems k = s.elems k := by
  simp only [step]
  cases s.elems j with
  | none => simp [h]
  | some _ => rfl

theorem names_iff (v0 : Nat) (h : List Ev) (v : Nat) : (∃ p ∈ (after v0 h).names, p.1 = v) ↔ Names v0 h v := by
  induction h with
  | nil => simp [after, start, Names, eq_comm]
  | cons e h ih =>
    cases e with
    | bind u =>
      simp only [after, step, Names, List.mem_cons, exists_eq_or_imp, ← ih, List.mem_filter, decide_eq_true_eq]
      constructor
      · rintro (h | ⟨p, ⟨h1, -⟩, h2⟩)
        · exact .inl h.symm
        · exact .inr ⟨p, h1, h2⟩
      · rintro (h | ⟨p, h1, h2⟩)
        · exact .inl h.symm
        · by_cases hu : v = u
          · exact .inl hu.symm
          · exact .inr ⟨p, ⟨h1, by rw [h2]; exact hu⟩, h2⟩
    | unbind u =>
      simp only [after, step, Names, ← ih, List.mem_filter, decide_eq_true_eq]
      constructor
      · rintro ⟨p, ⟨h1, h3⟩, h2⟩
        exact ⟨by rw [← h2]; exact h3, p, h1, h2⟩
      · rintro ⟨hu, p, h1, h2⟩
        exact ⟨p, ⟨h1, by rw [h2]; exact hu⟩, h2⟩
    | store k => simpa [after, step, Names] using ih
    | change =>
      simp only [after, step, Names, ← ih, List.mem_map]
      constructor
      · rintro ⟨p, ⟨q, hq, rfl⟩, h2⟩
        exact ⟨q, hq, h2⟩
      · rintro ⟨q, hq, h2⟩
        exact ⟨_, ⟨q, hq, rfl⟩, h2⟩
    | read k =>
      simp only [after, (read_same _ _ _).1, Names]
      exact ih

theorem elems_new (v0 k : Nat) (h : List Ev) (hn : New k h) : (after v0 h).elems k = none := by
  induction h with
  | nil => rfl
  | cons e h ih =>
    have ih := ih ⟨fun m => hn.1 (by simp [m]), fun m => hn.2 (by simp [m])⟩
    cases e with
    | store j =>
      have : k ≠ j := by rintro rfl; exact hn.1 (by simp)
      simp [after, step, this, ih]
    | read j =>
      have : k ≠ j := by rintro rfl; exact hn.2 (by simp)
      rw [after, read_elems _ _ _ _ this, ih]
    | bind v => exact ih
    | unbind v => exact ih
    | change => exact ih

theorem first_version (v0 k : Nat) (h : List Ev) (hn : New k h) : version (after v0 (.read k :: h)) k = some (newest (after v0 h)) := by
  simp [version, after, step, elems_new v0 k h hn]

/-- Changes are not in the future. -/
theorem changed_le (k : Nat) (h : List Ev) : changed k h ≤ now h := by
  induction h with
  | nil => simp [changed, now]
  | cons e h ih =>
    have : now h ≤ now (e :: h) := by simp [now]
    cases e with
    | store j =>
      rw [changed]
      split
      · exact Nat.le_refl _
      · omega
    | change => exact Nat.le_refl _
    | bind v => exact Nat.le_trans ih this
    | unbind v => exact Nat.le_trans ih this
    | read j => exact Nat.le_trans ih this

theorem names_ge (v0 k : Nat) (h : List Ev) (hn : Ev.store k ∉ h) : ∀ p ∈ (after v0 h).names, changed k h ≤ p.2 := by
  induction h with
  | nil => simp [after, start, changed]
  | cons e h ih =>
    have ih := ih (fun m => hn (by simp [m]))
    cases e with
    | bind v =>
      intro p hp
      simp only [after, step, List.mem_cons, List.mem_filter] at hp
      rcases hp with rfl | hp
      · have := changed_le k h
        simp only [changed, now] at *
        omega
      · exact ih p hp.1
    | unbind v =>
      intro p hp
      simp only [after, step, List.mem_filter] at hp
      exact ih p hp.1
    | store j =>
      have : j ≠ k := by rintro rfl; exact hn (by simp)
      intro p hp
      simp only [changed, if_neg this]
      exact ih p hp
    | change =>
      intro p hp
      simp only [after, step, List.mem_map] at hp
      obtain ⟨q, -, rfl⟩ := hp
      simp [changed, now]
    | read j =>
      intro p hp
      simp only [after, (read_same _ _ _).1] at hp
      exact ih p hp

/-- **C195**: an element that is read for the first time, while the object has a variable, never counts as older than its last change. -/
theorem not_older (v0 k v : Nat) (h : List Ev) (hn : New k h) (hv : Names v0 h v) : ∃ n, version (after v0 (.read k :: h)) k = some n ∧ changed k h ≤ n := by
  refine ⟨_, first_version v0 k h hn, (le_newest _ _).2 (.inr ?_)⟩
  obtain ⟨p, hp, -⟩ := (names_iff v0 h v).2 hv
  exact ⟨p, hp, .inl (names_ge v0 k h hn.1 p hp)⟩

theorem versions_le (v0 : Nat) (h : List Ev) : (∀ p ∈ (after v0 h).names, p.2 ≤ now h) ∧ (after v0 h).inner ≤ now h := by
  induction h with
  | nil => simp [after, start, now]
  | cons e h ih =>
    have e1 : now h + 1 = now (e :: h) := by simp [now]
    cases e with
    | bind v =>
      refine ⟨fun p hp => ?_, by simp only [after, step]; omega⟩
      simp only [after, step, List.mem_cons, List.mem_filter] at hp
      rcases hp with rfl | hp
      · simp [now]
      · have := ih.1 p hp.1; omega
    | unbind v =>
      refine ⟨fun p hp => ?_, by simp only [after, step]; omega⟩
      simp only [after, step, List.mem_filter] at hp
      have := ih.1 p hp.1; omega
    | store j =>
      refine ⟨fun p hp => by have := ih.1 p hp; omega, ?_⟩
      simp only [after, step]
      refine Nat.max_le.2 ⟨by omega, by simp [now]⟩
    | change =>
      refine ⟨fun p hp => ?_, by simp only [after, step]; omega⟩
      simp only [after, step, List.mem_map] at hp
      obtain ⟨q, -, rfl⟩ := hp
      simp [now]
    | read j =>
      rw [after, (read_same _ _ _).1, (read_same _ _ _).2]
      exact ⟨fun p hp => by have := ih.1 p hp; omega, by omega⟩

theorem calm_le (v0 : Nat) (l h : List Ev) (hc : Calm l) : (∀ p ∈ (after v0 (l ++ h)).names, p.2 ≤ now h) ∧ (after v0 (l ++ h)).inner ≤ now h := by
  induction l with
  | nil => exact versions_le v0 h
  | cons e l ih =>
    have ih := ih fun x hx => hc x (by simp [hx])
    rcases hc e (by simp) with ⟨v, rfl⟩ | ⟨k, rfl⟩
    · refine ⟨fun p hp => ?_, ih.2⟩
      simp only [List.cons_append, after, step, List.mem_filter] at hp
      exact ih.1 p hp.1
    · rw [List.cons_append, after, (read_same _ _ _).1, (read_same _ _ _).2]
      exact ih

theorem calm_changed (k : Nat) (l h : List Ev) (hc : Calm l) : changed k (l ++ h) = changed k h := by
  induction l with
  | nil => rfl
  | cons e l ih =>
    have ih := ih fun x hx => hc x (by simp [hx])
    rcases hc e (by simp) with ⟨v, rfl⟩ | ⟨j, rfl⟩ <;> exact ih

/-- **C195** (partial): the version is exactly the last change, if nothing was stored in the object and no variable was bound to it since the object was made or changed as a whole.

Full statement: the version is the last change. It is false, see `stored_newer` and `bound_newer`. -/
theorem exact_partial (v0 k v : Nat) (l h : List Ev) (hh : h = [] ∨ ∃ h', h = .change :: h') (hc : Calm l) (hn : New k (l ++ h)) (hv : Names v0 (l ++ h) v) :
    version (after v0 (.read k :: (l ++ h))) k = some (changed k (l ++ h)) := by
  obtain ⟨n, e, hle⟩ := not_older v0 k v (l ++ h) hn hv
  have e' := first_version v0 k (l ++ h) hn
  rw [e] at e'
  injection e' with e'
  subst e'
  have hch : changed k h = now h := by
    rcases hh with rfl | ⟨h', rfl⟩ <;> rfl
  have hb := calm_le v0 l h hc
  have : newest (after v0 (l ++ h)) ≤ now h := by
    rcases (le_newest (after v0 (l ++ h)) (newest (after v0 (l ++ h)))).1 (Nat.le_refl _) with h0 | ⟨p, hp, h1 | h1⟩
    · omega
    · exact Nat.le_trans h1 (hb.1 p hp)
    · exact Nat.le_trans h1 hb.2
  rw [e]
  rw [calm_changed k l h hc, hch] at hle ⊢
  exact congrArg some (Nat.le_antisymm this hle)

theorem inner_mono (v0 : Nat) (l h : List Ev) : (after v0 h).inner ≤ (after v0 (l ++ h)).inner := by
  induction l with
  | nil => exact Nat.le_refl _
  | cons e l ih =>
    refine Nat.le_trans ih ?_
    cases e with
    | store j => exact Nat.le_max_left _ _
    | read j => rw [List.cons_append, after, (read_same _ _ _).2]; exact Nat.le_refl _
    | bind v => exact Nat.le_refl _
    | unbind v => exact Nat.le_refl _
    | change => exact Nat.le_refl _

theorem changed_skip (k : Nat) (l h : List Ev) (hs : Ev.store k ∉ l) (hc : Ev.change ∉ l) : changed k (l ++ h) = changed k h := by
  induction l with
  | nil => rfl
  | cons e l ih =>
    have ih := ih (fun m => hs (by simp [m])) (fun m => hc (by simp [m]))
    cases e with
    | store j =>
      have : j ≠ k := by rintro rfl; exact hs (by simp)
      simp only [List.cons_append, changed, if_neg this]
      exact ih
    | change => exact absurd (by simp) hc
    | bind v => exact ih
    | unbind v => exact ih
    | read j => exact ih

/-- **C195** (violated): if another element was stored since the last change of the element, then the element counts as newer than its last change, namely at least as new as that store. -/
theorem stored_newer (v0 k j v : Nat) (l h : List Ev) (hc : Ev.change ∉ l) (hn : New k (l ++ .store j :: h)) (hv : Names v0 (l ++ .store j :: h) v) :
    ∃ n, version (after v0 (.read k :: (l ++ .store j :: h))) k = some n ∧ now (.store j :: h) ≤ n ∧ changed k (l ++ .store j :: h) < n := by
  have hi : now (.store j :: h) ≤ (after v0 (l ++ .store j :: h)).inner := by
    refine Nat.le_trans ?_ (inner_mono v0 l (.store j :: h))
    exact Nat.le_max_right _ _
  obtain ⟨p, hp, -⟩ := (names_iff v0 _ v).2 hv
  have h1 : now (.store j :: h) ≤ newest (after v0 (l ++ .store j :: h)) := (le_newest _ _).2 (.inr ⟨p, hp, .inr hi⟩)
  refine ⟨_, first_version v0 k _ hn, h1, Nat.lt_of_lt_of_le ?_ h1⟩
  have hj : j ≠ k := by rintro rfl; exact hn.1 (by simp)
  rw [changed_skip k l _ (fun m => hn.1 (by simp [m])) hc, changed, if_neg hj]
  have := changed_le k h
  simp only [now, List.length_cons] at *
  omega

theorem bound_ge (v0 u : Nat) (l h : List Ev) (hu : Ev.unbind u ∉ l) : ∃ p ∈ (after v0 (l ++ .bind u :: h)).names, p.1 = u ∧ now (.bind u :: h) ≤ p.2 := by
  induction l with
  | nil => exact ⟨(u, h.length + 2), by simp [after, step], rfl, by simp [now]⟩
  | cons e l ih =>
    obtain ⟨p, hp, h1, h2⟩ := ih fun m => hu (by simp [m])
    have hlen : now (.bind u :: h) ≤ (l ++ .bind u :: h).length + 2 := by simp [now]; omega
    cases e with
    | bind v =>
      by_cases hv : u = v
      · subst hv
        exact ⟨(u, (l ++ .bind u :: h).length + 2), by simp [after, step], rfl, hlen⟩
      · refine ⟨p, ?_, h1, h2⟩
        simp only [List.cons_append, after, step, List.mem_cons, List.mem_filter, decide_eq_true_eq]
        exact .inr ⟨hp, by rw [h1]; exact hv⟩
    | unbind v =>
      refine ⟨p, ?_, h1, h2⟩
      simp only [List.cons_append, after, step, List.mem_filter, decide_eq_true_eq]
      refine ⟨hp, ?_⟩
      rw [h1]
      rintro rfl
      exact hu (by simp)
    | store j => exact ⟨p, hp, h1, h2⟩
    | change =>
      refine ⟨(p.1, (l ++ .bind u :: h).length + 2), ?_, h1, hlen⟩
      simp only [List.cons_append, after, step, List.mem_map]
      exact ⟨p, hp, rfl⟩
    | read j =>
      refine ⟨p, ?_, h1, h2⟩
      rw [List.cons_append, after, (read_same _ _ _).1]
      exact hp

/-- **C195** (violated): the same if a further variable was bound to the object since, and still is. -/
theorem bound_newer (v0 k u : Nat) (l h : List Ev) (hc : Ev.change ∉ l) (hu : Ev.unbind u ∉ l) (hn : New k (l ++ .bind u :: h)) :
    ∃ n, version (after v0 (.read k :: (l ++ .bind u :: h))) k = some n ∧ now (.bind u :: h) ≤ n ∧ changed k (l ++ .bind u :: h) < n := by
  obtain ⟨p, hp, -, h2⟩ := bound_ge v0 u l h hu
  have h1 : now (.bind u :: h) ≤ newest (after v0 (l ++ .bind u :: h)) := (le_newest _ _).2 (.inr ⟨p, hp, .inl h2⟩)
  refine ⟨_, first_version v0 k _ hn, h1, Nat.lt_of_lt_of_le ?_ h1⟩
  rw [changed_skip k l _ (fun m => hn.1 (by simp [m])) hc]
  show changed k h < _
  have := changed_le k h
  simp only [now, List.length_cons] at *
  omega

end Verif.Unseen
