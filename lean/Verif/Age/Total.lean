import Verif.Age.Props
import Mathlib.Data.Fintype.Card

/-! # Updates come to an end -/

namespace Verif.Age

variable {S O T : Type} [DecidableEq S] [DecidableEq O] [LinearOrder T]
variable {H : Heap S O} {now : T}

/-- Symbols not seen yet. -/
def unseen [Fintype S] (l : List S) : Nat := (Finset.univ.filter (fun q => q ∉ l)).card

theorem unseen_mono [Fintype S] {a b : List S} (h : a ⊆ b) : unseen b ≤ unseen a := by
  apply Finset.card_le_card
  intro q
  simp only [Finset.mem_filter, Finset.mem_univ, true_and]
  exact fun h1 h2 => h1 (h h2)

theorem unseen_lt [Fintype S] {a b : List S} {s : S} (h : a ⊆ b) (hs : s ∉ a) (hb : s ∈ b) : unseen b < unseen a := by
  apply Finset.card_lt_card
  rw [Finset.ssubset_iff_of_subset]
  · exact ⟨s, by simp [hs], by simp [hb]⟩
  · intro q
    simp only [Finset.mem_filter, Finset.mem_univ, true_and]
    exact fun h1 h2 => h1 (h h2)

theorem fold_total [Fintype S] {f : St S O T × List S → S → Except Err (St S O T × List S)} (k : Nat)
    (hf : ∀ x a, unseen x.2 ≤ k → ∃ x', f x a = .ok x' ∧ x.2 ⊆ x'.2) : ∀ (l : List S) (x : St S O T × List S), unseen x.2 ≤ k →
    ∃ x', l.foldlM f x = .ok x' ∧ x.2 ⊆ x'.2 := by
  intro l
  induction l with
  | nil => intro x _; exact ⟨x, rfl, fun _ h => h⟩
  | cons a l ih =>
    intro x hx
    obtain ⟨y, hy, hm⟩ := hf x a hx
    obtain ⟨z, hz, hm'⟩ := ih y (Nat.le_trans (unseen_mono hm) hx)
    refine ⟨z, ?_, fun _ h => hm' (hm h)⟩
    rw [List.foldlM_cons, hy]
    exact hz

theorem refresh_total [Fintype S] : ∀ (n : Nat) (desc : Bool) (s : S) (x : St S O T × List S), unseen x.2 < n →
    ∃ x', refresh H now n desc s x = .ok x' ∧ x.2 ⊆ x'.2 := by
  intro n
  induction n with
  | zero => intro _ _ _ h; omega
  | succ n ih =>
    intro desc s x hx
    unfold refresh
    by_cases hm : s ∈ x.2
    · rw [if_pos hm]; exact ⟨x, rfl, fun _ h => h⟩
    · rw [if_neg hm]
      cases desc with
      | false => exact ⟨_, rfl, fun _ h => h⟩
      | true =>
        simp only [if_true]
        by_cases hns : H.hasNs (x.1.obj s) = true
        · rw [if_pos hns]
          have hlt : unseen (x.2 ++ [s]) < unseen x.2 := unseen_lt (fun q h => by simp [h]) hm (by simp)
          obtain ⟨x', h1, h2⟩ := fold_total (n - 1) (f := fun x m => refresh H now n (H.rest m) m x)
            (fun y a hy => ih (H.rest a) a y (by omega)) (H.own (x.1.obj s)) (bump H now s x.1, x.2 ++ [s])
            (by show unseen (x.2 ++ [s]) ≤ n - 1; omega)
          exact ⟨x', h1, fun q h => h2 (by simp [h])⟩
        · rw [if_neg hns]
          exact ⟨_, rfl, fun q h => by simp [h]⟩

theorem collect_total [Fintype S] (desc : Bool) : ∀ (n : Nat) (s : S) (x : St S O T × List S), unseen x.2 < n →
    ∃ x', collect H now desc n s x = .ok x' ∧ x.2 ⊆ x'.2 := by
  intro n
  induction n with
  | zero => intro _ _ h; omega
  | succ n ih =>
    intro s x hx
    unfold collect
    by_cases hc : (H.isImport s || decide (s ∈ x.2)) = true
    · rw [if_pos hc]; exact ⟨x, rfl, fun _ h => h⟩
    · rw [if_neg hc]
      have hm : s ∉ x.2 := by simp only [Bool.or_eq_true, decide_eq_true_eq, not_or] at hc; exact hc.2
      have hlt : unseen (x.2 ++ [s]) < unseen x.2 := unseen_lt (fun q h => by simp [h]) hm (by simp)
      have hfold : ∀ (l : List S) (y : St S O T × List S), unseen y.2 ≤ n - 1 →
          ∃ x', l.foldlM (fun x a => collect H now desc n a x) y = .ok x' ∧ y.2 ⊆ x'.2 :=
        fold_total (n - 1) (fun y a hy => ih a y (by omega))
      have hup : ∃ x', climb H now (fun x a => collect H now desc n a x) s x = .ok x' ∧ x.2 ++ [s] ⊆ x'.2 := by
        unfold climb
        cases (if H.isModule s then none else H.holder s) with
        | none => exact ⟨_, rfl, fun _ h => h⟩
        | some o => exact hfold _ _ (by show unseen (x.2 ++ [s]) ≤ n - 1; omega)
      obtain ⟨x1, h1, h2⟩ := hup
      have hle : unseen x1.2 ≤ n - 1 := by have := unseen_mono h2; omega
      rw [h1]
      simp only
      by_cases hd : (desc && H.hasNs (x1.1.obj s)) = true
      · rw [if_pos hd]
        obtain ⟨x2, h3, h4⟩ := hfold (H.members (x1.1.obj s)) x1 hle
        exact ⟨x2, h3, fun q h => h4 (h2 (by simp [h]))⟩
      · rw [if_neg hd]
        exact ⟨x1, rfl, fun q h => h2 (by simp [h])⟩

/-- C92. Every update comes to an end, also if objects contain themselves. -/
theorem update_terminates [Fintype S] {n : Nat} (hn : Fintype.card S < n) (e : Upd S O T) (st : St S O T) : ∃ st', update H n e st = .ok st' := by
  have hu : unseen ([] : List S) < n := by
    have : unseen ([] : List S) = Fintype.card S := by simp [unseen]
    omega
  have h1 : ∃ x, (if e.refresh then refresh H e.now n (deepRefresh e) e.sym (start e st, []) else .ok (start e st, [])) = .ok x := by
    cases e.refresh with
    | false => exact ⟨_, rfl⟩
    | true =>
      obtain ⟨x, hx, _⟩ := refresh_total (H := H) (now := e.now) n (deepRefresh e) e.sym (start e st, []) hu
      exact ⟨x, hx⟩
  obtain ⟨x, hx⟩ := h1
  unfold update
  rw [hx]
  simp only
  cases e.propagate with
  | false => exact ⟨_, rfl⟩
  | true =>
    simp only [if_true]
    obtain ⟨y, hy, _⟩ := fold_total (f := fun x a => collect H e.now e.descend n a x) (n - 1)
      (fun z a hz => collect_total e.descend n a z (by omega)) (direct H e x.1) (pollute H e x.1, []) (by show unseen [] ≤ n - 1; omega)
    unfold protocol
    rw [hy]
    exact ⟨_, rfl⟩

end Verif.Age
