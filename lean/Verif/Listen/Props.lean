import Verif.Listen.Spec
import Mathlib.Tactic.SplitIfs

/-! # Proofs about those who listen to widgets -/

namespace Verif.Listen

theorem sole_bound {h : List Event} {n w : Nat} (hs : Spec.Sole h n w) : Spec.bound h n = some w := by
  induction h with
  | nil => exact hs.elim
  | cons e h ih =>
    cases e with
    | add v u => exact ih hs
    | bind m o self =>
      simp only [Spec.Sole, Spec.bound] at hs ⊢
      split at hs
      · rename_i hm; rw [if_pos hm]; exact hs.1
      · rename_i hm; rw [if_neg hm]; exact ih hs

theorem sole_unique {h : List Event} {n m w : Nat} (hn : Spec.Sole h n w) (hm : Spec.Sole h m w) : n = m := by
  induction h with
  | nil => exact hn.elim
  | cons e h ih =>
    cases e with
    | add v u => exact ih hn hm
    | bind k o self =>
      simp only [Spec.Sole] at hn hm
      by_cases h1 : k = n <;> by_cases h2 : k = m
      · exact h1.symm.trans h2
      · rw [if_pos h1] at hn
        rw [if_neg h2] at hm
        exact absurd (sole_bound hm) (hn.2.2 m (by omega))
      · rw [if_neg h1] at hn
        rw [if_pos h2] at hm
        exact absurd (sole_bound hn) (hm.2.2 n (by omega))
      · rw [if_neg h1] at hn
        rw [if_neg h2] at hm
        exact ih hn hm

/-- What holds after every history. -/
structure Inv (h : List Event) (σ : Sys) : Prop where
  nodup : (Assoc.keys σ.names).Nodup
  names : ∀ n, (Assoc.get σ.names n).getD none = Spec.bound h n
  count : ∀ n, 0 < (Assoc.get σ.count n).getD 0 ↔ ∃ w, Spec.Sole h n w
  flows : ∀ n w, .flow n ∈ of σ w ↔ Spec.Sole h n w

theorem of_observe (w w' : Nat) (x y : Who) (σ : Sys) : y ∈ of (observe w x σ) w' ↔ y ∈ of σ w' ∨ (w' = w ∧ y = x) := by
  unfold observe
  split
  · rename_i hx
    constructor
    · exact Or.inl
    · rintro (h | ⟨rfl, rfl⟩)
      · exact h
      · exact hx
  · simp only [of, Assoc.get_set]
    split
    · rename_i hw; subst hw; simp
    · rename_i hw; simp [hw]

theorem observe_names (w : Nat) (x : Who) (σ : Sys) : (observe w x σ).names = σ.names ∧ (observe w x σ).count = σ.count := by
  unfold observe; split <;> exact ⟨rfl, rfl⟩

theorem aliases_alone {σ : Sys} {h : List Event} {n w : Nat} (hn : (Assoc.keys σ.names).Nodup) (hb : ∀ m, (Assoc.get σ.names m).getD none = Spec.bound h m)
    (hw : Spec.bound h n = some w) : (aliases σ w).length = 1 ↔ ∀ k, k ≠ n → Spec.bound h k ≠ some w := by
  have mem : ∀ k, k ∈ aliases σ w ↔ Spec.bound h k = some w := by
    intro k
    rw [← hb k]
    simp only [aliases, List.mem_map, List.mem_filter, decide_eq_true_eq]
    constructor
    · rintro ⟨⟨k', o⟩, ⟨hm, ho⟩, rfl⟩
      rw [(Assoc.get_eq_some_iff hn).mpr hm]
      exact ho
    · intro hk
      cases hg : Assoc.get σ.names k with
      | none => rw [hg] at hk; simp at hk
      | some o =>
        rw [hg] at hk
        exact ⟨(k, o), ⟨Assoc.mem_of_get hg, by simpa using hk⟩, rfl⟩
  have nd : (aliases σ w).Nodup := (List.Sublist.map Prod.fst List.filter_sublist).nodup hn
  have hin := (mem n).mpr hw
  constructor
  · intro hl k hk hkb
    obtain ⟨a, ha⟩ := List.length_eq_one_iff.mp hl
    rw [ha] at hin
    have hkin := (mem k).mpr hkb
    rw [ha] at hkin
    simp only [List.mem_singleton] at hin hkin
    exact hk (hkin.trans hin.symm)
  · intro hk
    have : ∀ k ∈ aliases σ w, k = n := fun k hm => by
      by_contra hne
      exact hk k hne ((mem k).mp hm)
    cases hl : aliases σ w with
    | nil => rw [hl] at hin; cases hin
    | cons a l =>
      rw [hl] at this nd
      cases l with
      | nil => rfl
      | cons b l =>
        have h1 := this a (by simp)
        have h2 := this b (by simp)
        simp [h1, h2] at nd

/-- The state after `release` when the name is bound anew. -/
theorem of_release {h : List Event} {σ : Sys} (I : Inv h σ) (n w : Nat) (x : Who) : x ∈ of (release n σ) w ↔ x ∈ of σ w ∧ ¬ Spec.Sole h n w := by
  unfold release
  by_cases hc : 0 < (Assoc.get σ.count n).getD 0
  · rw [if_pos hc]
    obtain ⟨v, hv⟩ := (I.count n).mp hc
    rw [I.names n, sole_bound hv]
    simp only [of, Assoc.get_set]
    by_cases hw : w = v
    · subst hw; simp [hv]
    · have : ¬ Spec.Sole h n w := fun h' => hw (by have := sole_bound h'; rw [sole_bound hv] at this; simpa using this.symm)
      simp [hw, this]
  · rw [if_neg hc]
    have : ¬ Spec.Sole h n w := fun h' => hc ((I.count n).mpr ⟨w, h'⟩)
    simp [this]

theorem release_names (n : Nat) (σ : Sys) : (release n σ).names = σ.names := by
  unfold release; split <;> [split; skip] <;> rfl

theorem release_count (σ : Sys) (n m : Nat) :
    (Assoc.get (release n σ).count m).getD 0 = if m = n then 0 else (Assoc.get σ.count m).getD 0 := by
  unfold release
  by_cases hc : 0 < (Assoc.get σ.count n).getD 0
  · rw [if_pos hc]
    have : ∀ σ' : Sys, σ'.count = Assoc.set σ.count n 0 → (Assoc.get σ'.count m).getD 0 = if m = n then 0 else (Assoc.get σ.count m).getD 0 := by
      intro σ' h'
      rw [h', Assoc.get_set]
      split <;> rfl
    split
    · exact this _ rfl
    · exact this _ rfl
  · rw [if_neg hc]
    split
    · rename_i hm; subst hm; omega
    · rfl

/-- What a callback of a widget needs after an assignment. -/
theorem of_bind {h : List Event} {σ : Sys} (I : Inv h σ) (n : Nat) (o : Option Nat) (self : Bool) (w : Nat) (x : Who) :
    x ∈ of (step σ (.bind n o self)) w ↔ (x ∈ of σ w ∧ ¬ Spec.Sole h n w) ∨ (x = .flow n ∧ Spec.Sole (.bind n o self :: h) n w) := by
  have hset : ∀ m, (Assoc.get (Assoc.set (release n σ).names n o) m).getD none = Spec.bound (.bind n o self :: h) m := by
    intro m
    rw [release_names, Assoc.get_set]
    simp only [Spec.bound]
    by_cases hm : m = n
    · subst hm; simp
    · rw [if_neg hm, if_neg (Ne.symm hm)]; exact I.names m
  have hr : ∀ w, x ∈ of { release n σ with names := Assoc.set (release n σ).names n o } w ↔ x ∈ of σ w ∧ ¬ Spec.Sole h n w := fun w => of_release I n w x
  simp only [step, attach]
  cases o with
  | none => simp only [hr, Spec.Sole, if_pos]; simp
  | some v =>
    dsimp only
    have hal := aliases_alone (σ := { release n σ with names := Assoc.set (release n σ).names n (some v) }) (h := .bind n (some v) self :: h) (n := n) (w := v)
      (Assoc.nodup_set (by rw [release_names]; exact I.nodup) _ _) hset (by simp [Spec.bound])
    have hb : (∀ k, k ≠ n → Spec.bound (.bind n (some v) self :: h) k ≠ some v) ↔ ∀ k, k ≠ n → Spec.bound h k ≠ some v := by
      constructor <;> intro h' k hk <;> have := h' k hk <;> simpa [Spec.bound, Ne.symm hk] using this
    rw [hb] at hal
    split
    · rename_i hc
      have ha := hal.mp hc.2
      show x ∈ of (observe v (.flow n) _) w ↔ _
      rw [of_observe, hr]
      simp only [Spec.Sole, if_pos]
      constructor
      · rintro (h' | ⟨rfl, rfl⟩)
        · exact Or.inl h'
        · exact Or.inr ⟨rfl, rfl, hc.1, ha⟩
      · rintro (h' | ⟨rfl, h1, _, _⟩)
        · exact Or.inl h'
        · exact Or.inr ⟨by simpa using h1.symm, rfl⟩
    · rename_i hc
      rw [hr]
      simp only [Spec.Sole, if_pos]
      constructor
      · exact Or.inl
      · rintro (h' | ⟨rfl, h1, h2, h3⟩)
        · exact h'
        · exact absurd ⟨h2, hal.mpr (by have : v = w := by simpa using h1
                                        subst this; exact h3)⟩ hc

theorem inv_after (h : List Event) : Inv h (after h) := by
  induction h with
  | nil => exact ⟨by simp [after, Assoc.keys], fun n => rfl, fun n => by simp [after, Spec.Sole], fun n w => by simp [after, of, Spec.Sole]⟩
  | cons e h I =>
    cases e with
    | add v u =>
      have hn := observe_names v (.user u) (after h)
      refine ⟨?_, ?_, ?_, ?_⟩
      · show (Assoc.keys (observe v (.user u) (after h)).names).Nodup
        rw [hn.1]; exact I.nodup
      · intro n
        show (Assoc.get (observe v (.user u) (after h)).names n).getD none = _
        rw [hn.1]; exact I.names n
      · intro n
        show 0 < (Assoc.get (observe v (.user u) (after h)).count n).getD 0 ↔ _
        rw [hn.2]; exact I.count n
      · intro n w
        show .flow n ∈ of (observe v (.user u) (after h)) w ↔ _
        rw [of_observe, I.flows]
        simp [Spec.Sole]
    | bind n o self =>
      have hnames : (step (after h) (.bind n o self)).names = Assoc.set (after h).names n o := by
        simp only [step, attach]
        cases o with
        | none => simp only [release_names]
        | some v =>
          dsimp only
          split
          · show (observe v (.flow n) _).names = _
            rw [(observe_names _ _ _).1, release_names]
          · simp only [release_names]
      refine ⟨?_, ?_, ?_, ?_⟩
      · show (Assoc.keys (step (after h) (.bind n o self)).names).Nodup
        rw [hnames]; exact Assoc.nodup_set I.nodup _ _
      · intro m
        show (Assoc.get (step (after h) (.bind n o self)).names m).getD none = _
        rw [hnames, Assoc.get_set]
        simp only [Spec.bound]
        by_cases hm : m = n
        · subst hm; simp
        · rw [if_neg hm, if_neg (Ne.symm hm)]; exact I.names m
      · intro m
        have key : 0 < (Assoc.get (step (after h) (.bind n o self)).count m).getD 0 ↔
            (m ≠ n ∧ 0 < (Assoc.get (after h).count m).getD 0) ∨ (m = n ∧ ∃ w, Spec.Sole (.bind n o self :: h) n w) := by
          have rc := release_count (after h) n m
          have fl := fun w => of_bind I n o self w (.flow n)
          by_cases hm : m = n
          · subst hm
            rw [if_pos rfl] at rc
            simp only [ne_eq, not_true, false_and, true_and, false_or]
            simp only [step, attach] at fl ⊢
            cases o with
            | none => simp only [rc]; simp [Spec.Sole]
            | some v =>
              dsimp only at fl ⊢
              split
              · rename_i hc
                simp only [Assoc.get_set_self, Option.getD_some]
                refine ⟨fun _ => ⟨v, ?_⟩, fun _ => by omega⟩
                have := (fl v).mp (by rw [if_pos hc]; exact (of_observe _ _ _ _ _).mpr (Or.inr ⟨rfl, rfl⟩))
                rcases this with ⟨h1, h2⟩ | h'
                · exact absurd ((I.flows m v).mp h1) h2
                · exact h'.2
              · rename_i hc
                simp only [rc]
                constructor
                · intro h'; omega
                · rintro ⟨w, hw⟩
                  have := (fl w).mpr (Or.inr ⟨trivial, hw⟩)
                  rw [if_neg hc] at this
                  obtain ⟨h1, h2⟩ := (of_release I m w (.flow m)).mp this
                  exact absurd ((I.flows m w).mp h1) h2
          · rw [if_neg hm] at rc
            simp only [ne_eq, hm, not_false_eq_true, true_and, false_and, or_false]
            rw [← rc]
            simp only [step, attach]
            cases o with
            | none => rfl
            | some v =>
              dsimp only
              split
              · simp only [Assoc.get_set_ne _ _ hm]
              · rfl
        show 0 < (Assoc.get (step (after h) (.bind n o self)).count m).getD 0 ↔ _
        rw [key]
        by_cases hm : m = n
        · subst hm; simp
        · simp only [ne_eq, hm, not_false_eq_true, true_and, false_and, or_false, I.count m, Spec.Sole, if_neg (Ne.symm hm)]
      · intro m w
        show .flow m ∈ of (step (after h) (.bind n o self)) w ↔ _
        rw [of_bind I, I.flows]
        by_cases hm : m = n
        · subst hm; simp
        · simp only [Who.flow.injEq, hm, false_and, or_false, Spec.Sole, if_neg (Ne.symm hm), and_iff_left_iff_imp]
          intro h1 h2
          exact hm (sole_unique h1 h2)

/-- A change of a widget's value is noticed exactly if some name is the sole one. -/
theorem heard_iff (h : List Event) (w : Nat) : heard (after h) w = true ↔ ∃ n, Spec.Sole h n w := by
  simp only [heard, List.any_eq_true]
  constructor
  · rintro ⟨x, hx, hf⟩
    cases x with
    | flow n => exact ⟨n, ((inv_after h).flows n w).mp hx⟩
    | user u => simp at hf
  · rintro ⟨n, hn⟩
    exact ⟨.flow n, ((inv_after h).flows n w).mpr hn, rfl⟩

theorem sole_append {more past : List Event} {n w : Nat} (hm : ∀ o s, .bind n o s ∉ more) : Spec.Sole (more ++ past) n w ↔ Spec.Sole past n w := by
  induction more with
  | nil => exact Iff.rfl
  | cons e more ih =>
    have ih := ih fun o s hin => hm o s (List.mem_cons_of_mem _ hin)
    cases e with
    | add v u => exact ih
    | bind m o self =>
      have : m ≠ n := fun h => hm o self (by subst h; exact List.mem_cons_self)
      simp only [List.cons_append, Spec.Sole, if_neg this]
      exact ih

/-- **C131.** A widget bound to a name is heard from then on until the name is bound again, whatever else happens, unless another name was bound to it or the assignment used
the name itself. -/
theorem heard_partial (past more : List Event) (n w : Nat) (h1 : ∀ k, k ≠ n → Spec.bound past k ≠ some w) (h2 : ∀ o s, .bind n o s ∉ more) :
    heard (after (more ++ .bind n (some w) false :: past)) w = true :=
  (heard_iff _ _).mpr ⟨n, (sole_append h2).mpr (by simp only [Spec.Sole, if_pos]; exact ⟨trivial, trivial, h1⟩)⟩

/-- Heard with another name for the widget, and other names bound and a callback added. -/
example : heard (after ([.bind 3 none false, .add 7 1, .bind 2 (some 7) false, .bind 2 (some 8) false] ++ .bind 1 (some 7) false :: [.bind 3 (some 9) false])) 7 = true :=
  heard_partial _ _ 1 7 (fun k hk => by simp only [Spec.bound]; split <;> simp) (fun o s => by simp)

/-- **C131, violated.** If the name with which the widget was made is bound to something else, the widget is no longer heard though another name is bound to it. -/
theorem unheard_alias (past more : List Event) (n m w : Nat) (o : Option Nat) (s s' : Bool) (hnm : m ≠ n) (h1 : ∀ k, k ≠ n → Spec.bound past k ≠ some w)
    (h2 : ∀ o s, .bind n o s ∉ more) (ho : o ≠ some w) :
    Spec.bound (.bind n o s :: .bind m (some w) s' :: more ++ .bind n (some w) false :: past) m = some w ∧
      heard (after (.bind n o s :: .bind m (some w) s' :: more ++ .bind n (some w) false :: past)) w = false := by
  refine ⟨by simp [Spec.bound, Ne.symm hnm], ?_⟩
  rw [Bool.eq_false_iff]
  intro hh
  obtain ⟨k, hk⟩ := (heard_iff _ _).mp hh
  have hs : Spec.Sole (.bind m (some w) s' :: more ++ .bind n (some w) false :: past) n w := by
    simp only [List.cons_append, Spec.Sole, if_neg hnm]
    exact (sole_append h2).mpr (by simp only [Spec.Sole, if_pos]; exact ⟨trivial, trivial, h1⟩)
  simp only [List.cons_append] at hk hs
  rw [Spec.Sole] at hk
  split at hk
  · exact ho hk.1
  · rename_i hkn
    exact hkn (sole_unique hs hk)

/-- `s = Slider(); t = s; s = None`. -/
example : heard (after [.bind 1 none false, .bind 2 (some 7) false, .bind 1 (some 7) false]) 7 = false :=
  (unheard_alias [] [] 1 2 7 none false false (by decide) (fun _ _ => by simp [Spec.bound]) (fun _ _ => by simp) (by simp)).2

/-- **C131, violated.** `s = tweak(s)`, which gives the same widget back: nobody listens to it any more. -/
theorem unheard_self (h : List Event) (n w : Nat) (hs : Spec.Sole h n w) :
    Spec.bound (.bind n (some w) true :: h) n = some w ∧ of (after (.bind n (some w) true :: h)) w = [] := by
  refine ⟨by simp [Spec.bound], List.eq_nil_iff_forall_not_mem.mpr fun x hx => ?_⟩
  rcases (of_bind (inv_after h) n (some w) true w x).mp hx with ⟨_, h'⟩ | ⟨_, h'⟩
  · exact h' hs
  · simp [Spec.Sole] at h'

example : of (after [.bind 1 (some 7) true, .add 7 5, .bind 1 (some 7) false]) 7 = [] :=
  (unheard_self [.add 7 5, .bind 1 (some 7) false] 1 7 ⟨rfl, rfl, fun k hk => by simp [Spec.bound]⟩).2

/-- **C131.** An assignment to a name leaves the user's callbacks of a widget exactly if the name is not the one by which the widget is heard. -/
theorem kept_iff (h : List Event) (n w u : Nat) (o : Option Nat) (s : Bool) :
    .user u ∈ of (after (.bind n o s :: h)) w ↔ .user u ∈ of (after h) w ∧ ¬ Spec.Sole h n w := by
  show .user u ∈ of (step (after h) (.bind n o s)) w ↔ _
  rw [of_bind (inv_after h)]
  simp

/-- **C131.** The user's callbacks stay as long as no name that is bound to the widget is bound again. -/
theorem kept_partial (past more : List Event) (w u : Nat) (hc : .add w u ∈ past.head?) (hr : ¬ Spec.Rebound w more past) :
    .user u ∈ of (after (more ++ past)) w := by
  induction more with
  | nil =>
    cases past with
    | nil => simp at hc
    | cons e past =>
      simp only [List.head?_cons, Option.mem_def, Option.some.injEq] at hc
      subst hc
      exact (of_observe _ _ _ _ _).mpr (Or.inr ⟨rfl, rfl⟩)
  | cons e more ih =>
    cases e with
    | add v u' => exact (of_observe _ _ _ _ _).mpr (Or.inl (ih hr))
    | bind n o s =>
      simp only [Spec.Rebound, not_or] at hr
      exact (kept_iff _ _ _ _ _ _).mpr ⟨ih hr.2, fun hs => hr.1 (sole_bound hs)⟩

example : .user 5 ∈ of (after ([.bind 2 (some 9) false, .add 7 6] ++ [.add 7 5, .bind 1 (some 7) false])) 7 :=
  kept_partial _ _ 7 5 (by simp) (by simp [Spec.Rebound, Spec.bound])

/-- **C131, violated.** Binding the name by which the widget is heard drops the callbacks that the user added, though another name keeps the widget or the name is bound to it
again. -/
theorem dropped (past more : List Event) (n w u : Nat) (o : Option Nat) (s : Bool) (h1 : ∀ k, k ≠ n → Spec.bound past k ≠ some w)
    (h2 : ∀ o s, .bind n o s ∉ more) : .user u ∉ of (after (.bind n o s :: more ++ .bind n (some w) false :: past)) w := by
  rw [List.cons_append, kept_iff]
  exact fun h => h.2 ((sole_append h2).mpr (by simp only [Spec.Sole, if_pos]; exact ⟨trivial, trivial, h1⟩))

/-- `s = cache["s"]; s.observe(f); s = cache["s"]`: the cell run again. -/
example : .user 5 ∈ of (after [.add 7 5, .bind 1 (some 7) false]) 7 ∧ .user 5 ∉ of (after [.bind 1 (some 7) false, .add 7 5, .bind 1 (some 7) false]) 7 :=
  ⟨kept_partial [.add 7 5, .bind 1 (some 7) false] [] 7 5 (by simp) (by simp [Spec.Rebound]),
    dropped [] [.add 7 5] 1 7 5 (some 7) false (fun _ _ => by simp [Spec.bound]) (fun _ _ => by simp)⟩

end Verif.Listen
