/-
A notebook that meets the hypotheses: cell 1 is `a = 1; b = 2`, cell 2 is `c = a`.
-/
import Verif.Parts.Props

namespace Verif.Parts
open Verif Verif.Slice

/-- The timestamps of the three statements (example for cell.py 926-939). -/
def demoStamp : Fin 3 → Timestamp
  | 0 => ⟨1, 0⟩
  | 1 => ⟨1, 1⟩
  | 2 => ⟨2, 0⟩

/-- The timestamps of the two cells (example for cell.py 926-939). -/
def demoCellStamp : Fin 2 → Timestamp
  | 0 => ⟨1, -1⟩
  | 1 => ⟨2, -1⟩

/-- The notebook, with `n` statements in the present content of cell 1 (example for
cell.py 926-978). -/
def demo (n : Nat) : Book (Fin 3) (Fin 3) (Fin 2) (Fin 2) where
  sw :=
    { ts := demoStamp
      parents := fun c x => if c = .dynamic ∧ x = 2 then [0] else []
      chain := fun i => [i]
      override := fun _ => false
      at' := fun t => if t = ⟨1, 0⟩ then some 0 else if t = ⟨1, 1⟩ then some 1
        else if t = ⟨2, 0⟩ then some 2 else none }
  cw :=
    { ts := demoCellStamp
      parents := fun c x => if c = .dynamic ∧ x = 1 then [0] else []
      chain := fun i => [i]
      override := fun _ => false
      at' := fun t => if t.cellNum = 1 then some 0 else if t.cellNum = 2 then some 1 else none }
  now := fun k => if k = 0 then n else 1

theorem demo_tidy (n : Nat) : Tidy (demo n) := by
  refine ⟨?_, ?_, ?_⟩
  · rintro ⟨c, i⟩ k
    show (if c = 1 then some 0 else if c = 2 then some 1 else none) = some k
      ↔ (demoCellStamp k).cellNum = c
    match k with
    | 0 => show _ ↔ (1 : Int) = c; split <;> [simp_all; (split <;> simp <;> omega)]
    | 1 => show _ ↔ (2 : Int) = c; split <;> [(simp; omega); (split <;> simp <;> omega)]
  · intro t s
    show (if t = ⟨1, 0⟩ then some 0 else if t = ⟨1, 1⟩ then some 1
        else if t = ⟨2, 0⟩ then some 2 else none) = some s ↔ demoStamp s = t
    match s with
    | 0 =>
      show _ ↔ (⟨1, 0⟩ : Timestamp) = t
      by_cases h : t = ⟨1, 0⟩
      · simp [h]
      · simp only [h, if_false]
        constructor
        · intro h'; split at h' <;> [simp at h'; (split at h' <;> simp at h')]
        · intro h'; exact (h h'.symm).elim
    | 1 =>
      show _ ↔ (⟨1, 1⟩ : Timestamp) = t
      by_cases h : t = ⟨1, 1⟩
      · simp [h]
      · simp only [h, if_false]
        constructor
        · intro h'; split at h' <;> [simp at h'; (split at h' <;> simp at h')]
        · intro h'; exact (h h'.symm).elim
    | 2 =>
      show _ ↔ (⟨2, 0⟩ : Timestamp) = t
      by_cases h : t = ⟨2, 0⟩
      · simp [h]
      · simp only [h, if_false]
        constructor
        · intro h'; split at h' <;> [simp at h'; (split at h' <;> simp at h')]
        · intro h'; exact (h h'.symm).elim
  · intro s
    match s with
    | 0 => exact ⟨0, rfl⟩
    | 1 => exact ⟨0, rfl⟩
    | 2 => exact ⟨1, rfl⟩

theorem demo_reached (n : Nat) : Reached (demo n) 0 2 := by
  intro i
  show (∃ s, demoStamp s = ⟨1, i⟩) ↔ _
  constructor
  · rintro ⟨s, hs⟩
    match s with
    | 0 => injection hs with _ h; omega
    | 1 => injection hs with _ h; omega
    | 2 => injection hs with h _; omega
  · intro ⟨h1, h2⟩
    rcases (by omega : i = 0 ∨ i = 1) with rfl | rfl
    · exact ⟨0, rfl⟩
    · exact ⟨1, rfl⟩

theorem demo_reached_last (n : Nat) : Reached (demo n) 1 1 := by
  intro i
  show (∃ s, demoStamp s = ⟨2, i⟩) ↔ _
  constructor
  · rintro ⟨s, hs⟩
    match s with
    | 0 => injection hs with h _; omega
    | 1 => injection hs with h _; omega
    | 2 => injection hs with _ h; omega
  · intro ⟨h1, h2⟩
    have : i = 0 := by omega
    subst this
    exact ⟨2, rfl⟩

theorem demo_depends : DependsOn (demo 2).sw [.dynamic] 2 0 :=
  ⟨0, ⟨.dynamic, by simp, by simp [demo]⟩, [], [], rfl,
    .inl (by show demoStamp 0 ≤ demoStamp 2; decide), by simp⟩

theorem demo_own : Own (demo 2) 1 2 := ⟨by decide, by decide, by decide⟩

/-- `magic_exact_partial` applies: `%flow slice --stmt 2` shows `a = 1` and `c = a`. -/
example : magic (demo 2) [.dynamic] 4 3 true (some 2) = .shows (.stmts [0, 2]) := by rfl
example (out : Out (Fin 3) (Fin 2))
    (h : magic (demo 2) [.dynamic] 4 3 true (some 2) = .shows out) (t : Timestamp) :
    Displays (demo 2) out t ↔ Wanted (demo 2) [.dynamic] 1 t :=
  magic_exact_partial (demo 2) (demo_tidy 2) [.dynamic] 4 3 1 (demo_reached_last 2) out h t

/-- `magic_given_partial` applies. -/
example : ∃ out, magic (demo 2) [.dynamic] 4 3 true (some 2) = .shows out :=
  magic_given_partial (demo 2) (demo_tidy 2) [.dynamic] {0, 1, 2} (by decide) 4 (by decide) 3 1
    (demo_reached_last 2) (by
      rintro s pid ⟨c, _, hp⟩
      by_cases hs : c = .dynamic ∧ s = 2
      · have : pid ∈ (if c = .dynamic ∧ s = 2 then [(0 : Fin 3)] else []) := hp
        rw [if_pos hs] at this
        simp only [List.mem_singleton] at this
        subst this
        obtain ⟨_, rfl⟩ := hs
        exact ⟨0, [], [], rfl, .inl (by show demoStamp 0 ≤ demoStamp 2; decide), by simp⟩
      · have : pid ∈ (if c = .dynamic ∧ s = 2 then [(0 : Fin 3)] else []) := hp
        rw [if_neg hs] at this
        simp at this)

/-- `unfinished_raises` applies after a third statement has been typed into cell 1. -/
example : ∃ e, slice (demo 3) [.dynamic] 4 true false 0 = .error e :=
  (unfinished_raises (demo 3) (demo_tidy 3) [.dynamic] 4 3 0 2 (demo_reached 3) (by decide) false).2

/-- `shortened_missing` applies after the second statement of cell 1 has been taken out. -/
example : magic (demo 1) [.dynamic] 4 3 true (some 1) = .shows (.stmts [0]) := by rfl
example : ¬ Displays (demo 1) (.stmts [0]) ⟨1, 1⟩ :=
  (shortened_missing (demo 1) (demo_tidy 1) [.dynamic] 4 3 0 2 (demo_reached 1) (fun _ => rfl) _
    rfl 1 (by decide) (by decide)).2

/-- `whole_cells_shown` applies: the slice of cell 2 shows `b = 2`, which it does not need. -/
example : slice (demo 2) [.dynamic] 4 true false 1 = .ok (.cells [0, 1]) := by rfl
example : Displays (demo 2) (.cells [0, 1]) ⟨1, 1⟩ :=
  whole_cells_shown (demo 2) (demo_tidy 2) [.dynamic] 4 false 1 _ rfl 2 0 demo_own
    (.single demo_depends) 0 rfl 1 (by decide)

/-- `flag_without_effect` applies. -/
example : slice (demo 2) [.dynamic] 4 false false 1 = .ok (.cells [0, 1]) := by rfl
example : Linked (demo 2) [.dynamic] := by
  rintro s s' k k' ⟨pid, ⟨c, _, hp⟩, newer, older, hch, _, _⟩ hk hk'
  have hp' : pid ∈ (if c = .dynamic ∧ s = 2 then [(0 : Fin 3)] else []) := hp
  by_cases hs : c = .dynamic ∧ s = 2
  · rw [if_pos hs] at hp'
    simp only [List.mem_singleton] at hp'
    subst hp'
    obtain ⟨_, rfl⟩ := hs
    have hch' : [(0 : Fin 3)] = newer ++ s' :: older := hch
    have : s' = 0 := by
      cases newer with
      | nil => simp at hch'; exact hch'.1.symm
      | cons x xs => simp at hch'
    subst this
    match k, k' with
    | 0, _ => exact absurd hk (by decide)
    | 1, 1 => exact absurd hk' (by decide)
    | 1, 0 =>
      exact .inr ⟨0, ⟨.dynamic, by simp, by simp [demo]⟩, [], [], rfl,
        .inl (by show demoCellStamp 0 ≤ demoCellStamp 1; decide), by simp⟩
  · rw [if_neg hs] at hp'
    simp at hp'

/-- `code_shows_others` applies: `cell.code(stmts=True)` of cell 2 shows cell 1. -/
example : slice (demo 2) [.dynamic] 4 true true 1 = .ok (.cells [0, 1]) := by rfl
example : Displays (demo 2) (.cells [0, 1]) ⟨1, 0⟩ :=
  (code_shows_others (demo 2) (demo_tidy 2) [.dynamic] 4 1 _ rfl 2 0 demo_own demo_depends 0
    (by decide) rfl (by decide)).1

/-- `never_warns` applies: `%flow slice 7`. -/
example : magic (demo 2) [.dynamic] 4 3 true (some 7) = .raises .crash :=
  (never_warns (demo 2) [.dynamic] 4 3 true (some 7)).2 (by decide) (demo_tidy 2)

end Verif.Parts
