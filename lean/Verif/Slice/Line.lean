import Verif.Slice.Props
import Mathlib.Data.Finset.Range

/-! Slices of a notebook in which each cell has one statement and is run once. -/

namespace Verif.Slice.Line
open Verif

/-- The timestamp of the statement in the cell that was run as number `t`, `data_model/timestamp.py` 36-48. -/
def stamp (t : Nat) : Timestamp := ⟨t + 1, 0⟩

/-- `time` statements with links made when they ran (`edges`) and by static analysis (`stat`), as `slicing/mixin.py` 421-452 and
`data_model/statement.py` 170-183 read them. -/
def world (time : Nat) (edges stat : Nat → List Nat) : Slice.World Nat Nat where
  ts := stamp
  parents
    | .dynamic, t => edges t
    | .static, t => stat t
  chain t := if t < time then [t] else []
  override _ := false
  at' ts := if ts.stmtNum = 0 ∧ 1 ≤ ts.cellNum ∧ ts.cellNum ≤ time then some (ts.cellNum - 1).toNat else none

/-- The slice for the statements `T`, with links of both kinds: `slicing/mixin.py` 421-452 with `slicing/context.py` 25-57. -/
def slice (time : Nat) (edges stat : Nat → List Nat) (T : List Nat) : Except Err (List Nat) :=
  Slice.makeMultiSlice (world time edges stat) [.dynamic, .static] (time + 1) ((T.map stamp).map .time) false

/-- `t` is `s` or is linked to from it, over any number of links. -/
inductive Reach (edges stat : Nat → List Nat) : Nat → Nat → Prop
  | refl (s : Nat) : Reach edges stat s s
  | step {s t u : Nat} : Reach edges stat s t → (u ∈ edges t ∨ u ∈ stat t) → Reach edges stat s u

theorem stamp_le {a b : Nat} : stamp a ≤ stamp b ↔ a ≤ b := by
  rw [Timestamp.le_def]; simp only [stamp]; omega

theorem at_stamp (time : Nat) (edges stat : Nat → List Nat) (t : Nat) (h : t < time) : (world time edges stat).at' (stamp t) = some t := by
  have h1 : ((t : Int) + 1) ≤ time := by omega
  have h2 : (1 : Int) ≤ (t : Int) + 1 := by omega
  show (if (stamp t).stmtNum = 0 ∧ 1 ≤ (stamp t).cellNum ∧ (stamp t).cellNum ≤ time then _ else _) = _
  rw [if_pos ⟨rfl, h2, h1⟩]
  simp [stamp]

/-- If links lead to statements that are not later, there is a slice, it is in order, and it has exactly the statements that can be reached. -/
theorem slice_ok (time : Nat) (edges stat : Nat → List Nat) (hd : ∀ t, ∀ u ∈ edges t, u ≤ t) (he : ∀ t, ∀ u ∈ stat t, u ≤ t) (T : List Nat)
    (hT : ∀ t ∈ T, t < time) :
    ∃ C, slice time edges stat T = .ok C ∧ C.Pairwise (· < ·) ∧ ∀ c, c ∈ C ↔ ∃ t ∈ T, Reach edges stat t c := by
  have hrec : ∀ x pid, Slice.RecordedParent (world time edges stat) [.dynamic, .static] x pid ↔ pid ∈ edges x ∨ pid ∈ stat x := by
    intro x pid
    constructor
    · rintro ⟨c, _, hp⟩
      cases c with
      | dynamic => exact .inl hp
      | static => exact .inr hp
    · rintro (h | h)
      · exact ⟨.dynamic, by simp, h⟩
      · exact ⟨.static, by simp, h⟩
  have hle : ∀ x pid, (pid ∈ edges x ∨ pid ∈ stat x) → pid ≤ x := by
    rintro x pid (h | h)
    · exact hd x pid h
    · exact he x pid h
  have hden : ∀ s ∈ (T.map stamp).map Slice.Seed.time, ∀ x, Slice.Denotes (world time edges stat) s x → x ∈ T := by
    intro s hs x hd
    obtain ⟨ts, hts, rfl⟩ := List.mem_map.1 hs
    obtain ⟨t, ht, rfl⟩ := List.mem_map.1 hts
    have : some t = some x := (at_stamp time edges stat t (hT t ht)).symm.trans hd
    cases this; exact ht
  have hdep : ∀ x y, Slice.DependsOn (world time edges stat) [.dynamic, .static] x y → (y ∈ edges x ∨ y ∈ stat x) ∧ y < time := by
    rintro x y ⟨pid, hr, newer, older, e, _⟩
    have hc : (world time edges stat).chain pid = if pid < time then [pid] else [] := rfl
    rw [hc] at e
    split at e
    · have : y ∈ [pid] := by rw [e]; simp
      simp at this; subst this; exact ⟨(hrec x y).1 hr, by assumption⟩
    · simp at e
  have hstar : ∀ x y, x < time → Slice.DependsOnStar (world time edges stat) [.dynamic, .static] x y → y < time ∧ Reach edges stat x y := by
    intro x y hx hr
    induction hr with
    | refl => exact ⟨hx, .refl _⟩
    | tail _ hs ih => exact ⟨(hdep _ _ hs).2, .step ih.2 (hdep _ _ hs).1⟩
  obtain ⟨C, hC⟩ := (Slice.slice_terminates_and_raises_iff (world time edges stat) [.dynamic, .static] (Finset.range time)
    (fun x _ y hd => Finset.mem_range.2 (hdep x y hd).2) ((T.map stamp).map .time)
    (fun s hs x hd => Finset.mem_range.2 (hT x (hden s hs x hd))) (time + 1) (by simp)).2 (by
      intro s hs
      obtain ⟨ts, hts, rfl⟩ := List.mem_map.1 hs
      obtain ⟨t, ht, rfl⟩ := List.mem_map.1 hts
      refine ⟨t, at_stamp time edges stat t (hT t ht), fun y hy pid hr => ?_⟩
      have hlt := hle _ _ ((hrec _ _).1 hr)
      have hy' := (hstar t y (hT t ht) hy).1
      refine ⟨pid, [], [], ?_, .inl (stamp_le.2 hlt), fun z hz => by cases hz⟩
      show (if pid < time then [pid] else []) = _
      rw [if_pos (by omega)]; rfl)
  have hclosed := Slice.slice_dependency_closed _ _ _ _ _ hC
  have hmin := Slice.slice_minimal _ _ _ _ _ hC
  have hsorted := Slice.slice_sorted_nodup _ _ _ _ _ _ hC
  have hlt : ∀ c ∈ C, c < time := fun c hc => by
    obtain ⟨s, hs, x, hd, hr⟩ := hmin c hc
    exact (hstar x c (hT x (hden s hs x hd)) hr).1
  refine ⟨C, hC, ?_, fun c => ⟨fun hc => ?_, ?_⟩⟩
  · have := hsorted.1.and hsorted.2
    exact this.imp fun {a b} ⟨h1, h2⟩ => by
      have : a ≤ b := stamp_le.1 h1
      omega
  · obtain ⟨s, hs, x, hd, hr⟩ := hmin c hc
    exact ⟨x, hden s hs x hd, (hstar x c (hT x (hden s hs x hd)) hr).2⟩
  · rintro ⟨t, ht, hr⟩
    induction hr with
    | refl =>
      obtain ⟨x, hx, hd⟩ := hclosed.1 (.time (stamp t)) (List.mem_map.2 ⟨_, List.mem_map.2 ⟨t, ht, rfl⟩, rfl⟩)
      have : some t = some x := (at_stamp time edges stat t (hT t ht)).symm.trans hd
      cases this; exact hx
    | @step a b _ hl ih =>
      obtain ⟨y, hy, newer, older, e, _⟩ := hclosed.2 a ih b ((hrec a b).2 hl)
      have hc : (world time edges stat).chain b = if b < time then [b] else [] := rfl
      rw [hc] at e
      split at e
      · have : y ∈ [b] := by rw [e]; simp
        simp at this; subst this; exact hy
      · simp at e

end Verif.Slice.Line
