import Verif.Slice.Props
import Mathlib.Data.Finset.Range

/-! Slices of a notebook whose cells can have several statements, each of which was run once. -/

namespace Verif.Slice.Order
open Verif

/-- `time` statements with timestamps `st`, links made when they ran (`edges`) and by static analysis (`stat`), as `slicing/mixin.py`
421-452 and `data_model/statement.py` 170-183 read them. -/
def world (time : Nat) (st : Nat → Timestamp) (edges stat : Nat → List Nat) : Slice.World Nat Nat where
  ts := st
  parents
    | .dynamic, t => edges t
    | .static, t => stat t
  chain t := if t < time then [t] else []
  override _ := false
  at' ts := (List.range time).find? (fun t => decide (st t = ts))

/-- The slice for the statements `T`, with links of both kinds: `slicing/mixin.py` 421-452 with `slicing/context.py` 25-57. -/
def slice (time : Nat) (st : Nat → Timestamp) (edges stat : Nat → List Nat) (T : List Nat) : Except Err (List Nat) :=
  Slice.makeMultiSlice (world time st edges stat) [.dynamic, .static] (time + 1) ((T.map st).map .time) false

/-- `t` is `s` or is linked to from it, over any number of links. -/
inductive Reach (edges stat : Nat → List Nat) : Nat → Nat → Prop
  | refl (s : Nat) : Reach edges stat s s
  | step {s t u : Nat} : Reach edges stat s t → (u ∈ edges t ∨ u ∈ stat t) → Reach edges stat s u

theorem at_stamp (time : Nat) (st : Nat → Timestamp) (edges stat : Nat → List Nat)
    (hm : ∀ a b, a < b → b < time → st a ≤ st b ∧ st a ≠ st b) (t : Nat) (h : t < time) :
    (world time st edges stat).at' (st t) = some t := by
  show (List.range time).find? (fun u => decide (st u = st t)) = some t
  rw [List.find?_eq_some_iff_append]
  refine ⟨by simp, List.range t, (List.range (time - t - 1)).map (· + (t + 1)), ?_, ?_⟩
  · have e : time = t + ((time - t - 1) + 1) := by omega
    conv_lhs => rw [e, List.range_add, List.range_succ_eq_map]
    simp only [List.map_cons, Nat.add_zero, List.map_map]
    congr 2
    refine List.map_congr_left fun a _ => ?_
    simp only [Function.comp]; omega
  · intro a ha
    have := (hm a t (List.mem_range.1 ha) h).2
    simp [this]

/-- If links lead to statements that are not later, there is a slice, it is in order, and it has exactly the statements that can be reached. -/
theorem slice_ok (time : Nat) (st : Nat → Timestamp) (edges stat : Nat → List Nat)
    (hm : ∀ a b, a < b → b < time → st a ≤ st b ∧ st a ≠ st b)
    (hd : ∀ t, t < time → ∀ u ∈ edges t, u ≤ t) (he : ∀ t, t < time → ∀ u ∈ stat t, u ≤ t) (T : List Nat)
    (hT : ∀ t ∈ T, t < time) :
    ∃ C, slice time st edges stat T = .ok C ∧ C.Pairwise (· < ·) ∧ ∀ c, c ∈ C ↔ ∃ t ∈ T, Reach edges stat t c := by
  have hle' : ∀ a b, a ≤ b → b < time → st a ≤ st b := by
    intro a b h hb
    rcases Nat.lt_or_ge a b with h' | h'
    · exact (hm a b h' hb).1
    · have : a = b := by omega
      subst this; rw [Timestamp.le_def]; omega
  have hrec : ∀ x pid, Slice.RecordedParent (world time st edges stat) [.dynamic, .static] x pid ↔ pid ∈ edges x ∨ pid ∈ stat x := by
    intro x pid
    constructor
    · rintro ⟨c, _, hp⟩
      cases c with
      | dynamic => exact .inl hp
      | static => exact .inr hp
    · rintro (h | h)
      · exact ⟨.dynamic, by simp, h⟩
      · exact ⟨.static, by simp, h⟩
  have hle : ∀ x pid, x < time → (pid ∈ edges x ∨ pid ∈ stat x) → pid ≤ x := by
    rintro x pid hx (h | h)
    · exact hd x hx pid h
    · exact he x hx pid h
  have hden : ∀ s ∈ (T.map st).map Slice.Seed.time, ∀ x, Slice.Denotes (world time st edges stat) s x → x ∈ T := by
    intro s hs x hd
    obtain ⟨ts, hts, rfl⟩ := List.mem_map.1 hs
    obtain ⟨t, ht, rfl⟩ := List.mem_map.1 hts
    have : some t = some x := (at_stamp time st edges stat hm t (hT t ht)).symm.trans hd
    cases this; exact ht
  have hdep : ∀ x y, Slice.DependsOn (world time st edges stat) [.dynamic, .static] x y → (y ∈ edges x ∨ y ∈ stat x) ∧ y < time := by
    rintro x y ⟨pid, hr, newer, older, e, _⟩
    have hc : (world time st edges stat).chain pid = if pid < time then [pid] else [] := rfl
    rw [hc] at e
    split at e
    · have : y ∈ [pid] := by rw [e]; simp
      simp at this; subst this; exact ⟨(hrec x y).1 hr, by assumption⟩
    · simp at e
  have hstar : ∀ x y, x < time → Slice.DependsOnStar (world time st edges stat) [.dynamic, .static] x y → y < time ∧ Reach edges stat x y := by
    intro x y hx hr
    induction hr with
    | refl => exact ⟨hx, .refl _⟩
    | tail _ hs ih => exact ⟨(hdep _ _ hs).2, .step ih.2 (hdep _ _ hs).1⟩
  obtain ⟨C, hC⟩ := (Slice.slice_terminates_and_raises_iff (world time st edges stat) [.dynamic, .static] (Finset.range time)
    (fun x _ y hd => Finset.mem_range.2 (hdep x y hd).2) ((T.map st).map .time)
    (fun s hs x hd => Finset.mem_range.2 (hT x (hden s hs x hd))) (time + 1) (by simp)).2 (by
      intro s hs
      obtain ⟨ts, hts, rfl⟩ := List.mem_map.1 hs
      obtain ⟨t, ht, rfl⟩ := List.mem_map.1 hts
      refine ⟨t, at_stamp time st edges stat hm t (hT t ht), fun y hy pid hr => ?_⟩
      have hy' := (hstar t y (hT t ht) hy).1
      have hlt := hle _ _ hy' ((hrec _ _).1 hr)
      refine ⟨pid, [], [], ?_, .inl (hle' _ _ hlt hy'), fun z hz => by cases hz⟩
      show (if pid < time then [pid] else []) = _
      rw [if_pos (by omega)]; rfl)
  have hclosed := Slice.slice_dependency_closed _ _ _ _ _ hC
  have hmin := Slice.slice_minimal _ _ _ _ _ hC
  have hsorted := Slice.slice_sorted_nodup _ _ _ _ _ _ hC
  have hlt : ∀ c ∈ C, c < time := fun c hc => by
    obtain ⟨s, hs, x, hd, hr⟩ := hmin c hc
    exact (hstar x c (hT x (hden s hs x hd)) hr).1
  refine ⟨C, hC, ?_, fun c => ⟨fun hc => ?_, ?_⟩⟩
  · have := hsorted.1.and hsorted.2
    refine this.imp_of_mem fun {a b} ha hb ⟨h1, h2⟩ => ?_
    rcases Nat.lt_trichotomy a b with h | h | h
    · exact h
    · exact absurd h h2
    · have h3 := hm b a h (hlt a ha)
      have h4 : st a = st b := by
        have h1' : st a ≤ st b := h1
        rw [Timestamp.le_def] at h1'
        have h3' := h3.1
        rw [Timestamp.le_def] at h3'
        cases ha' : st a with | mk a1 a2 =>
        cases hb' : st b with | mk b1 b2 =>
        rw [ha', hb'] at h1' h3'
        simp only at h1' h3'
        have : a1 = b1 ∧ a2 = b2 := by omega
        rw [this.1, this.2]
      exact absurd h4.symm h3.2
  · obtain ⟨s, hs, x, hd, hr⟩ := hmin c hc
    exact ⟨x, hden s hs x hd, (hstar x c (hT x (hden s hs x hd)) hr).2⟩
  · rintro ⟨t, ht, hr⟩
    induction hr with
    | refl =>
      obtain ⟨x, hx, hd⟩ := hclosed.1 (.time (st t)) (List.mem_map.2 ⟨_, List.mem_map.2 ⟨t, ht, rfl⟩, rfl⟩)
      have : some t = some x := (at_stamp time st edges stat hm t (hT t ht)).symm.trans hd
      cases this; exact hx
    | @step a b _ hl ih =>
      obtain ⟨y, hy, newer, older, e, _⟩ := hclosed.2 a ih b ((hrec a b).2 hl)
      have hc : (world time st edges stat).chain b = if b < time then [b] else [] := rfl
      rw [hc] at e
      split at e
      · have : y ∈ [b] := by rw [e]; simp
        simp at this; subst this; exact hy
      · simp at e

end Verif.Slice.Order
