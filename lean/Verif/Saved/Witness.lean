import Verif.Saved.Props

/-!
# Saved links: cases that meet the hypotheses -/

namespace Verif.Saved
open Verif Verif.Slice Verif.Sched

/-- What else a schedule depends on. -/
def rest : Sched.World Id Sym where
  schedule := .dag
  flowOrder := .inOrder
  ctxs := [.dynamic, .static]
  pull := true
  minTimestamp := -1
  minNewReady := 2
  minForcedReactive := 2
  cellCounter := 4
  fake := none
  shallowTs := fun _ => ⟨1, 0⟩
  visibleTs := fun _ => none
  implicitVirtual := fun _ => false
  updatedCells := fun _ => {1}
  pos := fun _ => ⊤
  ctr := fun _ => -1
  wasReady := fun _ => false
  parents := fun _ _ => []
  removed := fun _ => ∅
  staticWrites := fun _ => ∅
  lastModified := fun _ => none
  ownerOf := fun _ => none
  check := fun _ => none
  lastExecuted := none

/-- A notebook in which cell 3 depends on cells 1 and 2, and in which cell 9 that depended on cell 1 is gone. Cells 4 and 5 depend on each other. -/
def note : Note := { parents := [(1, ∅), (2, ∅), (3, {1, 2}), (9, {1}), (4, {5}), (5, {4})], children := [(1, {3, 9}), (2, {3}), (4, {5}), (5, {4})] }

theorem keyed_note : Keyed note := by unfold Keyed; decide

theorem p31 : Parent note [] 3 1 := ⟨{1, 2}, rfl, by decide⟩
theorem p32 : Parent note [] 3 2 := ⟨{1, 2}, rfl, by decide⟩
theorem p91 : Parent note [] 9 1 := ⟨{1}, rfl, by decide⟩

theorem n13 : ¬Parent note [] 1 3 := by
  rintro ⟨L, h1, h2⟩
  have h1 : some (∅ : Finset Id) = some L := h1
  injection h1 with h1
  subst h1
  cases h2

theorem n23 : ¬Parent note [] 2 3 := by
  rintro ⟨L, h1, h2⟩
  have h1 : some (∅ : Finset Id) = some L := h1
  injection h1 with h1
  subst h1
  cases h2

/-- The notebook when it is opened again. -/
def cells : List Id := [1, 2, 3, 4, 5]

/-- Cell 5 runs. -/
def s5 : List Event := [.done 5, .start 5]

/-- Cell 2 runs, and cell 3 is found to read a value of it. -/
def s2 : List Event := [.edge .static 3 2 7, .done 2, .start 2]

/-- Cell 1 runs, and cell 3 is found to read a value of it. -/
def s1 : List Event := [.edge .static 3 1 7, .done 1, .start 1]

theorem one5 : OneSession s5 := by intro f nb h; simp [s5] at h
theorem one2 : OneSession s2 := by intro f nb h; simp [s2] at h
theorem one1 : OneSession s1 := by intro f nb h; simp [s1] at h
theorem ran5 {i : Id} (h : i ≠ 5) : ¬Ran s5 i := by simp [Ran, s5, h]
theorem ran2 {i : Id} (h : i ≠ 2) : ¬Ran s2 i := by simp [Ran, s2, h]
theorem ran1 {i : Id} (h : i ≠ 1) : ¬Ran s1 i := by simp [Ran, s1, h]

/-- Before cells run, links are as saved. -/
example : shown note ([.sched rest, .told [1, 3, 2], .sched rest] ++ .connect .inOrder cells :: []) = note :=
  before_runs (by intro f nb h; simp at h) (by rintro ⟨c, h⟩; simp [Ran] at h)

/-- After a run of cell 5, cell 3 still has its links, in any order. -/
example : Parent note (.sched rest :: (s5 ++ .connect .anyOrder cells :: [])) 3 1 :=
  kept_any_order_partial keyed_note rfl one5 (by decide) (by decide) (by decide) p31 n13 (ran5 (by decide)) (ran5 (by decide)) (by decide)

/-- And in order. -/
example : Parent note (.sched rest :: (s5 ++ .connect .inOrder cells :: [])) 3 1 :=
  kept_in_order_partial keyed_note one5 (by decide) (by decide) (by decide) p31 n13 (ran5 (by decide)) (ran5 (by decide)) ⟨by decide, by decide⟩
    (by intro p n h; simp [s5] at h) (by decide)

/-- After a run of cell 2, cell 3 no longer has cell 1 as a parent. -/
example : ¬Parent note (.sched rest :: (s2 ++ .connect .inOrder cells :: [])) 3 1 :=
  hidden_saved (q := 2) keyed_note rfl one2 (by decide) (by decide) (by decide) p32 n23 (ran2 (by decide)) ⟨[], [.done 2, .start 2], 7, rfl, by simp [Ran]⟩
    ⟨by decide, by decide⟩ ⟨by decide, by decide⟩

/-- After a run of cell 1, cell 3 does not have cell 1 as a parent although it reads a value of it. -/
example : ¬Parent note (.sched rest :: (s1 ++ .connect .inOrder cells :: [])) 3 1 :=
  hidden_read (q := 2) keyed_note rfl one1 (by decide) (by decide) (by decide) p32 n23 n13 (ran1 (by decide)) ⟨[], [.done 1, .start 1], 7, rfl, by simp [Ran]⟩
    ⟨by decide, by decide⟩ ⟨by decide, by decide⟩ (by intro m h; cases h) (by intro m; rfl)

/-- Nor does it after another restart, in any order, until it is found to use something of cell 1. -/
example : ¬Parent note ([.sched rest, .done 5, .start 5] ++ .connect .anyOrder cells :: (.sched rest :: (s2 ++ .connect .inOrder cells :: []))) 3 1 :=
  never_back keyed_note
    (hidden_saved (q := 2) keyed_note rfl one2 (by decide) (by decide) (by decide) p32 n23 (ran2 (by decide)) ⟨[], [.done 2, .start 2], 7, rfl, by simp [Ran]⟩
      ⟨by decide, by decide⟩ ⟨by decide, by decide⟩)
    (by intro x m h; simp at h)

/-- A run of cell 1 in which nothing is found drops the link to it. -/
example : ¬Parent note (.sched rest :: ([.done 1, .start 1] ++ .connect .anyOrder cells :: [])) 3 1 :=
  run_drops (by intro f nb h; simp at h) (.inl (by decide)) (by simp [Ran]) (by intro x m h; simp at h)

/-- The links of a present cell do not go to cells that are gone. -/
example : Known cells s5 1 :=
  known_only (n := note) (f := .inOrder) (h₀ := []) (w := rest) (c := 3) one5 ⟨5, by simp [Ran, s5]⟩ (.inl (by decide))
    (kept_in_order_partial keyed_note one5 (by decide) (by decide) (by decide) p31 n13 (ran5 (by decide)) (ran5 (by decide)) ⟨by decide, by decide⟩
      (by intro p n h; simp [s5] at h) (by decide))

/-- If the cells are told in another order, links to cells that are now below are not kept. -/
example : ¬Parent note (.sched rest :: ((.told [3, 1, 2, 4, 5] :: s5) ++ .connect .inOrder cells :: [])) 3 1 := by
  intro h
  have := upwards rfl (by intro f nb h; simp [s5] at h) ⟨5, by simp [Ran, s5]⟩ (.inl (by decide)) (by decide) h
  exact absurd this.2 (by decide)

/-- Parents and children agree. -/
example : Child note (.sched rest :: (s5 ++ .connect .inOrder cells :: [])) 1 3 :=
  (two_sided one5 ⟨5, by simp [Ran, s5]⟩ (.inl (by decide)) (.inl (by decide))).1
    (kept_in_order_partial keyed_note one5 (by decide) (by decide) (by decide) p31 n13 (ran5 (by decide)) (ran5 (by decide)) ⟨by decide, by decide⟩
      (by intro p n h; simp [s5] at h) (by decide))

/-- Cell 9 is gone, but still has cell 1 as a parent, which does not have it as a child. -/
example : Parent note (.sched rest :: (s5 ++ .connect .inOrder cells :: [])) 9 1 ∧ ¬Child note (.sched rest :: (s5 ++ .connect .inOrder cells :: [])) 1 9 :=
  one_sided one5 ⟨5, by simp [Ran, s5]⟩ (by rintro (h | h | ⟨l, h, _⟩)
                                            · exact absurd h (by decide)
                                            · exact ran5 (by decide) h
                                            · simp [s5] at h) (.inl (by decide)) p91

/-- It keeps its links in all sessions to come. -/
example (f : Flow) : Assoc.get (shown note ([.sched rest, .done 1, .start 1, .connect f [1, 2], .sched rest, .start 3] ++ .connect f cells :: [])).parents 9 = some {1} :=
  gone_stays ⟨by intro g l h; simp at h; rcases h with h | h <;> (rw [h.2]; decide), by intro l h; simp at h, by simp [Ran]⟩

/-- Of the links between cells 4 and 5 one is lost. -/
example : ¬(Parent note (.sched rest :: (s2 ++ .connect .anyOrder cells :: [])) 4 5 ∧ Parent note (.sched rest :: (s2 ++ .connect .anyOrder cells :: [])) 5 4) :=
  both_ways_lost one2 ⟨2, by simp [Ran, s2]⟩ (.inl (by decide)) (.inl (by decide)) (ran2 (by decide)) (ran2 (by decide))

end Verif.Saved
