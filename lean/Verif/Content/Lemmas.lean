import Verif.Content.Spec

/-! Lookups in the kernel after a message. -/

namespace Verif.Content
open Spec

variable {S : Type} [DecidableEq S]

theorem screen_after (check : String → Outcome S) (es : List (Event S)) : (after check es).screen = screen es := by
  induction es with
  | nil => rfl
  | cons e past ih =>
    cases e with
    | edit s => rfl
    | settle =>
      show (settle check (after check past)).screen = screen past
      unfold settle
      split
      · exact ih
      · exact ih
    | ask r d =>
      show (step check (after check past) (.ask r d)).screen = screen past
      simp only [step]
      split
      · exact ih
      · exact ih
    | run i w => exact ih

theorem last_after (check : String → Outcome S) (es : List (Event S)) : (after check es).last = rested es := by
  induction es with
  | nil => rfl
  | cons e past ih =>
    cases e with
    | edit s => exact ih
    | settle =>
      show (settle check (after check past)).last = some (screen past)
      unfold settle
      split
      · rename_i h; rw [h, screen_after]
      · rw [← screen_after check past]
    | ask r d =>
      show (step check (after check past) (.ask r d)).last = rested past
      simp only [step]
      split
      · exact ih
      · exact ih
    | run i w => exact ih

theorem screen_nodup {es : List (Event S)} (h : Distinct es) : ((screen es).map (·.id)).Nodup := by
  induction es with
  | nil => simp [screen]
  | cons e past ih =>
    have hp : Distinct past := fun s hs => h s (List.mem_cons_of_mem _ hs)
    cases e with
    | edit s => exact h s (List.mem_cons_self ..)
    | settle => exact ih hp
    | ask r d => exact ih hp
    | run i w => exact ih hp

theorem contents_nodup {s : Screen} (h : (s.map (·.id)).Nodup) : (Assoc.keys (contents s)).Nodup := by
  unfold contents Assoc.keys
  rw [List.map_map]
  exact (h.sublist ((List.filter_sublist).map _))

theorem mem_contents {s : Screen} {id : Nat} {c : String} : (id, c) ∈ contents s ↔ Shows s id c := by
  unfold contents Shows
  simp only [List.mem_map, List.mem_filter, decide_eq_true_eq]
  constructor
  · rintro ⟨⟨i, k, d⟩, ⟨hm, hk⟩, he⟩
    simp only [Prod.mk.injEq] at he hk
    obtain ⟨rfl, rfl⟩ := he
    subst hk
    exact hm
  · intro h
    exact ⟨_, ⟨h, rfl⟩, rfl⟩

theorem codeIn_iff {s : Screen} (h : (s.map (·.id)).Nodup) {id : Nat} {c : String} :
    codeIn s id = some c ↔ Shows s id c := by
  unfold codeIn
  rw [Assoc.get_eq_some_iff (contents_nodup h), mem_contents]

theorem checkAll_flag {check : String → Outcome S} (ht : Tame check) (m : List (Nat × String))
    (cells : List (Nat × Cell S)) : (checkAll check m cells).2 = false := by
  induction m generalizing cells with
  | nil => rfl
  | cons p rest ih =>
    obtain ⟨id, c⟩ := p
    simp only [checkAll]
    cases hg : Assoc.get cells id with
    | none => exact ih cells
    | some cell =>
      cases hc : check c with
      | ok l md => exact ih _
      | syntaxError => exact ih _
      | crash => exact absurd hc (ht c)

theorem checkAll_other {check : String → Outcome S} (m : List (Nat × String)) (cells : List (Nat × Cell S)) {id : Nat}
    (h : id ∉ Assoc.keys m) : Assoc.get (checkAll check m cells).1 id = Assoc.get cells id := by
  induction m generalizing cells with
  | nil => rfl
  | cons p rest ih =>
    obtain ⟨i, c⟩ := p
    have hne : id ≠ i := fun hh => h (by simp [Assoc.keys, hh])
    have hr : id ∉ Assoc.keys rest := fun hh => h (by
      simp only [Assoc.keys, List.map_cons, List.mem_cons] at hh ⊢
      exact Or.inr hh)
    simp only [checkAll]
    cases hg : Assoc.get cells i with
    | none => exact ih cells hr
    | some cell =>
      cases hc : check c with
      | ok l md =>
        dsimp only
        rw [ih _ hr, Assoc.get_set_ne _ _ hne]
      | syntaxError => exact ih _ hr
      | crash => exact Assoc.get_set_ne _ _ hne

/-- The cell after the second loop, `comm_manager.py` 245-275. -/
def Checked (check : String → Outcome S) (cell : Cell S) (c : String) : Cell S :=
  match check c with
  | .ok live mods => recorded cell c live mods
  | _ => cell

theorem checkAll_get {check : String → Outcome S} (ht : Tame check) (m : List (Nat × String))
    (hn : (Assoc.keys m).Nodup) (cells : List (Nat × Cell S)) {id : Nat} {c : String} {cell : Cell S}
    (hm : (id, c) ∈ m) (hg : Assoc.get cells id = some cell) :
    Assoc.get (checkAll check m cells).1 id = some (Checked check cell c) := by
  induction m generalizing cells with
  | nil => simp at hm
  | cons p rest ih =>
    obtain ⟨i, d⟩ := p
    have hn' : i ∉ Assoc.keys rest ∧ (Assoc.keys rest).Nodup := by
      simpa [Assoc.keys] using hn
    by_cases he : id = i
    · subst he
      have hcd : c = d := by
        rcases List.mem_cons.1 hm with h | h
        · exact (Prod.mk.inj h).2
        · exact absurd (List.mem_map.2 ⟨_, h, rfl⟩) hn'.1
      subst hcd
      simp only [checkAll, hg, Checked]
      cases hc : check c with
      | ok l md =>
        dsimp only
        rw [checkAll_other _ _ hn'.1, Assoc.get_set_self]
      | syntaxError =>
        dsimp only
        rw [checkAll_other _ _ hn'.1, hg]
      | crash => exact absurd hc (ht c)
    · have hm' : (id, c) ∈ rest := by
        rcases List.mem_cons.1 hm with h | h
        · exact absurd (Prod.mk.inj h).1 he
        · exact h
      simp only [checkAll]
      cases hg' : Assoc.get cells i with
      | none => exact ih hn'.2 cells hm' hg
      | some cell' =>
        cases hc : check d with
        | ok l md => exact ih hn'.2 _ hm' (by rw [Assoc.get_set_ne _ _ he, hg])
        | syntaxError => exact ih hn'.2 _ hm' hg
        | crash => exact absurd hc (ht d)

theorem checkAll_none {check : String → Outcome S} (m : List (Nat × String)) (cells : List (Nat × Cell S)) {id : Nat}
    (hg : Assoc.get cells id = none) : Assoc.get (checkAll check m cells).1 id = none := by
  induction m generalizing cells with
  | nil => exact hg
  | cons p rest ih =>
    obtain ⟨i, c⟩ := p
    simp only [checkAll]
    cases hi : Assoc.get cells i with
    | none => exact ih cells hg
    | some cell =>
      have hne : id ≠ i := by
        rintro rfl
        rw [hg] at hi
        exact absurd hi (by simp)
      cases hc : check c with
      | ok l md => exact ih _ (by rw [Assoc.get_set_ne _ _ hne, hg])
      | syntaxError => exact ih _ hg
      | crash =>
        show Assoc.get (Assoc.set cells i _) id = none
        rw [Assoc.get_set_ne _ _ hne, hg]

theorem createAll_some (m : List (Nat × String)) (cells : List (Nat × Cell S)) {id : Nat} {cell : Cell S}
    (hg : Assoc.get cells id = some cell) : Assoc.get (createAll m cells) id = some cell := by
  induction m generalizing cells with
  | nil => exact hg
  | cons p rest ih =>
    obtain ⟨i, c⟩ := p
    simp only [createAll]
    cases hi : Assoc.get cells i with
    | some x => exact ih cells hg
    | none =>
      have hne : id ≠ i := by
        rintro rfl
        rw [hg] at hi
        exact absurd hi (by simp)
      exact ih _ (by rw [Assoc.get_set_ne _ _ hne, hg])

theorem createAll_none (m : List (Nat × String)) (cells : List (Nat × Cell S)) {id : Nat}
    (hg : Assoc.get cells id = none) :
    Assoc.get (createAll m cells) id = (Assoc.get m id).map (fun c => Cell.fresh c (-1) []) := by
  induction m generalizing cells with
  | nil => exact hg
  | cons p rest ih =>
    obtain ⟨i, c⟩ := p
    simp only [createAll, Assoc.get]
    by_cases he : i = id
    · subst he
      rw [hg, if_pos rfl]
      dsimp only
      exact createAll_some _ _ (Assoc.get_set_self _ _ _)
    · rw [if_neg he]
      cases hi : Assoc.get cells i with
      | some x => exact ih cells hg
      | none => exact ih _ (by rw [Assoc.get_set_ne _ _ (Ne.symm he), hg])

/-- Whether the second loop is entered, `comm_manager.py` 231-243, 323-328. -/
def Entered (k : Kernel S) (s : Screen) (reactive : Bool) : Prop :=
  reactive = false ∧ (orderOf s ≠ k.order ∨ ∃ p ∈ contents s, outdated k p.1 p.2 = true)

theorem checkedCells_entered {check : String → Outcome S} {k : Kernel S} {s : Screen} {r : Bool}
    (h : Entered k s r) : checkedCells check k s r = checkAll check (contents s) k.cells := by
  obtain ⟨rfl, h⟩ := h
  unfold checkedCells recompute
  rw [if_neg (by simp), if_pos]
  simp only [Bool.or_eq_true, decide_eq_true_eq, List.any_eq_true]
  exact h

theorem checkedCells_not {check : String → Outcome S} {k : Kernel S} {s : Screen} {r : Bool}
    (h : ¬ Entered k s r) : checkedCells check k s r = (k.cells, false) := by
  unfold checkedCells recompute
  cases r with
  | true => rw [if_pos rfl]
  | false =>
    rw [if_neg (by simp), if_neg]
    simp only [Bool.or_eq_true, decide_eq_true_eq, List.any_eq_true]
    exact fun hh => h ⟨rfl, hh⟩

theorem notify_none {check : String → Outcome S} (ht : Tame check) {k : Kernel S} {s : Screen} {r : Bool} {id : Nat}
    (hg : Assoc.get k.cells id = none) :
    Assoc.get (notify check k s r).cells id = (codeIn s id).map (fun c => Cell.fresh c (-1) []) := by
  unfold notify
  dsimp only
  by_cases he : Entered k s r
  · rw [checkedCells_entered he, checkAll_flag ht, if_neg (by simp)]
    exact createAll_none _ _ (checkAll_none _ _ hg)
  · rw [checkedCells_not he, if_neg (by simp)]
    exact createAll_none _ _ hg

theorem notify_absent {check : String → Outcome S} {k : Kernel S} {s : Screen} {r : Bool} {id : Nat}
    {cell : Cell S} (hg : Assoc.get k.cells id = some cell) (hs : ∀ c, ¬ Shows s id c) :
    Assoc.get (notify check k s r).cells id = some cell := by
  have hk : id ∉ Assoc.keys (contents s) := by
    intro hh
    obtain ⟨⟨i, c⟩, hm, rfl⟩ := List.mem_map.1 hh
    exact hs c (mem_contents.1 hm)
  unfold notify
  dsimp only
  by_cases he : Entered k s r
  · rw [checkedCells_entered he]
    split
    · rw [checkAll_other _ _ hk, hg]
    · exact createAll_some _ _ (by rw [checkAll_other _ _ hk, hg])
  · rw [checkedCells_not he, if_neg (by simp)]
    exact createAll_some _ _ hg

theorem notify_entered {check : String → Outcome S} (ht : Tame check) {k : Kernel S} {s : Screen} {r : Bool} {id : Nat}
    {c : String} {cell : Cell S} (hn : (s.map (·.id)).Nodup) (hg : Assoc.get k.cells id = some cell)
    (hs : Shows s id c) (he : Entered k s r) :
    Assoc.get (notify check k s r).cells id = some (Checked check cell c) := by
  unfold notify
  dsimp only
  rw [checkedCells_entered he, checkAll_flag ht, if_neg (by simp)]
  exact createAll_some _ _ (checkAll_get ht _ (contents_nodup hn) _ (mem_contents.2 hs) hg)

theorem notify_skipped {check : String → Outcome S} {k : Kernel S} {s : Screen} {r : Bool} {id : Nat}
    {cell : Cell S} (hg : Assoc.get k.cells id = some cell) (he : ¬ Entered k s r) :
    Assoc.get (notify check k s r).cells id = some cell := by
  unfold notify
  dsimp only
  rw [checkedCells_not he, if_neg (by simp)]
  exact createAll_some _ _ hg

theorem not_outdated {k : Kernel S} {s : Screen} {id : Nat} {c : String} {cell : Cell S}
    (hg : Assoc.get k.cells id = some cell) (hs : Shows s id c) (he : ¬ Entered k s false) :
    cell.content = c ∧ cell.ctr = cell.checkCtr.getD 0 := by
  have h : ¬ outdated k id c = true := fun hh => he ⟨rfl, Or.inr ⟨(id, c), mem_contents.2 hs, hh⟩⟩
  unfold outdated at h
  rw [hg] at h
  dsimp only at h
  rw [Bool.or_eq_true, decide_eq_true_eq, decide_eq_true_eq, not_or, not_not, not_not] at h
  exact h

/-- A message that is heard is handled as a message outside of a reactive run. -/
theorem kernel_heard {check : String → Outcome S} {past : List (Event S)} {e : Event S} (h : Heard past e) :
    (after check (e :: past)).kernel = notify check (after check past).kernel (screen past) false := by
  rcases h with rfl | ⟨rfl, h⟩
  · show (step check _ _).kernel = _
    simp [step, screen_after]
  · show (settle check _).kernel = _
    unfold settle
    rw [if_neg (by rw [last_after, screen_after]; exact h), screen_after]

theorem screen_heard {past : List (Event S)} {e : Event S} (h : Heard past e) : screen (e :: past) = screen past := by
  rcases h with rfl | ⟨rfl, _⟩ <;> rfl

end Verif.Content
