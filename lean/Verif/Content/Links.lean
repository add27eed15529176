import Verif.Content.Lemmas

/-! C128: a link between two cells goes away with the code that makes it. -/

namespace Verif.Content
open Spec

variable {S : Type} [DecidableEq S]

/-- What always holds of a cell of the kernel. -/
structure Sound (check : String → Outcome S) (cell : Cell S) : Prop where
  pos : cell.ctr ≠ 0
  known : cell.checkCtr.isSome → cell.result.isSome
  result : ∀ r, cell.result = some r → ∃ mods, check cell.content = .ok r.1 mods ∧ ∀ x ∈ mods, x ∈ r.2
  apart : ∀ s ∈ cell.removed, s ∉ prevLive cell

theorem sound_fresh (check : String → Outcome S) (c : String) {n : Int} (hn : n ≠ 0) (w : List S) :
    Sound check (Cell.fresh c n w) :=
  ⟨hn, fun h => by simp [Cell.fresh] at h, fun r h => by simp [Cell.fresh] at h, fun s h => by simp [Cell.fresh] at h⟩

theorem sound_recorded {check : String → Outcome S} {cell : Cell S} (h : Sound check cell) {c : String}
    {live mods : List S} (hc : check c = .ok live mods) : Sound check (recorded cell c live mods) := by
  refine ⟨h.pos, fun _ => rfl, ?_, ?_⟩
  · intro r hr
    simp only [recorded, Option.some.injEq] at hr
    subst hr
    refine ⟨mods, hc, fun x hx => ?_⟩
    show x ∈ modified cell c mods
    unfold modified
    split
    · exact List.mem_append_left _ hx
    · exact hx
  · intro s hs
    simp only [recorded, List.mem_filter, decide_eq_true_eq] at hs
    exact hs.2

theorem sound_checked {check : String → Outcome S} {cell : Cell S} (h : Sound check cell) (c : String) :
    Sound check (Checked check cell c) := by
  unfold Checked
  cases hc : check c with
  | ok l m => exact sound_recorded h hc
  | syntaxError => exact h
  | crash => exact h

theorem notify_cell {check : String → Outcome S} (ht : Tame check) {k : Kernel S} {s : Screen} {r : Bool} {id : Nat}
    (hn : (s.map (·.id)).Nodup) {cell : Cell S} (hg : Assoc.get k.cells id = some cell) :
    Assoc.get (notify check k s r).cells id = some cell ∨
      ∃ c, Shows s id c ∧ Assoc.get (notify check k s r).cells id = some (Checked check cell c) := by
  by_cases hs : ∃ c, Shows s id c
  · obtain ⟨c, hc⟩ := hs
    by_cases he : Entered k s r
    · exact Or.inr ⟨c, hc, notify_entered ht hn hg hc he⟩
    · exact Or.inl (notify_skipped hg he)
  · exact Or.inl (notify_absent hg (fun c h => hs ⟨c, h⟩))

theorem notify_counter (check : String → Outcome S) (k : Kernel S) (s : Screen) (r : Bool) :
    (notify check k s r).counter = k.counter := rfl

theorem kernel_step {check : String → Outcome S} (past : List (Event S)) (e : Event S) :
    (after check (e :: past)).kernel = (after check past).kernel ∨
    (∃ r, (after check (e :: past)).kernel = notify check (after check past).kernel (screen past) r) ∨
    (∃ i w, e = .run i w ∧ (after check (e :: past)).kernel = execute (after check past).kernel (screen past) i w) := by
  cases e with
  | edit s => exact Or.inl rfl
  | settle =>
    by_cases h : rested past = some (screen past)
    · left
      show (settle check _).kernel = _
      unfold settle
      rw [if_pos (by rw [last_after, screen_after, h])]
    · exact Or.inr (Or.inl ⟨false, kernel_heard (Or.inr ⟨rfl, h⟩)⟩)
  | ask r d =>
    cases d with
    | true => exact Or.inl rfl
    | false =>
      refine Or.inr (Or.inl ⟨r, ?_⟩)
      rw [← screen_after check past]
      rfl
  | run i w =>
    refine Or.inr (Or.inr ⟨i, w, rfl, ?_⟩)
    rw [← screen_after check past]
    rfl

theorem distinct_tail {e : Event S} {past : List (Event S)} (h : Distinct (e :: past)) : Distinct past :=
  fun s hs => h s (List.mem_cons_of_mem _ hs)

theorem distinct_drop {more past : List (Event S)} (h : Distinct (more ++ past)) : Distinct past :=
  fun s hs => h s (List.mem_append_right _ hs)

theorem sound_after {check : String → Outcome S} (ht : Tame check) {es : List (Event S)} (hd : Distinct es) :
    0 ≤ (after check es).kernel.counter ∧
    ∀ id cell, Assoc.get (after check es).kernel.cells id = some cell → Sound check cell := by
  induction es with
  | nil => exact ⟨Int.le_refl 0, fun id cell h => by simp [after, start] at h⟩
  | cons e past ih =>
    obtain ⟨h0, ih⟩ := ih (distinct_tail hd)
    rcases kernel_step (check := check) past e with h | ⟨r, h⟩ | ⟨i, w, _, h⟩
    · rw [h]; exact ⟨h0, ih⟩
    · rw [h]
      refine ⟨h0, fun id cell hg => ?_⟩
      cases hk : Assoc.get (after check past).kernel.cells id with
      | none =>
        rw [notify_none ht hk, Option.map_eq_some_iff] at hg
        obtain ⟨c, _, rfl⟩ := hg
        exact sound_fresh check c (by decide) []
      | some cell0 =>
        rcases notify_cell ht (r := r) (screen_nodup (distinct_tail hd)) hk with h1 | ⟨c, _, h1⟩
        · rw [h1] at hg
          rw [← Option.some.inj hg]
          exact ih id cell0 hk
        · rw [h1] at hg
          rw [← Option.some.inj hg]
          exact sound_checked (ih id cell0 hk) c
    · rw [h]
      unfold execute
      cases hc : codeIn (screen past) i with
      | none => exact ⟨h0, ih⟩
      | some c =>
        refine ⟨by show (0 : Int) ≤ _ + 1; omega, fun id cell hg => ?_⟩
        by_cases hi : id = i
        · subst hi
          dsimp only at hg
          rw [Assoc.get_set_self] at hg
          rw [← Option.some.inj hg]
          exact sound_fresh check c (by omega) w
        · dsimp only at hg
          rw [Assoc.get_set_ne _ _ hi] at hg
          exact ih id cell hg

theorem checkContent_after {check : String → Outcome S} (ht : Tame check) {es : List (Event S)} (hd : Distinct es) :
    ∀ id cell, Assoc.get (after check es).kernel.cells id = some cell →
      cell.checkContent = none ∨ cell.checkContent = some cell.content := by
  induction es with
  | nil => exact fun id cell h => by simp [after, start] at h
  | cons e past ih =>
    have ih := ih (distinct_tail hd)
    rcases kernel_step (check := check) past e with h | ⟨r, h⟩ | ⟨i, w, _, h⟩
    · rw [h]; exact ih
    · rw [h]
      intro id cell hg
      cases hk : Assoc.get (after check past).kernel.cells id with
      | none =>
        rw [notify_none ht hk, Option.map_eq_some_iff] at hg
        obtain ⟨c, _, rfl⟩ := hg
        exact Or.inl rfl
      | some cell0 =>
        rcases notify_cell ht (r := r) (screen_nodup (distinct_tail hd)) hk with h1 | ⟨c, _, h1⟩
        · rw [h1] at hg
          rw [← Option.some.inj hg]
          exact ih id cell0 hk
        · rw [h1] at hg
          rw [← Option.some.inj hg]
          unfold Checked
          cases hc : check c with
          | ok l m => exact Or.inr rfl
          | syntaxError => exact ih id cell0 hk
          | crash => exact ih id cell0 hk
    · rw [h]
      unfold execute
      cases hc : codeIn (screen past) i with
      | none => exact ih
      | some c =>
        intro id cell hg
        by_cases hi : id = i
        · subst hi
          dsimp only at hg
          rw [Assoc.get_set_self] at hg
          rw [← Option.some.inj hg]
          exact Or.inl rfl
        · dsimp only at hg
          rw [Assoc.get_set_ne _ _ hi] at hg
          exact ih id cell hg

/-- After the kernel has heard of code that can be parsed, for a cell it knew, the result is the one for that
code. -/
theorem heard_result {check : String → Outcome S} (ht : Tame check) {past : List (Event S)} (hd : Distinct past)
    {e : Event S} (he : Heard past e) {id : Nat} {c : String} {l m : List S} (hs : Shows (screen past) id c)
    (hc : check c = .ok l m) {cell : Cell S} (hg : Assoc.get (after check past).kernel.cells id = some cell) :
    ∃ cell', Assoc.get (after check (e :: past)).kernel.cells id = some cell' ∧ prevLive cell' = l ∧
      (∃ r, cell'.result = some r ∧ ∀ x ∈ m, x ∈ r.2) ∧ (cell' = cell ∨ cell' = recorded cell c l m) := by
  rw [kernel_heard he]
  by_cases hen : Entered (after check past).kernel (screen past) false
  · have h1 := notify_entered ht (screen_nodup hd) hg hs hen
    have h2 : Checked check cell c = recorded cell c l m := by unfold Checked; rw [hc]
    rw [h2] at h1
    refine ⟨_, h1, rfl, ⟨_, rfl, fun x hx => ?_⟩, Or.inr rfl⟩
    show x ∈ modified cell c m
    unfold modified
    split
    · exact List.mem_append_left _ hx
    · exact hx
  · have h1 := notify_skipped (check := check) hg hen
    obtain ⟨h2, h3⟩ := not_outdated hg hs hen
    have hS := (sound_after ht hd).2 id cell hg
    have h4 : cell.checkCtr.isSome := by
      cases hx : cell.checkCtr with
      | none => rw [hx] at h3; exact absurd h3 hS.pos
      | some v => rfl
    have h5 := hS.known h4
    obtain ⟨r, hr⟩ := Option.isSome_iff_exists.1 h5
    obtain ⟨m', hm', hall⟩ := hS.result r hr
    rw [h2, hc] at hm'
    obtain ⟨hl, rfl⟩ := Outcome.ok.inj hm'
    refine ⟨cell, h1, ?_, ⟨r, hr, hall⟩, Or.inl rfl⟩
    unfold prevLive
    rw [hr]
    exact hl.symm

/-- Read in some check since the last run, and therefore known as removed or read now. -/
def Seen (s : S) (cell : Cell S) : Prop := s ∈ cell.removed ∨ s ∈ prevLive cell

theorem seen_recorded {s : S} {cell : Cell S} (h : Seen s cell) (c : String) (l m : List S) :
    Seen s (recorded cell c l m) := by
  unfold Seen at h ⊢
  by_cases hl : s ∈ l
  · exact Or.inr hl
  · left
    simp only [recorded, List.mem_filter, List.mem_append, decide_eq_true_eq]
    exact ⟨h, hl⟩

theorem seen_checked {check : String → Outcome S} {s : S} {cell : Cell S} (h : Seen s cell) (c : String) :
    Seen s (Checked check cell c) := by
  unfold Checked
  cases hc : check c with
  | ok l m => exact seen_recorded h c l m
  | syntaxError => exact h
  | crash => exact h

/-- A cell that is not run stays the same object, up to checks. -/
theorem not_run {check : String → Outcome S} (ht : Tame check) {P : Cell S → Prop}
    (hP : ∀ cell c, P cell → P (Checked check cell c)) {past more : List (Event S)} (hd : Distinct (more ++ past))
    {id : Nat} (hr : NotRun id more) {cell : Cell S} (hg : Assoc.get (after check past).kernel.cells id = some cell)
    (h : P cell) : ∃ cell', Assoc.get (after check (more ++ past)).kernel.cells id = some cell' ∧ P cell' := by
  induction more with
  | nil => exact ⟨cell, hg, h⟩
  | cons e more ih =>
    obtain ⟨c1, hg1, hp1⟩ := ih (distinct_tail hd) (fun w hw => hr w (List.mem_cons_of_mem _ hw))
    rcases kernel_step (check := check) (more ++ past) e with h | ⟨r, h⟩ | ⟨i, w, he, h⟩
    · rw [List.cons_append, h]; exact ⟨c1, hg1, hp1⟩
    · rw [List.cons_append, h]
      rcases notify_cell ht (r := r) (screen_nodup (distinct_tail hd)) hg1 with h1 | ⟨c, _, h1⟩
      · exact ⟨c1, h1, hp1⟩
      · exact ⟨_, h1, hP _ _ hp1⟩
    · rw [List.cons_append, h]
      have hi : id ≠ i := by
        rintro rfl
        exact hr w (by rw [he]; exact List.mem_cons_self ..)
      unfold execute
      cases hc : codeIn (screen (more ++ past)) i with
      | none => exact ⟨c1, hg1, hp1⟩
      | some c => exact ⟨c1, by dsimp only; rw [Assoc.get_set_ne _ _ hi, hg1], hp1⟩

theorem linked_unused {parent child : Cell S} {syms : List S} (h : ∀ s ∈ syms, s ∈ child.removed) :
    linked parent child syms = false := by
  unfold linked
  have : syms.filter (fun s => s ∉ child.removed) = [] := by
    rw [List.filter_eq_nil_iff]
    intro s hs
    simp [h s hs]
  dsimp only
  rw [if_pos this]

/-- A link goes away with the uses: if the kernel has seen the cell using the variables of the link and now sees it
using none of them, there is no link, however the code was changed in between. -/
theorem unused {check : String → Outcome S} (ht : Tame check) {past mid : List (Event S)}
    {e1 e2 : Event S} (hd : Distinct (mid ++ e1 :: past)) (h1 : Heard past e1)
    (h2 : Heard (mid ++ e1 :: past) e2) {id : Nat} (hr : NotRun id mid) {c1 c2 : String} {l1 m1 l2 m2 : List S}
    (hk : ∃ c, Has (after check past).kernel id c)
    (hs1 : Shows (screen past) id c1) (hc1 : check c1 = .ok l1 m1)
    (hs2 : Shows (screen (mid ++ e1 :: past)) id c2) (hc2 : check c2 = .ok l2 m2)
    {syms : List S} (hin : ∀ s ∈ syms, s ∈ l1) (hout : ∀ s ∈ syms, s ∉ l2) {child : Cell S}
    (hch : Assoc.get (after check (e2 :: (mid ++ e1 :: past))).kernel.cells id = some child) (parent : Cell S) :
    linked parent child syms = false := by
  obtain ⟨_, cell, hg, _⟩ := hk
  obtain ⟨x1, hx1, hl1, _, _⟩ := heard_result ht (distinct_tail (distinct_drop hd)) h1 hs1 hc1 hg
  apply linked_unused
  intro s hs
  have hseen : Seen s x1 := Or.inr (by rw [hl1]; exact hin s hs)
  obtain ⟨x2, hx2, hseen2⟩ := not_run ht (P := Seen s) (fun _ c h => seen_checked h c) hd hr hx1 hseen
  obtain ⟨x3, hx3, hl3, _, hor⟩ := heard_result ht hd h2 hs2 hc2 hx2
  rw [hch] at hx3
  obtain rfl := Option.some.inj hx3
  have hseen3 : Seen s child := by
    rcases hor with rfl | rfl
    · exact hseen2
    · exact seen_recorded hseen2 _ _ _
  rcases hseen3 with h | h
  · exact h
  · rw [hl3] at h
    exact absurd h (hout s hs)

theorem linked_of_none {parent child : Cell S} {syms : List S} {s : S} (hs : s ∈ syms) (hn : s ∉ child.removed)
    (hp : ∃ r, parent.result = some r ∧ (s ∈ r.2 ∨ ∀ x ∈ parent.statics, x ∈ r.2)) :
    linked parent child syms = true := by
  unfold linked
  have hm : s ∈ syms.filter (fun s => s ∉ child.removed) := by
    rw [List.mem_filter]
    exact ⟨hs, by simpa using hn⟩
  have h0 : syms.filter (fun s => s ∉ child.removed) ≠ [] := List.ne_nil_of_mem hm
  dsimp only
  rw [if_neg h0]
  obtain ⟨r, hp, hr⟩ := hp
  · rw [hp]
    dsimp only
    rw [Bool.not_eq_true', Bool.and_eq_false_iff]
    by_cases hst : (syms.filter (fun s => s ∉ child.removed)).all (fun s => decide (s ∈ parent.statics)) = true
    · right
      rw [Bool.eq_false_iff]
      intro hall
      rw [List.all_eq_true] at hst hall
      have h1 := hst s hm
      rw [decide_eq_true_eq] at h1
      have h2 := hall s (hr.elim id (fun hr => hr s h1))
      rw [decide_eq_true_eq] at h2
      exact h2 hm
    · left
      exact Bool.eq_false_iff.2 hst

theorem not_removed {check : String → Outcome S} (ht : Tame check) {past : List (Event S)} {e : Event S}
    (hd : Distinct past) (h : Heard past e) {id : Nat} {c : String} {l m : List S}
    (hk : ∃ c, Has (after check past).kernel id c) (hs : Shows (screen past) id c) (hc : check c = .ok l m)
    {s : S} (hl : s ∈ l) {child : Cell S}
    (hch : Assoc.get (after check (e :: past)).kernel.cells id = some child) : s ∉ child.removed := by
  obtain ⟨_, cell, hg, _⟩ := hk
  obtain ⟨x, hx, hl1, _, _⟩ := heard_result ht hd h hs hc hg
  rw [hch] at hx
  obtain rfl := Option.some.inj hx
  have hS : Sound check child := by
    have hd' : Distinct (e :: past) := by
      rcases h with rfl | ⟨rfl, _⟩ <;> exact fun s hs => hd s (by simpa using hs)
    exact (sound_after ht hd').2 id child hch
  exact fun hr => hS.apart s hr (by rw [hl1]; exact hl)

/-- A link stays as long as one of its variables is assigned in the one cell and used in the other. -/
theorem used {check : String → Outcome S} (ht : Tame check) {past : List (Event S)} {e : Event S}
    (hd : Distinct past) (h : Heard past e) {ip ic : Nat} {cp cc : String} {lp mp lc mc : List S}
    (hkp : ∃ c, Has (after check past).kernel ip c) (hkc : ∃ c, Has (after check past).kernel ic c)
    (hsp : Shows (screen past) ip cp) (hcp : check cp = .ok lp mp)
    (hsc : Shows (screen past) ic cc) (hcc : check cc = .ok lc mc)
    {syms : List S} {s : S} (hin : s ∈ syms) (hl : s ∈ lc) (hm : s ∈ mp) {parent child : Cell S}
    (hpa : Assoc.get (after check (e :: past)).kernel.cells ip = some parent)
    (hch : Assoc.get (after check (e :: past)).kernel.cells ic = some child) : linked parent child syms = true := by
  apply linked_of_none hin (not_removed ht hd h hkc hsc hcc hl hch)
  obtain ⟨_, cell, hg, _⟩ := hkp
  obtain ⟨x, hx, _, ⟨r, hr, hall⟩, _⟩ := heard_result ht hd h hsp hcp hg
  rw [hpa] at hx
  obtain rfl := Option.some.inj hx
  exact ⟨r, hr, Or.inl (hall s hm)⟩

theorem only_edits_kernel {check : String → Outcome S} {past mid : List (Event S)} (h : OnlyEdits mid) :
    (after check (mid ++ past)).kernel = (after check past).kernel := by
  induction mid with
  | nil => rfl
  | cons e mid ih =>
    obtain ⟨s, rfl⟩ := h e (List.mem_cons_self ..)
    exact ih (fun e he => h e (List.mem_cons_of_mem _ he))

theorem run_cell {check : String → Outcome S} {past : List (Event S)} (hd : Distinct past) {id : Nat} {c : String}
    (hs : Shows (screen past) id c) (w : List S) :
    Assoc.get (after check (.run id w :: past)).kernel.cells id
      = some (Cell.fresh c ((after check past).kernel.counter + 1) w) := by
  show Assoc.get (execute (after check past).kernel (after check past).screen id w).cells id = _
  unfold execute
  rw [screen_after, (codeIn_iff (screen_nodup hd)).2 hs]
  exact Assoc.get_set_self _ _ _

/-- A link does not go away if the code was changed while the cell was running: the kernel never saw the uses. -/
theorem changed_while_running {check : String → Outcome S} (ht : Tame check) {past mid : List (Event S)} {id : Nat}
    {w : List S} {e : Event S} (hd : Distinct (mid ++ .run id w :: past)) (hm : OnlyEdits mid)
    (he : Heard (mid ++ .run id w :: past) e) {c : String} (hs : Shows (screen past) id c)
    {ip : Nat} {cp : String} {lp mp : List S} (hkp : ∃ c, Has (after check past).kernel ip c) (hip : ip ≠ id)
    (hsp : Shows (screen (mid ++ .run id w :: past)) ip cp) (hcp : check cp = .ok lp mp)
    {syms : List S} {s : S} (hsy : s ∈ syms) (hmp : s ∈ mp) {parent child : Cell S}
    (hpa : Assoc.get (after check (e :: (mid ++ .run id w :: past))).kernel.cells ip = some parent)
    (hch : Assoc.get (after check (e :: (mid ++ .run id w :: past))).kernel.cells id = some child) :
    linked parent child syms = true := by
  have h0 := run_cell (check := check) (distinct_tail (distinct_drop hd)) hs w
  rw [← only_edits_kernel (check := check) hm] at h0
  have h1 : child.removed = [] := by
    rw [kernel_heard he] at hch
    rcases notify_cell ht (r := false) (screen_nodup hd) h0 with h | ⟨d, _, h⟩
    · rw [h] at hch
      rw [← Option.some.inj hch]
      rfl
    · rw [h] at hch
      rw [← Option.some.inj hch]
      unfold Checked
      cases hc : check d with
      | ok l m => rfl
      | syntaxError => rfl
      | crash => rfl
  apply linked_of_none hsy (by rw [h1]; simp)
  obtain ⟨_, cell, hg, _⟩ := hkp
  have hg' : Assoc.get (after check (mid ++ .run id w :: past)).kernel.cells ip = some cell := by
    rw [only_edits_kernel hm]
    show Assoc.get (execute (after check past).kernel (after check past).screen id w).cells ip = _
    unfold execute
    cases codeIn (after check past).screen id with
    | none => exact hg
    | some d => dsimp only; rw [Assoc.get_set_ne _ _ hip, hg]
  obtain ⟨x, hx, _, ⟨r, hr, hall⟩, _⟩ := heard_result ht hd he hsp hcp hg'
  rw [hpa] at hx
  obtain rfl := Option.some.inj hx
  exact ⟨r, hr, Or.inl (hall s hmp)⟩

/-- The writes of the last run and the code of the last check stay as long as the cell is not run. -/
theorem statics_checked {check : String → Outcome S} {w : List S} (cell : Cell S) (c : String)
    (h : cell.statics = w) : (Checked check cell c).statics = w := by
  unfold Checked
  cases hc : check c with
  | ok l m => exact h
  | syntaxError => exact h
  | crash => exact h

/-- What the record of a check says about the writes: always the code that was checked is the code of the cell. -/
theorem content_checked {check : String → Outcome S} (cell : Cell S) (c : String)
    (h : cell.checkContent = none ∨ cell.checkContent = some cell.content) :
    (Checked check cell c).checkContent = none ∨ (Checked check cell c).checkContent = some (Checked check cell c).content := by
  unfold Checked
  cases hc : check c with
  | ok l m => exact Or.inr rfl
  | syntaxError => exact h
  | crash => exact h

/-- A link goes away with the assignments, in the answer in which the kernel first hears that they are gone. What is
missing: the link is back in later answers (`back_again`). -/
theorem unassigned_partial {check : String → Outcome S} (ht : Tame check) {past mid1 mid2 : List (Event S)} {id : Nat}
    {w : List S} {e1 e2 : Event S} (hd : Distinct (mid2 ++ e1 :: (mid1 ++ .run id w :: past)))
    (h1 : Heard (mid1 ++ .run id w :: past) e1) (h2 : Heard (mid2 ++ e1 :: (mid1 ++ .run id w :: past)) e2)
    (hr : NotRun id mid1) (hm : OnlyEdits mid2) {c0 c1 c2 : String} {l1 m1 l2 m2 : List S}
    (hs0 : Shows (screen past) id c0)
    (hs1 : Shows (screen (mid1 ++ .run id w :: past)) id c1) (hc1 : check c1 = .ok l1 m1)
    (hs2 : Shows (screen (mid2 ++ e1 :: (mid1 ++ .run id w :: past))) id c2) (hc2 : check c2 = .ok l2 m2)
    (hne : c1 ≠ c2) {syms : List S} (hw : ∀ s ∈ syms, s ∈ w) (hout : ∀ s ∈ syms, s ∉ m2) {parent : Cell S}
    (hpa : Assoc.get (after check (e2 :: (mid2 ++ e1 :: (mid1 ++ .run id w :: past)))).kernel.cells id = some parent)
    (child : Cell S) : linked parent child syms = false := by
  have hd1 : Distinct (mid1 ++ .run id w :: past) := distinct_tail (distinct_drop hd)
  have g0 := run_cell (check := check) (distinct_tail (distinct_drop hd1)) hs0 w
  obtain ⟨x1, g1, ⟨st1, cc1⟩⟩ := not_run ht
    (P := fun c => c.statics = w ∧ (c.checkContent = none ∨ c.checkContent = some c.content))
    (fun cell c h => ⟨statics_checked cell c h.1, content_checked cell c h.2⟩) hd1 hr g0 ⟨rfl, Or.inl rfl⟩
  -- after the first message the cell is recorded with `c1`
  have g2 : ∃ x2, Assoc.get (after check (e1 :: (mid1 ++ .run id w :: past))).kernel.cells id = some x2 ∧
      x2.statics = w ∧ x2.checkContent = some c1 ∧ x2.content = c1 := by
    rw [kernel_heard h1]
    by_cases hen : Entered (after check (mid1 ++ .run id w :: past)).kernel (screen (mid1 ++ .run id w :: past)) false
    · have h := notify_entered ht (screen_nodup hd1) g1 hs1 hen
      refine ⟨_, h, statics_checked _ _ st1, ?_, ?_⟩
      · unfold Checked; rw [hc1]; rfl
      · unfold Checked; rw [hc1]; rfl
    · have h := notify_skipped (check := check) g1 hen
      obtain ⟨h3, h4⟩ := not_outdated g1 hs1 hen
      refine ⟨x1, h, st1, ?_, h3⟩
      rcases cc1 with h5 | h5
      · exfalso
        obtain ⟨x1', g1', hP⟩ := not_run ht
          (P := fun c => c.checkContent = none → c.checkCtr = none ∧ c.ctr ≠ 0)
          (fun cell c h => by
            unfold Checked
            cases hc : check c with
            | ok l m => intro h'; simp [recorded] at h'
            | syntaxError => exact h
            | crash => exact h) hd1 hr g0 (fun _ => ⟨rfl, by
              have := (sound_after ht (check := check) (distinct_tail (distinct_drop hd1))).1
              show _ + 1 ≠ (0 : Int)
              omega⟩)
        rw [g1] at g1'
        obtain rfl := Option.some.inj g1'
        obtain ⟨ha, hb⟩ := hP h5
        rw [ha] at h4
        exact hb h4
      · rw [h5, h3]
  obtain ⟨x2, g2, st2, cc2, ct2⟩ := g2
  have g3 : Assoc.get (after check (mid2 ++ e1 :: (mid1 ++ .run id w :: past))).kernel.cells id = some x2 := by
    rw [only_edits_kernel hm]; exact g2
  have hen : Entered (after check (mid2 ++ e1 :: (mid1 ++ .run id w :: past))).kernel
      (screen (mid2 ++ e1 :: (mid1 ++ .run id w :: past))) false := by
    by_contra hen
    exact hne (by rw [← ct2]; exact (not_outdated g3 hs2 hen).1)
  have h := notify_entered ht (screen_nodup hd) g3 hs2 hen
  rw [← kernel_heard h2, hpa] at h
  have hP : parent = recorded x2 c2 l2 m2 := by
    rw [Option.some.inj h]
    unfold Checked
    rw [hc2]
  have hmod : modified x2 c2 m2 = m2 := by
    unfold modified
    rw [if_neg]
    rw [cc2]
    rintro (h | h)
    · exact absurd h (by simp)
    · exact hne (Option.some.inj h)
  unfold linked
  dsimp only
  split
  · rfl
  · rw [hP]
    show (!(_ && (modified x2 c2 m2).all _)) = false
    rw [hmod, Bool.not_eq_false', Bool.and_eq_true, List.all_eq_true, List.all_eq_true]
    constructor
    · intro s hs
      rw [decide_eq_true_eq]
      show s ∈ x2.statics
      rw [st2]
      exact hw s (List.mem_filter.1 hs).1
    · intro s hs
      rw [decide_eq_true_eq]
      intro hx
      exact hout s (List.mem_filter.1 hx).1 hs

/-- The link is back: in the answer to the request after any other cell was run, all the links from what the cell
assigned in its last run are there, although its code assigns none of it. -/
theorem back_again {check : String → Outcome S} (ht : Tame check) {past : List (Event S)} (hd : Distinct past)
    {e : Event S} (he : Heard past e) {id j : Nat} (hij : id ≠ j) {c : String} {l m : List S}
    (hs : Shows (screen past) id c) (hc : check c = .ok l m) (hk : ∃ c, Has (after check past).kernel id c)
    {cj : String} (hj : Shows (screen past) j cj) (w : List S) {ic : Nat} {cc : String} {lc mc : List S}
    (hkc : ∃ c, Has (after check (e :: past)).kernel ic c) (hsc : Shows (screen past) ic cc)
    (hcc : check cc = .ok lc mc) {syms : List S} {s : S} {child parent : Cell S}
    (hpa : Assoc.get (after check (.ask false false :: .run j w :: e :: past)).kernel.cells id = some parent)
    (hchi : Assoc.get (after check (.ask false false :: .run j w :: e :: past)).kernel.cells ic = some child)
    (hsy : s ∈ syms) (hlc : s ∈ lc) : linked parent child syms = true := by
  have hscr := screen_heard he
  have hd1 : Distinct (e :: past) := by
    rcases he with rfl | ⟨rfl, _⟩ <;> exact fun s hs => hd s (by simpa using hs)
  have hd2 : Distinct (Event.run j w :: e :: past) := fun s hs => hd1 s (by simpa using hs)
  have hs' : Shows (screen (e :: past)) id c := by rw [hscr]; exact hs
  have hj' : Shows (screen (e :: past)) j cj := by rw [hscr]; exact hj
  obtain ⟨_, cell, hg, _⟩ := hk
  -- the code is recorded as checked
  have g1 : ∃ x, Assoc.get (after check (e :: past)).kernel.cells id = some x := by
    obtain ⟨x, hx, _⟩ := heard_result ht hd he hs hc hg
    exact ⟨x, hx⟩
  have hccx : ∀ x, Assoc.get (after check (e :: past)).kernel.cells id = some x →
      x.checkContent = none ∨ x.checkContent = some c := by
    intro x hx
    rw [kernel_heard he] at hx
    by_cases hen : Entered (after check past).kernel (screen past) false
    · rw [notify_entered ht (screen_nodup hd) hg hs hen] at hx
      rw [← Option.some.inj hx]
      unfold Checked
      rw [hc]
      exact Or.inr rfl
    · rw [notify_skipped hg hen] at hx
      rw [← Option.some.inj hx]
      have h1 := (not_outdated hg hs hen).1
      have h2 := checkContent_after ht (check := check) hd id cell hg
      rw [h1] at h2
      exact h2
  obtain ⟨x, hx⟩ := g1
  have hx' : Assoc.get (after check (.run j w :: e :: past)).kernel.cells id = some x := by
    show Assoc.get (execute (after check (e :: past)).kernel (after check (e :: past)).screen j w).cells id = _
    unfold execute
    rw [screen_after, (codeIn_iff (screen_nodup hd1)).2 hj']
    dsimp only
    rw [Assoc.get_set_ne _ _ hij, hx]
  have hjr := run_cell (check := check) hd1 hj' w
  have hen : Entered (after check (.run j w :: e :: past)).kernel (screen (.run j w :: e :: past)) false := by
    by_contra hen
    have h1 := (not_outdated hjr hj' hen).2
    have h2 := (sound_after ht (check := check) hd1).1
    simp only [Cell.fresh, Option.getD] at h1
    omega
  have h := notify_entered ht (screen_nodup hd2) hx' hs' hen
  rw [← kernel_heard (Or.inl rfl), hpa] at h
  have hP : parent = recorded x c l m := by
    rw [Option.some.inj h]
    unfold Checked
    rw [hc]
  have hkc' : ∃ c, Has (after check (.run j w :: e :: past)).kernel ic c := by
    obtain ⟨d, y, hy, _⟩ := hkc
    by_cases hji : ic = j
    · subst hji
      exact ⟨_, _, hjr, rfl⟩
    · refine ⟨y.content, y, ?_, rfl⟩
      show Assoc.get (execute (after check (e :: past)).kernel (after check (e :: past)).screen j w).cells ic = _
      unfold execute
      rw [screen_after, (codeIn_iff (screen_nodup hd1)).2 hj']
      dsimp only
      rw [Assoc.get_set_ne _ _ hji, hy]
  have hch : s ∉ child.removed := by
    refine not_removed ht hd2 (Or.inl rfl) hkc' ?_ hcc hlc hchi
    show Shows (screen (e :: past)) ic cc
    rw [hscr]
    exact hsc
  apply linked_of_none hsy hch
  refine ⟨(l, modified x c m), by rw [hP]; rfl, Or.inr (fun y hy => ?_)⟩
  show y ∈ modified x c m
  unfold modified
  rw [if_pos (hccx x hx)]
  rw [hP] at hy
  exact List.mem_append_right _ hy

end Verif.Content
