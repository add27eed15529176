import Verif.Tagged.Lemmas

/-!
# C165: cells that show the slice of a tag are run again with the cells that carry it
-/

namespace Verif.Tagged

theorem InBook.had {h : List Ev} {d t : Nat} (q : InBook h d t) : Had h d t := by
  induction h generalizing d with
  | nil => exact q
  | cons e h ih =>
    cases e with
    | run c ts =>
      rw [InBook] at q
      by_cases hd : d = c
      · rw [if_pos hd] at q; exact .inl ⟨hd, q⟩
      · rw [if_neg hd] at q; exact .inr (ih q)
    | slice n u b => exact ih (d := d) q
    | tag n u => exact ih (d := d) q
    | untag n u => exact ⟨ih q.1, q.2⟩
    | mention c => exact ih (d := d) q
    | rename a b =>
      rw [InBook] at q
      rw [Had]
      by_cases hr : Renames h a b
      · rw [if_pos hr] at q ⊢
        rcases q with ⟨q, q'⟩ | ⟨q, q', q''⟩
        · exact .inl ⟨q, ih q'⟩
        · exact .inr ⟨q, q', ih q''⟩
      · rw [if_neg hr] at q ⊢
        exact ih q

/-- A request about a cell that was run lists the cells that show the slice of a tag that was put on
it or that it ever had in the notebook, unless removed by a command. -/
theorem listed_iff (h : List Ev) (c : Nat) (hc : seen h c = some true) :
    ∃ l, ask (state h) (some c) = .said l ∧
      ∀ d, d ∈ l ↔ ∃ t, (Had h c t ∨ PutOn h c t) ∧ Shows h d t := by
  have I := inv_state h
  obtain ⟨k, hk⟩ := Option.isSome_iff_exists.1 ((seen_ran h c).1 hc)
  obtain ⟨o, ho, _, r1, _⟩ := I.prev hk
  refine ⟨o.tags.flatMap (state h).react, ?_, ?_⟩
  · show forced (state h) c = _
    unfold forced
    rw [ho]
  · intro d
    simp only [List.mem_flatMap, r1, I.react]

/-- The claim, for cells whose tags were taken away by commands only. -/
theorem listed_partial (h : List Ev) (c : Nat) (hc : seen h c = some true) (hf : Faithful h c) :
    ∃ l, ask (state h) (some c) = .said l ∧
      ∀ d, d ∈ l ↔ ∃ t, Carries h c t ∧ Shows h d t := by
  obtain ⟨l, hl, hd⟩ := listed_iff h c hc
  refine ⟨l, hl, fun d => ?_⟩
  rw [hd]
  constructor
  · rintro ⟨t, q | q, hs⟩
    · exact ⟨t, hf t q, hs⟩
    · exact ⟨t, .inr q, hs⟩
  · rintro ⟨t, q | q, hs⟩
    · exact ⟨t, .inl q.had, hs⟩
    · exact ⟨t, .inr q, hs⟩

/-- One direction holds in general: no cell that should be run again is left out. -/
theorem none_left_out (h : List Ev) (c d t : Nat) (hc : seen h c = some true)
    (ht : Carries h c t) (hs : Shows h d t) :
    ∃ l, ask (state h) (some c) = .said l ∧ d ∈ l := by
  obtain ⟨l, hl, hd⟩ := listed_iff h c hc
  exact ⟨l, hl, (hd d).2 ⟨t, ht.imp InBook.had id, hs⟩⟩

theorem forced_unrun (h : List Ev) (c : Nat) (hc : seen h c ≠ some true) :
    ask (state h) (some c) = if seen h c = some false then .said [] else .raised := by
  have I := inv_state h
  have hp : prevOf (state h) c = none := by
    unfold prevOf
    rw [I.cur]
    cases hl : latest h c with
    | none => rfl
    | some k => exact absurd ((seen_ran h c).2 (by simp [hl])) hc
  show forced (state h) c = _
  unfold forced
  rw [hp]
  dsimp only
  by_cases hf : seen h c = some false
  · have : (state h).unrun.contains c = true := by simpa using (I.unrun c).2 hf
    rw [if_pos this, if_pos hf]
  · have : ¬ (state h).unrun.contains c = true := by
      intro q
      exact hf ((I.unrun c).1 (by simpa using q))
    rw [if_neg this, if_neg hf]

/-- A request that names a cell fails exactly if the kernel does not know it. -/
theorem fails_iff (h : List Ev) (c : Nat) :
    ask (state h) (some c) = .raised ↔ seen h c = none := by
  by_cases hs : seen h c = some true
  · obtain ⟨l, hl, _⟩ := listed_iff h c hs
    rw [hl, hs]; simp
  · rw [forced_unrun h c hs]
    cases hs' : seen h c with
    | none => simp
    | some b =>
      cases b with
      | true => exact absurd hs' hs
      | false => simp

/-- A cell that the kernel knows and that was not run has nothing run again. -/
theorem unrun_nothing (h : List Ev) (c : Nat) (hc : seen h c = some false) :
    ask (state h) (some c) = .said [] := by
  rw [forced_unrun h c (by rw [hc]; simp), if_pos hc]

/-- A request that names no cell is one about the cell run last, under the id it was run with. -/
theorem unnamed (h : List Ev) :
    ask (state h) none = match lastRun h with
      | none => .said []
      | some c => ask (state h) (some c) := by
  have I := inv_state h
  cases hl : lastRun h with
  | none => simp [ask, I.last, hl]
  | some c => simp [ask, I.last, hl]

/-- Violation: a tag that was taken away from a cell in the notebook still has cells run again after
it. -/
theorem taken_away_wrong (h : List Ev) (c d t : Nat) (ts : List Nat) (hb : InBook h c t)
    (hp : ¬ PutOn h c t) (ht : t ∉ ts) (hd : d ≠ c) (hs : Shows h d t) :
    ¬ Carries (.run c ts :: h) c t ∧
    ∃ l, ask (state (.run c ts :: h)) (some c) = .said l ∧ d ∈ l := by
  constructor
  · rintro (q | q)
    · simp only [InBook, if_true] at q; exact ht q
    · exact hp q
  · obtain ⟨l, hl, hi⟩ := listed_iff (.run c ts :: h) c (by simp [seen])
    exact ⟨l, hl, (hi d).2 ⟨t, .inl (.inr hb.had), hd, hs⟩⟩

/-- `--cell` with the number of a run that is not the latest one of any cell does nothing that shows:
neither tags nor their removal are seen. -/
theorem old_number_ignored (h : List Ev) (n t c : Nat) (e : Ev)
    (he : e = .tag (some n) t ∨ e = .untag (some n) t) (hn : ∀ d, latest h d ≠ some n)
    (hc : seen h c = some true) : ∃ l l', ask (state h) (some c) = .said l ∧
      ask (state (e :: h)) (some c) = .said l' ∧ ∀ d, d ∈ l ↔ d ∈ l' := by
  obtain ⟨l, hl, hi⟩ := listed_iff h c hc
  have hc' : seen (e :: h) c = some true := by rcases he with rfl | rfl <;> exact hc
  obtain ⟨l', hl', hi'⟩ := listed_iff (e :: h) c hc'
  have hno : ∀ d, ¬ About h (some n) d := fun d => hn d
  refine ⟨l, l', hl, hl', fun d => ?_⟩
  rw [hi, hi']
  rcases he with rfl | rfl
  · simp [Had, PutOn, Shows, hno]
  · simp [Had, PutOn, Shows, hno]

/-- Violation: once the cell that was run last has got its id, requests that name no cell fail. -/
theorem renamed_fails (h : List Ev) (a b : Nat) (hr : Renames h a b) (hl : lastRun h = some a) :
    ask (state (.rename a b :: h)) none = .raised := by
  rw [unnamed]
  have e : lastRun (.rename a b :: h) = lastRun h := rfl
  rw [e, hl]
  dsimp only
  rw [fails_iff]
  have hr2 : seen h a = some true ∧ seen h b = none := hr
  have hab : a ≠ b := fun q => by rw [q, hr2.2] at hr2; cases hr2.1
  rw [seen, if_pos hr2, if_neg hab, if_pos rfl]

/-- The claim does not hold as stated. -/
theorem claim_false : ¬ Claim := by
  intro q
  let h : List Ev := [.slice none 7 true, .run 2 [], .run 1 [7]]
  have hb : InBook h 1 7 := by simp [h, InBook]
  have hp : ¬ PutOn h 1 7 := by simp [h, PutOn]
  have hs : Shows h 2 7 := by simp [h, Shows, About, latest, count]
  obtain ⟨h1, l, hl, hd⟩ := taken_away_wrong h 1 2 7 [] hb hp (by simp) (by decide) hs
  obtain ⟨t, ht, hs'⟩ := (q (.run 1 [] :: h) 1 2 (by decide) l hl).1 hd
  have : t = 7 := by
    simp only [h, Shows, About, latest, count] at hs'
    simp at hs'
    exact hs'.symm
  exact h1 (this ▸ ht)

end Verif.Tagged
