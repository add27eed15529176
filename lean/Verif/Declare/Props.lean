import Verif.Declare.Lemmas

/-!
# Declared reads and writes, proved -/

namespace Verif.Declare

/-- **C159.** A message is answered with success exactly if all cells for which it names something have been seen before. -/
theorem answered_iff (h : List Event) (nb : List Meta) : answered h nb = true ↔ Fine h nb := fine_iff.symm

/-- **C159 (partial).** A cell for which something is named is taken to read and write just that, if the message is fine and nothing was named for it before since it was
run. -/
theorem declared_partial {h : List Event} {nb : List Meta} (hf : Fine h nb) (hd : Distinct nb) {m : Meta} (hm : m ∈ nb) (hn : Names m) (hc : Clean h m.id) :
    taken (.told nb :: h) m.id = some (said m) := by
  have hs := (seen_iff h m.id).1 (hf m hm hn)
  obtain ⟨c, hr⟩ := Option.isSome_iff_exists.1 hs
  have he := clean_none hc c hr
  unfold taken
  rw [run, handle_at hd (fine_iff.1 hf) hm hr, he]
  unfold said
  rcases hn with ⟨r, rs, hl⟩ | ⟨r, rs, hl⟩
  · rcases hdd : m.dead with _ | ⟨_ | ⟨a, as⟩⟩ <;> simp [hl, truthy]
  · rcases hdd : m.live with _ | ⟨_ | ⟨a, as⟩⟩ <;> simp [hl, truthy]

/-- **C159 (partial).** Whatever was named before, a cell for which both reads and writes are named is taken to read and write just that. -/
theorem both_declared_partial {h : List Event} {nb : List Meta} (hf : Fine h nb) (hd : Distinct nb) {m : Meta} (hm : m ∈ nb) {r w : Ref} {rs ws : List Ref}
    (hl : m.live = some (r :: rs)) (hw : m.dead = some (w :: ws)) : taken (.told nb :: h) m.id = some (said m) := by
  have hs := (seen_iff h m.id).1 (hf m hm (.inl ⟨r, rs, hl⟩))
  obtain ⟨c, hr⟩ := Option.isSome_iff_exists.1 hs
  unfold taken
  rw [run, handle_at hd (fine_iff.1 hf) hm hr]
  unfold said
  simp [hl, hw, truthy]

/-- **C159 (partial).** A code cell for which nothing is said is taken to read and write what its code says, if nothing was named for it since it was run. -/
theorem analysed_partial {h : List Event} {nb : List Meta} (hf : Fine h nb) (hd : Distinct nb) {m : Meta} (hm : m ∈ nb) (hcode : m.code = true) (hn : ¬Names m)
    (hc : Clean h m.id) : taken (.told nb :: h) m.id = some .analysed := by
  have hs : Seen (.told nb :: h) m.id := .inr ⟨hf, m, hm, rfl, hcode⟩
  obtain ⟨c, hr⟩ := Option.isSome_iff_exists.1 ((seen_iff _ m.id).1 hs)
  have hc' : Clean (.told nb :: h) m.id := ⟨hc, fun q hq e => by
    rw [List.inj_on_of_nodup_map hd hq hm e]
    exact hn⟩
  have he := clean_none hc' c hr
  unfold taken
  rw [hr, he]

/-- **C159.** In general, what a cell is declared to read and write was said of it in a message, and something was named for it since it was last run. -/
theorem declared_sound {h : List Event} {i : Id} {rs ws : List Ref} (ht : taken h i = some (.declared rs ws)) :
    (rs ≠ [] → ∃ nb, Event.told nb ∈ h ∧ ∃ m ∈ nb, m.id = i ∧ m.live = some rs) ∧
    (ws ≠ [] → ∃ nb, Event.told nb ∈ h ∧ ∃ m ∈ nb, m.id = i ∧ m.dead = some ws) ∧ ¬Clean h i := by
  unfold taken at ht
  rcases hr : run h i with _ | c
  · rw [hr] at ht
    cases ht
  · rw [hr] at ht
    obtain ⟨h1, h2⟩ := run_sound h i c hr
    have hcl : ¬(c.live = none ∧ c.dead = none) ∧ c.live.getD [] = rs ∧ c.dead.getD [] = ws := by
      dsimp only at ht
      split at ht
      · cases ht
      · rename_i l d hx
        injection ht with ht
        injection ht with e1 e2
        exact ⟨fun h => hx h.1 h.2, e1, e2⟩
    refine ⟨fun hne => ?_, fun hne => ?_, fun hc => ?_⟩
    · rcases hl : c.live with _ | l
      · rw [hl] at hcl
        exact absurd hcl.2.1.symm hne
      · rw [hl] at hcl
        have : l = rs := hcl.2.1
        exact h1 rs (by rw [hl, this])
    · rcases hl : c.dead with _ | l
      · rw [hl] at hcl
        exact absurd hcl.2.2.symm hne
      · rw [hl] at hcl
        have : l = ws := hcl.2.2
        exact h2 ws (by rw [hl, this])
    · have := clean_none hc c hr
      rw [this] at hcl
      exact hcl.1 ⟨rfl, rfl⟩

/-- A cell is known in a session exactly if it was seen. -/
theorem known_iff (h : List Event) (i : Id) : taken h i ≠ none ↔ Seen h i := by
  rw [seen_iff]
  unfold taken
  rcases run h i with _ | c
  · simp
  · dsimp only
    split <;> simp

/-- **Never answered.** No message is answered that names something for a cell which was not run and for which something was named from the start. -/
theorem never_answered {h : List Event} {nb : List Meta} {m : Meta} (hm : m ∈ nb) (hn : Names m) (hrun : Event.run m.id ∉ h)
    (hall : ∀ nb', Event.told nb' ∈ h → ∀ q ∈ nb', q.id = m.id → Names q) : answered h nb = false := by
  have hns : ∀ h : List Event, Event.run m.id ∉ h → (∀ nb', Event.told nb' ∈ h → ∀ q ∈ nb', q.id = m.id → Names q) → ¬Seen h m.id := by
    intro h
    induction h with
    | nil => intro _ _ hs; exact hs
    | cons e h ih =>
      intro hr ha hs
      have ih := ih (fun h => hr (by simp [h])) (fun nb' hnb => ha nb' (by simp [hnb]))
      cases e with
      | run j =>
        rcases hs with hs | hs
        · exact hr (by simp [hs])
        · exact ih hs
      | told nb' =>
        rcases hs with hs | ⟨hf, q, hq, e, -⟩
        · exact ih hs
        · have := hf q hq (ha nb' (by simp) q hq e)
          rw [e] at this
          exact ih this
  rcases hb : answered h nb with _ | _
  · rfl
  · exact absurd ((answered_iff h nb).1 hb m hm hn) (hns h hrun hall)

/-- A message that is not answered leaves all cells that it tells of for the first time unknown. -/
theorem unanswered_unknown {h : List Event} {nb : List Meta} (ha : answered h nb = false) {i : Id} (hi : ¬Seen h i) : taken (.told nb :: h) i = none := by
  by_contra hx
  rcases (known_iff _ i).1 hx with hs | ⟨hf, -⟩
  · exact hi hs
  · rw [(answered_iff h nb).2 hf] at ha
    cases ha

/-- **Taken back.** If a message names nothing for a cell that was seen, it is taken to read and write what it was before: what was declared cannot be taken back. -/
theorem taken_back_stays {h : List Event} {nb : List Meta} {i : Id} (hs : Seen h i) (hn : ∀ m ∈ nb, m.id = i → ¬Names m) : taken (.told nb :: h) i = taken h i := by
  obtain ⟨c, hr⟩ := Option.isSome_iff_exists.1 ((seen_iff h i).1 hs)
  unfold taken
  rw [run, handle_other hn hr, hr]

/-- **Nothing.** A code cell that is declared to read and write nothing is taken to read and write what its code says. -/
theorem nothing_ignored {h : List Event} {nb : List Meta} (hf : Fine h nb) (hd : Distinct nb) {m : Meta} (hm : m ∈ nb) (hcode : m.code = true) (hl : m.live = some [])
    (hw : m.dead = some []) (hc : Clean h m.id) : taken (.told nb :: h) m.id ≠ some (said m) := by
  have hn : ¬Names m := by
    rintro (⟨r, rs, h1⟩ | ⟨r, rs, h1⟩)
    · rw [hl] at h1
      cases h1
    · rw [hw] at h1
      cases h1
  rw [analysed_partial hf hd hm hcode hn hc]
  unfold said
  rw [hl, hw]
  simp

/-- **Run.** Once a cell is run, what was declared for it is forgotten, until the next message. -/
theorem run_forgets (h : List Event) (i : Id) : taken (.run i :: h) i = some .analysed := by
  unfold taken
  rw [run]
  unfold upd
  rw [if_pos rfl]

end Verif.Declare
