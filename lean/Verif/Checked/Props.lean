import Verif.Checked.Good

/-!
# The marks of the type checker (C164)

The claim: whenever the client asks, exactly the cells whose text fails the type checker, with the
variables declared as they are now, are marked.
-/

namespace Verif.Checked

/-- The claim for a cell that was run and not edited, if no variable that it reads was created,
deleted or changed in place since, and every assignment of such a variable that changes its
declaration gives it a value of another class and is the first one since the cell was looked at.
Missing: everything else, see `quiet_same`, `unrun_unmarked` and `claim_false`. -/
theorem marked_iff_partial {K : Cfg} (hon : K.on = true) {h : List Ev} {c text : Nat}
    (hcalm : Calm K c text h) {cs : List (Nat × Nat)} (hc : (c, text) ∈ cs)
    (hcs : ∀ b, (c, b) ∈ cs → b = text) {m : List Nat} (hm : reply K h cs = some m) :
    c ∈ m ↔ fails K (types h) text := by
  have hg := good_state hon hcalm
  have hid : c ∈ ids cs := List.mem_map.2 ⟨(c, text), hc, rfl⟩
  rw [(good_answered hcs hg hid hm).2, decls_eq, tyOf_state]
  exact Iff.rfl

/-- A request is answered exactly if every cell in it was run or is new: a cell that was sent
before and not run makes every further request fail. -/
theorem answered_iff {K : Cfg} (hon : K.on = true) (h : List Ev) (cs : List (Nat × Nat)) :
    reply K h cs ≠ none ↔ Clean h cs := reply_some hon h cs

/-- If the setting is off every request is answered and nothing is marked. -/
theorem off_unmarked {K : Cfg} (hoff : K.on = false) (h : List Ev) (cs : List (Nat × Nat)) :
    reply K h cs = some [] := fine_ask hoff (fine_state K hoff h) cs

/-- A cell that was never run is never marked, whatever its text. -/
theorem unrun_unmarked {K : Cfg} (hon : K.on = true) {h : List Ev} {c : Nat}
    (hc : hasRun h c = false) {cs : List (Nat × Nat)} {m : List Nat}
    (hm : reply K h cs = some m) : c ∉ m := by
  have hkey : ∀ l st, Bare st → ranOf st c ≠ some true → c ∉ (marks K st l).2 := by
    intro l
    induction l with
    | nil => intro st _ _; simp [marks]
    | cons x l ih =>
      obtain ⟨id, t⟩ := x
      intro st hb hr
      rw [marks_cons]
      have hrest := ih (check K st id).1 (bare_check id hb) (by rw [ranOf_check]; exact hr)
      dsimp only
      split
      · rename_i hs
        intro hx
        rcases List.mem_cons.1 hx with hx | hx
        · subst hx
          unfold ranOf at hr
          cases hcc : st.cur c with
          | none => rw [check_none hcc] at hs; simp at hs
          | some d =>
            rw [hcc] at hr
            simp only [Option.map_some, ne_eq, Option.some.injEq, Bool.not_eq_true] at hr
            rw [check_raised hcc (hb c d hcc hr) hr] at hs
            simp at hs
        · exact hrest hx
      · exact hrest
  have hb := bare_state K hon h
  have hst : ranOf (state K h) c ≠ some true := by
    rw [ranOf_state K hon]
    unfold stage
    rw [hc]
    simp only [Bool.false_eq_true, if_false]
    split <;> simp
  have hbr : ∀ l st, Bare st → Bare (retexts K st l).1 := by
    intro l
    induction l with
    | nil => intro st hs; exact hs
    | cons x l ih =>
      obtain ⟨id, t⟩ := x
      intro st hs
      rw [retexts_cons]
      have := bare_check (K := K) id (bare_retext id t hs)
      split
      · exact this
      · exact ih _ this
  have hbc : ∀ l st, Bare st → Bare (creates K st l) := by
    intro l
    induction l with
    | nil => intro st hs; exact hs
    | cons x l ih =>
      obtain ⟨id, t⟩ := x
      intro st hs
      unfold creates
      cases st.cur id with
      | none => exact ih _ (bare_fresh id t false hon hs)
      | some d => exact ih _ hs
  have hb1 := hbr cs _ hb
  have hr1 := ranOf_retexts K (state K h) cs c
  unfold reply ask at hm
  cases hx : retexts K (state K h) cs with
  | mk st1 ok =>
    rw [hx] at hm hb1 hr1
    cases ok with
    | false => simp at hm
    | true =>
      simp only [Option.some.injEq] at hm
      rw [← hm]
      refine hkey _ _ (hbc cs st1 hb1) ?_
      rw [ranOf_creates]
      split
      · simp
      · rw [hr1]; exact hst

/-- Once a cell was looked at in a request, its mark does not depend on its text, and stays the
same when values are changed in place, when variables are deleted and created, when variables get
values of the same class, and when a variable that already got one gets a value of another class. -/
theorem quiet_same {K : Cfg} (hon : K.on = true) {h es : List Ev} {c : Nat}
    {cs cs' : List (Nat × Nat)} {m m' : List Nat} (hrun : hasRun h c = true)
    (hc : c ∈ ids cs) (hm : reply K h cs = some m) (hq : Quiet c (.ask cs :: h) es)
    (hc' : c ∈ ids cs') (hm' : reply K (es ++ .ask cs :: h) cs' = some m') :
    c ∈ m' ↔ c ∈ m := by
  have hr : ranOf (state K h) c = some true := by
    rw [ranOf_state K hon]
    unfold stage
    rw [if_pos hrun]
  obtain ⟨b, _, hh, hb⟩ := ask_holds hr hc hm
  obtain ⟨cell, hcur, hk⟩ := hh
  have hcl : Clean h cs := (reply_some hon h cs).1 (by rw [hm]; simp)
  have h0 : Stays c b cell.ref (since c (.ask cs :: h)) (state K (.ask cs :: h)) := by
    refine ⟨⟨cell, hcur, hk, rfl⟩, fun v s _ _ => ?_⟩
    simp only [since]
    rw [if_pos ⟨hc, clean_bool.2 hcl⟩]
    simp
  obtain ⟨⟨cell', hcur', hk', _⟩, _⟩ := stays_quiet hq h0
  rw [ask_again ⟨cell', hcur', hk'⟩ hc' hm', hb]

end Verif.Checked
