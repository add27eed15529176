import Verif.Checked.Props

/-! Concrete cases for the theorems of `Verif.Checked.Props`. -/

namespace Verif.Checked

/-- Text 7 reads variable 1 and passes if it is declared with annotation 10 (`int`); text 8 reads it
and passes if it is declared with annotation 20 (`str`); other texts read nothing and pass. -/
def Kw : Cfg where
  on := true
  reads := fun t => if t = 7 ∨ t = 8 then [1] else []
  mypy := fun d t =>
    if t = 7 then decide (d 1 = some 10) else if t = 8 then decide (d 1 = some 20) else true

/-- `int`, `str`, and two types of lists. -/
def tInt : Ty := ⟨1, 10⟩
def tStr : Ty := ⟨2, 20⟩
def tListInt : Ty := ⟨3, 30⟩
def tListStr : Ty := ⟨3, 40⟩

/-- Cell 0 makes variable 1 an `int`, cell 1 uses it as an `int`, the client asks, and cell 0 makes
it a `str`. -/
def hw : List Ev :=
  [.run 0 6 [(1, tStr)], .ask [(0, 5), (1, 7)], .run 1 7 [], .run 0 5 [(1, tInt)]]

theorem hw_calm : Calm Kw 1 7 hw := by
  refine ⟨⟨?_, ?_⟩, ?_, trivial⟩
  · exact ⟨rfl, trivial⟩
  · intro b hb
    simpa using hb
  · intro _
    exact Or.inr ⟨tInt, rfl, by decide, by decide⟩

/-- The cell is marked after the change, and it does fail. -/
example : reply Kw hw [(0, 6), (1, 7)] = some [1] := by decide

example : fails Kw (types hw) 7 :=
  (marked_iff_partial (K := Kw) rfl hw_calm (cs := [(0, 6), (1, 7)]) (by decide)
    (fun b hb => by simpa using hb) (m := [1]) (by decide)).1 (by decide)

/-- Cell 2 is new in the first request, which is answered, and not run, so the next one fails. -/
example : reply Kw (.ask [(2, 7)] :: hw) [(2, 7)] = none :=
  Classical.byContradiction fun hne =>
    absurd ((answered_iff (K := Kw) rfl (.ask [(2, 7)] :: hw) [(2, 7)]).1 hne 2 (by decide))
      (by decide)

example : reply Kw hw [(2, 7)] ≠ none :=
  (answered_iff rfl hw [(2, 7)]).2 (by
    intro id hid
    have : id = 2 := by simpa [ids] using hid
    subst this
    exact Or.inr (by decide))

/-- With the setting off nothing is marked. -/
example : reply { Kw with on := false } hw [(0, 6), (1, 7), (2, 8)] = some [] :=
  off_unmarked rfl hw _

/-- Text 7 fails for a `str`, but cell 2, which has this text and was not run, is not marked. -/
example : (2 ∉ ([1] : List Nat)) ∧ fails Kw (types hw) 7 :=
  ⟨unrun_unmarked (K := Kw) rfl (h := hw) (c := 2) (by decide) (cs := [(0, 6), (1, 7), (2, 7)])
    (m := [1]) (by decide), rfl⟩

/-- Edits: cell 1 is marked for text 7, and after it is edited to text 8, which passes, still. -/
theorem edited_wrong :
    ∃ m, reply Kw (.ask [(0, 6), (1, 7)] :: hw) [(0, 6), (1, 8)] = some m ∧ 1 ∈ m ∧
      ¬ fails Kw (types (.ask [(0, 6), (1, 7)] :: hw)) 8 := by
  refine ⟨[1], by decide, ?_, by simp [fails, Kw, types, hw, after, tStr]⟩
  exact (quiet_same (K := Kw) rfl (h := hw) (es := []) (c := 1) (cs := [(0, 6), (1, 7)])
    (m := [1]) (by decide) (by decide) (by decide) trivial (by decide)
    (cs' := [(0, 6), (1, 8)]) (by decide)).2 (by decide)

/-- Two assignments: cell 0 makes the variable an `int` once more and then a `str`; cell 1 fails and
is not marked. -/
def hTwice : List Ev := [.run 1 7 [], .run 0 5 [(1, tInt)]]

theorem twice_wrong :
    ∃ m, reply Kw ([.run 0 6 [(1, tInt), (1, tStr)]] ++ .ask [(0, 5), (1, 7)] :: hTwice)
        [(0, 6), (1, 7)] = some m ∧ 1 ∉ m ∧
      fails Kw (types ([.run 0 6 [(1, tInt), (1, tStr)]] ++ .ask [(0, 5), (1, 7)] :: hTwice)) 7 := by
  refine ⟨[], by decide, ?_, rfl⟩
  intro hx
  have := (quiet_same (K := Kw) rfl (h := hTwice) (es := [.run 0 6 [(1, tInt), (1, tStr)]]) (c := 1)
    (cs := [(0, 5), (1, 7)]) (m := []) (by decide) (by decide) (by decide)
    ⟨by decide, trivial, Or.inr (Or.inr ⟨tInt, rfl, rfl⟩), Or.inl (by decide), trivial⟩
    (cs' := [(0, 6), (1, 7)]) (m' := []) (by decide) (by decide)).1 hx
  exact absurd this (by decide)

/-- Lists: text 7 of this checker wants a list of `int`; a list of `str` is of the same class. -/
def Kl : Cfg where
  on := true
  reads := fun t => if t = 7 then [1] else []
  mypy := fun d t => if t = 7 then decide (d 1 = some 30) else true

theorem parts_wrong :
    ∃ m, reply Kl [.run 0 6 [(1, tListStr)], .ask [(0, 5), (1, 7)], .run 1 7 [],
        .run 0 5 [(1, tListInt)]] [(0, 6), (1, 7)] = some m ∧ 1 ∉ m ∧
      fails Kl (types [.run 0 6 [(1, tListStr)], .ask [(0, 5), (1, 7)], .run 1 7 [],
        .run 0 5 [(1, tListInt)]]) 7 :=
  ⟨[], by decide, by decide, rfl⟩

/-- A variable that did not exist: cell 1 was run before cell 0 (and ended with an exception), is
marked, and stays marked although its variable now has the right type. -/
theorem created_wrong :
    ∃ m, reply Kw [.run 0 5 [(1, tInt)], .ask [(1, 7)], .run 1 7 []] [(0, 5), (1, 7)] = some m ∧
      1 ∈ m ∧ ¬ fails Kw (types [.run 0 5 [(1, tInt)], .ask [(1, 7)], .run 1 7 []]) 7 :=
  ⟨[1], by decide, by decide, by simp [fails, Kw, types, after, tInt]⟩

/-- The claim does not hold in general. -/
theorem claim_false :
    ¬ ∀ (K : Cfg) (h : List Ev) (cs : List (Nat × Nat)) (m : List Nat) (c text : Nat),
      K.on = true → (c, text) ∈ cs → (∀ b, (c, b) ∈ cs → b = text) → reply K h cs = some m →
      (c ∈ m ↔ fails K (types h) text) := by
  intro hall
  obtain ⟨m, hm, hin, hnf⟩ := edited_wrong
  exact hnf ((hall Kw _ _ m 1 8 rfl (by decide) (fun b hb => by simpa using hb) hm).1 hin)

end Verif.Checked
