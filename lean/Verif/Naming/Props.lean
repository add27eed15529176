import Verif.Naming.Inv

/-! C163: the names under which parts of objects are shown are expressions for them. -/

namespace Verif.Naming
open Verif

/-- In sessions of gentle statements with lists, the name that is shown for a part of an object that can be got at is an expression for that part. -/
theorem shown_partial (first : Obj → Bool) {h : List Ev} (hg : AllGentle h) (hl : Lists h) {z : Nat} {o : Obj} (ho : From (pyRun h) z o)
    {k : Key} {t : Thing} (ht : thing (pyRun h) o k = some t) : denotes (pyRun h) ((run h).shown first o k) = some t := by
  have hk : ∃ n, k = .int n := by
    unfold thing at ht
    cases hi : (pyRun h).item o k with
    | none => rw [hi] at ht; cases ht
    | some i => exact ints_run hl _ _ _ hi k List.mem_cons_self
  obtain ⟨n, rfl⟩ := hk
  have hr := right_run first hg hl z o (by rwa [run_py])
  rw [run_py] at hr
  unfold St.shown
  rw [denotes_append _ hr]
  simp only [keyTok, go, ht]

theorem go_word (py : Py) (w : Nat) : ∀ (a : List Tok) (t : Thing), go py t (a ++ [.lbr, .name w, .rbr]) = none
  | [], t => by cases t <;> simp [go]
  | [c], t => by cases t <;> cases c <;> simp [go]
  | [c, d], t => by cases t <;> cases c <;> cases d <;> simp [go]
  | c :: d :: e :: a, t => by
    cases t with
    | plainAt o k => simp [go]
    | obj o =>
      cases c with
      | lbr =>
        cases d with
        | num n =>
          cases e with
          | rbr =>
            simp only [List.cons_append, go]
            cases thing py o (.int n) with
            | none => rfl
            | some t => exact go_word py w a t
          | name | num | str | lbr | dot => simp [go]
        | str v =>
          cases e with
          | rbr =>
            simp only [List.cons_append, go]
            cases thing py o (.word v) with
            | none => rfl
            | some t => exact go_word py w a t
          | name | num | str | lbr | dot => simp [go]
        | name | lbr | rbr | dot => simp [go]
      | name | num | str | rbr | dot => simp [go]

/-- Keys that are words are shown without quotes: the name is never an expression for the part, in no session. -/
theorem word_unquoted (first : Obj → Bool) (h : List Ev) (o : Obj) (w : Nat) : denotes (pyRun h) ((run h).shown first o (.word w)) = none := by
  unfold St.shown
  generalize path (run h).name first o.lit o.pos = a
  cases a with
  | nil => rfl
  | cons c a =>
    cases c with
    | name x =>
      simp only [List.cons_append, denotes, keyTok]
      cases (pyRun h).env x with
      | none => rfl
      | some o => exact go_word _ _ _ _
    | num | str | lbr | rbr | dot => rfl

/-- The number 1 and the string '1' are shown alike: where a dictionary has both as keys, one of the names is wrong. -/
theorem digits_clash (first : Obj → Bool) (h : List Ev) (o : Obj) (n : Nat) {t t' : Thing} (ht : thing (pyRun h) o (.int n) = some t)
    (ht' : thing (pyRun h) o (.digits n) = some t') (hne : t ≠ t') :
    ¬ (denotes (pyRun h) ((run h).shown first o (.int n)) = thing (pyRun h) o (.int n) ∧
       denotes (pyRun h) ((run h).shown first o (.digits n)) = thing (pyRun h) o (.digits n)) := by
  rintro ⟨h1, h2⟩
  have : (run h).shown first o (.digits n) = (run h).shown first o (.int n) := rfl
  rw [this, h1, ht, ht'] at h2
  exact hne (Option.some.inj h2)

theorem items_closed (py : Py) {items : List (Pos × Src)} (hc : Closed items) : ∃ t, py.items items = some t ∧ ∀ p i, (p, i) ∈ t → i = .plain ∨ i = .sub := by
  induction items with
  | nil => exact ⟨[], rfl, fun p i h => (by cases h)⟩
  | cons a r ih =>
    obtain ⟨p, s⟩ := a
    obtain ⟨t, ht, hm⟩ := ih fun p s h => hc p s (List.mem_cons_of_mem _ h)
    rcases hc p s List.mem_cons_self with rfl | rfl
    · refine ⟨(p, .plain) :: t, by simp only [Py.items, ht, Option.map_some], fun q i hq => ?_⟩
      rcases List.mem_cons.1 hq with hq | hq
      · cases hq; exact Or.inl rfl
      · exact hm q i hq
    · refine ⟨(p, .sub) :: t, by simp only [Py.items, ht, Option.map_some], fun q i hq => ?_⟩
      rcases List.mem_cons.1 hq with hq | hq
      · cases hq; exact Or.inr rfl
      · exact hm q i hq

theorem thing_closed {py : Py} {o : Obj} {k : Key} {t : Thing} (hc : ∀ p i, (p, i) ∈ py.tab o.lit → i = .plain ∨ i = .sub)
    (h : thing py o k = some t) : t = .plainAt o k ∨ t = .obj ⟨o.lit, k :: o.pos⟩ := by
  unfold thing at h
  cases hi : py.item o k with
  | none => rw [hi] at h; cases h
  | some i =>
    rw [hi] at h
    rcases hc _ _ (Assoc.mem_of_get hi) with rfl | rfl
    · cases h; exact Or.inl rfl
    · cases h; exact Or.inr rfl

/-- `x = [...]`, `y = x`, and the first of these again: what `y` has is shown as what `x` now has. -/
theorem rebound_wrong (first : Obj → Bool) (h : List Ev) {x y : Nat} (hxy : x ≠ y) (hy : (pyRun h).env y = none) {T1 T2 : List (Pos × Src)}
    (c1 : Closed T1) (c2 : Closed T2) :
    ∃ o o', (pyRun (.display x T2 :: .copy y x [] :: .display x T1 :: h)).env y = some o ∧
      (pyRun (.display x T2 :: .copy y x [] :: .display x T1 :: h)).env x = some o' ∧
      ∀ n, denotes (pyRun (.display x T2 :: .copy y x [] :: .display x T1 :: h)) ((run (.display x T2 :: .copy y x [] :: .display x T1 :: h)).shown first o (.int n))
          = thing (pyRun (.display x T2 :: .copy y x [] :: .display x T1 :: h)) o' (.int n) ∧
        ∀ t, thing (pyRun (.display x T2 :: .copy y x [] :: .display x T1 :: h)) o (.int n) = some t →
          denotes (pyRun (.display x T2 :: .copy y x [] :: .display x T1 :: h))
            ((run (.display x T2 :: .copy y x [] :: .display x T1 :: h)).shown first o (.int n)) ≠ some t := by
  obtain ⟨t1, ht1, hm1⟩ := items_closed (run h).py c1
  have hpy := run_py h
  rw [← hpy] at hy
  have e1 : (run (.display x T1 :: h)) = ⟨⟨upd (run h).py.tab (run h).py.next t1, (run h).py.next + 1, upd (run h).py.env x (some ⟨(run h).py.next, []⟩)⟩,
      fun b => if b = ⟨(run h).py.next, []⟩ then some x else (run h).name b⟩ := by
    simp only [run, St.step, Py.step, ht1]
  have e2 : (run (.copy y x [] :: .display x T1 :: h)) = ⟨⟨upd (run h).py.tab (run h).py.next t1, (run h).py.next + 1,
      upd (upd (run h).py.env x (some ⟨(run h).py.next, []⟩)) y (some ⟨(run h).py.next, []⟩)⟩,
      fun b => if b = ⟨(run h).py.next, []⟩ then some x else (run h).name b⟩ := by
    have : run (.copy y x [] :: .display x T1 :: h) = (run (.display x T1 :: h)).step (.copy y x []) := rfl
    rw [this, e1]
    simp [St.step, Py.step, Py.value, Py.walk, upd, rename, Ne.symm hxy, hy]
  obtain ⟨t2, ht2, hm2⟩ := items_closed (run (.copy y x [] :: .display x T1 :: h)).py c2
  have e3 : run (.display x T2 :: .copy y x [] :: .display x T1 :: h) = ⟨⟨upd (run (.copy y x [] :: .display x T1 :: h)).py.tab ((run h).py.next + 1) t2,
      (run h).py.next + 2, upd (run (.copy y x [] :: .display x T1 :: h)).py.env x (some ⟨(run h).py.next + 1, []⟩)⟩,
      fun b => if b = ⟨(run h).py.next + 1, []⟩ then some x else (run (.copy y x [] :: .display x T1 :: h)).name b⟩ := by
    have : run (.display x T2 :: .copy y x [] :: .display x T1 :: h) = (run (.copy y x [] :: .display x T1 :: h)).step (.display x T2) := rfl
    rw [this]
    have hnext : (run (.copy y x [] :: .display x T1 :: h)).py.next = (run h).py.next + 1 := by rw [e2]
    simp only [St.step, Py.step, ht2, hnext]
  rw [← run_py (.display x T2 :: .copy y x [] :: .display x T1 :: h)]
  have htab : (run (.display x T2 :: .copy y x [] :: .display x T1 :: h)).py.tab ((run h).py.next + 1) = t2 := by rw [e3]; simp [upd]
  have henvx : (run (.display x T2 :: .copy y x [] :: .display x T1 :: h)).py.env x = some ⟨(run h).py.next + 1, []⟩ := by rw [e3]; simp [upd]
  have henvy : (run (.display x T2 :: .copy y x [] :: .display x T1 :: h)).py.env y = some ⟨(run h).py.next, []⟩ := by
    rw [e3, e2]; simp [upd, Ne.symm hxy]
  have hname : (run (.display x T2 :: .copy y x [] :: .display x T1 :: h)).name ⟨(run h).py.next, []⟩ = some x := by
    rw [e3, e2]; simp
  generalize run (.display x T2 :: .copy y x [] :: .display x T1 :: h) = s at *
  refine ⟨⟨(run h).py.next, []⟩, ⟨(run h).py.next + 1, []⟩, henvy, henvx, fun n => ?_⟩
  have hd : denotes s.py (s.shown first ⟨(run h).py.next, []⟩ (.int n)) = thing s.py ⟨(run h).py.next + 1, []⟩ (.int n) := by
    simp only [St.shown, path, hname, keyTok, List.cons_append, List.nil_append, denotes, henvx, go]
    cases thing s.py ⟨(run h).py.next + 1, []⟩ (.int n) <;> rfl
  refine ⟨hd, fun t ht hc => ?_⟩
  rw [hd] at hc
  rcases thing_closed (by rw [htab]; exact hm2) hc with rfl | rfl
  · unfold thing at ht
    cases hi : s.py.item ⟨(run h).py.next, []⟩ (.int n) with
    | none => rw [hi] at ht; cases ht
    | some i =>
      rw [hi] at ht
      cases i with
      | plain => simp at ht
      | sub => simp at ht
      | ref o => simp at ht
  · have h1 : s.py.tab (run h).py.next = t1 := by rw [e3, e2]; simp [upd]
    rcases thing_closed (o := ⟨(run h).py.next, []⟩) (by rw [h1]; exact hm1) ht with h2 | h2
    · cases h2
    · simp at h2

/-- `x = [...]`, `y = x`, `del x`: what `y` has is shown with a name that is no longer there. -/
theorem deleted_wrong (first : Obj → Bool) (h : List Ev) {x y : Nat} (hxy : x ≠ y) (hy : (pyRun h).env y = none) {T : List (Pos × Src)} (c : Closed T) :
    ∃ o, (pyRun (.del x :: .copy y x [] :: .display x T :: h)).env y = some o ∧
      ∀ k, denotes (pyRun (.del x :: .copy y x [] :: .display x T :: h)) ((run (.del x :: .copy y x [] :: .display x T :: h)).shown first o k) = none := by
  obtain ⟨t, ht, -⟩ := items_closed (run h).py c
  rw [← run_py h] at hy
  have e1 : (run (.display x T :: h)) = ⟨⟨upd (run h).py.tab (run h).py.next t, (run h).py.next + 1, upd (run h).py.env x (some ⟨(run h).py.next, []⟩)⟩,
      fun b => if b = ⟨(run h).py.next, []⟩ then some x else (run h).name b⟩ := by
    simp only [run, St.step, Py.step, ht]
  have e2 : (run (.copy y x [] :: .display x T :: h)) = ⟨⟨upd (run h).py.tab (run h).py.next t, (run h).py.next + 1,
      upd (upd (run h).py.env x (some ⟨(run h).py.next, []⟩)) y (some ⟨(run h).py.next, []⟩)⟩,
      fun b => if b = ⟨(run h).py.next, []⟩ then some x else (run h).name b⟩ := by
    have : run (.copy y x [] :: .display x T :: h) = (run (.display x T :: h)).step (.copy y x []) := rfl
    rw [this, e1]
    simp [St.step, Py.step, Py.value, Py.walk, upd, rename, Ne.symm hxy, hy]
  rw [← run_py (.del x :: .copy y x [] :: .display x T :: h)]
  have e3 : run (.del x :: .copy y x [] :: .display x T :: h) = (run (.copy y x [] :: .display x T :: h)).step (.del x) := rfl
  rw [e3, e2]
  refine ⟨⟨(run h).py.next, []⟩, by simp [St.step, Py.step, upd, Ne.symm hxy], fun k => ?_⟩
  simp [St.step, Py.step, St.shown, path, denotes, upd]

/-- `x = [...]`, `x = [x]`: the parts of the inner list are shown as parts of the outer one. -/
theorem wrapped_wrong (first : Obj → Bool) (h : List Ev) {x : Nat} {T : List (Pos × Src)} (c : Closed T) :
    ∃ o o', (pyRun (.display x [([.int 0], .ref x [])] :: .display x T :: h)).env x = some o' ∧
      thing (pyRun (.display x [([.int 0], .ref x [])] :: .display x T :: h)) o' (.int 0) = some (.obj o) ∧
      ∀ n t, thing (pyRun (.display x [([.int 0], .ref x [])] :: .display x T :: h)) o (.int n) = some t →
        denotes (pyRun (.display x [([.int 0], .ref x [])] :: .display x T :: h))
          ((run (.display x [([.int 0], .ref x [])] :: .display x T :: h)).shown first o (.int n)) ≠ some t := by
  obtain ⟨t, ht, hm⟩ := items_closed (run h).py c
  have e1 : (run (.display x T :: h)) = ⟨⟨upd (run h).py.tab (run h).py.next t, (run h).py.next + 1, upd (run h).py.env x (some ⟨(run h).py.next, []⟩)⟩,
      fun b => if b = ⟨(run h).py.next, []⟩ then some x else (run h).name b⟩ := by
    simp only [run, St.step, Py.step, ht]
  have e2 : run (.display x [([.int 0], .ref x [])] :: .display x T :: h) =
      ⟨⟨upd (upd (run h).py.tab (run h).py.next t) ((run h).py.next + 1) [([.int 0], .ref ⟨(run h).py.next, []⟩)], (run h).py.next + 2,
        upd (upd (run h).py.env x (some ⟨(run h).py.next, []⟩)) x (some ⟨(run h).py.next + 1, []⟩)⟩,
      fun b => if b = ⟨(run h).py.next + 1, []⟩ then some x else if b = ⟨(run h).py.next, []⟩ then some x else (run h).name b⟩ := by
    have : run (.display x [([.int 0], .ref x [])] :: .display x T :: h) = (run (.display x T :: h)).step (.display x [([.int 0], .ref x [])]) := rfl
    rw [this, e1]
    simp [St.step, Py.step, Py.items, Py.value, Py.walk, upd]
  rw [← run_py (.display x [([.int 0], .ref x [])] :: .display x T :: h)]
  have htab : (run (.display x [([.int 0], .ref x [])] :: .display x T :: h)).py.tab ((run h).py.next + 1) =
      [([.int 0], .ref ⟨(run h).py.next, []⟩)] := by rw [e2]; simp [upd]
  have htab1 : (run (.display x [([.int 0], .ref x [])] :: .display x T :: h)).py.tab (run h).py.next = t := by rw [e2]; simp [upd]
  have henvx : (run (.display x [([.int 0], .ref x [])] :: .display x T :: h)).py.env x = some ⟨(run h).py.next + 1, []⟩ := by rw [e2]; simp [upd]
  have hname : (run (.display x [([.int 0], .ref x [])] :: .display x T :: h)).name ⟨(run h).py.next, []⟩ = some x := by rw [e2]; simp
  generalize run (.display x [([.int 0], .ref x [])] :: .display x T :: h) = s at *
  refine ⟨⟨(run h).py.next, []⟩, ⟨(run h).py.next + 1, []⟩, henvx, by simp [thing, Py.item, htab, Assoc.get], fun n v hv hc => ?_⟩
  have hd : denotes s.py (s.shown first ⟨(run h).py.next, []⟩ (.int n)) = thing s.py ⟨(run h).py.next + 1, []⟩ (.int n) := by
    simp only [St.shown, path, hname, keyTok, List.cons_append, List.nil_append, denotes, henvx, go]
    cases thing s.py ⟨(run h).py.next + 1, []⟩ (.int n) <;> rfl
  rw [hd] at hc
  have hv' : v = .obj ⟨(run h).py.next, []⟩ := by
    simp only [thing, Py.item, htab, Assoc.get] at hc
    by_cases h0 : ([Key.int 0] : Pos) = [.int n]
    · rw [if_pos h0] at hc; exact (Option.some.inj hc).symm
    · rw [if_neg h0] at hc; cases hc
  rcases thing_closed (o := ⟨(run h).py.next, []⟩) (by rw [htab1]; exact hm) hv with h2 | h2
  · rw [hv'] at h2; cases h2
  · rw [hv'] at h2; simp at h2

end Verif.Naming
