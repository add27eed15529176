import Verif.Checked.Lemmas

/-! Which requests are answered, and invariants about the verdict that is kept. -/

namespace Verif.Checked

/-- Cells that were never run keep no verdict. -/
def Bare (st : St) : Prop := ∀ id c, st.cur id = some c → c.ran = false → c.kept = none

theorem bare_check {K : Cfg} {st : St} (id : Nat) (h : Bare st) : Bare (check K st id).1 := by
  intro j d hd hr
  by_cases hj : j = id
  · subst hj
    cases hc : st.cur j with
    | none => rw [check_none hc] at hd; exact h j d hd hr
    | some c =>
      cases hk : c.kept with
      | some ok => rw [check_kept hc hk] at hd; exact h j d hd hr
      | none =>
        cases hran : c.ran with
        | false => rw [check_raised hc hk hran] at hd; exact h j d hd hr
        | true =>
          rw [check_new hc hk hran] at hd
          dsimp only at hd
          rw [if_pos rfl] at hd
          cases hd
          rw [hran] at hr
          simp at hr
  · rw [cur_check_ne K st id hj] at hd
    exact h j d hd hr

theorem bare_assign {K : Cfg} {st : St} (v : Nat) (ty : Ty) (h : Bare st) :
    Bare (assign K st v ty) := by
  intro j d hd hr
  unfold assign at hd
  cases hs : st.syms v with
  | none => rw [hs] at hd; exact h j d hd hr
  | some s =>
    rw [hs] at hd
    dsimp only at hd
    cases hc : st.cur j with
    | none => rw [hc] at hd; simp at hd
    | some c =>
      rw [hc] at hd
      simp only [Option.map_some, Option.some.injEq] at hd
      split at hd
      · rw [← hd]
      · rw [← hd] at hr ⊢
        exact h j c hc hr

theorem bare_assigns {K : Cfg} {st : St} (ws : List (Nat × Ty)) (h : Bare st) :
    Bare (assigns K st ws) := by
  induction ws generalizing st with
  | nil => exact h
  | cons w ws ih => exact ih (bare_assign w.1 w.2 h)

theorem bare_fresh {K : Cfg} {st : St} (id text : Nat) (ran : Bool) (hon : K.on = true)
    (h : Bare st) : Bare (fresh K st id text ran) := by
  intro j d hd hr
  dsimp only [fresh] at hd
  by_cases hj : j = id
  · rw [if_pos hj, hon] at hd
    cases hd
    rfl
  · rw [if_neg hj] at hd
    exact h j d hd hr

theorem bare_retext {st : St} (id text : Nat) (h : Bare st) : Bare (retext st id text) := by
  intro j d hd hr
  dsimp only [retext] at hd
  cases hc : st.cur j with
  | none => rw [hc] at hd; simp at hd
  | some c =>
    rw [hc] at hd
    simp only [Option.map_some, Option.some.injEq] at hd
    split at hd
    · rw [← hd] at hr ⊢
      exact h j c hc hr
    · rw [← hd] at hr ⊢
      exact h j c hc hr

theorem bare_state (K : Cfg) (hon : K.on = true) (h : List Ev) : Bare (state K h) := by
  induction h with
  | nil => intro j d hd; simp [state, start] at hd
  | cons e h ih =>
    cases e with
    | run id text ws =>
      exact bare_check id (bare_assigns ws (bare_check id (bare_fresh id text true hon ih)))
    | change v ann => exact ih
    | del v => exact ih
    | ask cs =>
      exact ask_ind Bare (fun _ id hb => bare_check id hb)
        (fun _ id text _ hb => bare_retext id text hb)
        (fun _ id text _ _ hb => bare_fresh id text false hon hb) ih

/-- A check fails just for cells that were never run. -/
theorem raised_iff {K : Cfg} {st : St} (hb : Bare st) (id : Nat) :
    (check K st id).2 = .raised ↔ ranOf st id = some false := by
  unfold ranOf
  cases hc : st.cur id with
  | none => rw [check_none hc]; simp
  | some c =>
    cases hk : c.kept with
    | some ok =>
      rw [check_kept hc hk]
      simp only [Option.map_some, Option.some.injEq, reduceCtorEq, false_iff]
      intro hr
      rw [hb id c hc hr] at hk
      simp at hk
    | none =>
      cases hr : c.ran with
      | false => rw [check_raised hc hk hr]; simp [hr]
      | true => rw [check_new hc hk hr]; simp [hr]

theorem retexts_ok {K : Cfg} {st : St} (hb : Bare st) (cs : List (Nat × Nat)) :
    (retexts K st cs).2 = true ↔ ∀ id ∈ ids cs, ranOf st id ≠ some false := by
  induction cs generalizing st with
  | nil => simp [retexts, ids]
  | cons x cs ih =>
    obtain ⟨id, text⟩ := x
    rw [retexts_cons]
    have hb' := bare_retext id text hb
    have hr := raised_iff (K := K) hb' id
    rw [ranOf_retext] at hr
    by_cases hx : ranOf st id = some false
    · rw [if_pos (hr.2 hx)]
      simp only [Bool.false_eq_true, false_iff]
      intro hall
      exact hall id (by simp [ids]) hx
    · rw [if_neg (fun hh => hx (hr.1 hh)), ih (bare_check id hb')]
      constructor
      · intro hall j hj
        simp only [ids, List.map_cons, List.mem_cons] at hj
        rcases hj with hj | hj
        · rw [hj]; exact hx
        · have := hall j hj
          rw [ranOf_check, ranOf_retext] at this
          exact this
      · intro hall j hj
        rw [ranOf_check, ranOf_retext]
        exact hall j (by simp only [ids, List.map_cons, List.mem_cons]; exact Or.inr hj)

theorem ask_some_iff {K : Cfg} {st : St} (hb : Bare st) (cs : List (Nat × Nat)) :
    (ask K st cs).2 ≠ none ↔ ∀ id ∈ ids cs, ranOf st id ≠ some false := by
  rw [← retexts_ok (K := K) hb cs]
  unfold ask
  cases hr : retexts K st cs with
  | mk st1 ok => cases ok <;> simp

theorem ranOf_retexts (K : Cfg) (st : St) (cs : List (Nat × Nat)) (j : Nat) :
    ranOf (retexts K st cs).1 j = ranOf st j := by
  induction cs generalizing st with
  | nil => rfl
  | cons x cs ih =>
    obtain ⟨id, text⟩ := x
    rw [retexts_cons]
    split
    · rw [ranOf_check, ranOf_retext]
    · rw [ih, ranOf_check, ranOf_retext]

theorem ranOf_marks (K : Cfg) (st : St) (cs : List (Nat × Nat)) (j : Nat) :
    ranOf (marks K st cs).1 j = ranOf st j := by
  induction cs generalizing st with
  | nil => rfl
  | cons x cs ih =>
    obtain ⟨id, text⟩ := x
    rw [marks_cons]
    dsimp only
    rw [ih, ranOf_check]

theorem ranOf_creates (K : Cfg) (st : St) (cs : List (Nat × Nat)) (j : Nat) :
    ranOf (creates K st cs) j =
      if ranOf st j = none ∧ j ∈ ids cs then some false else ranOf st j := by
  induction cs generalizing st with
  | nil => simp [creates, ids]
  | cons x cs ih =>
    obtain ⟨id, text⟩ := x
    have hmem : j ∈ ids ((id, text) :: cs) ↔ j = id ∨ j ∈ ids cs := by simp [ids]
    unfold creates
    cases hc : st.cur id with
    | none =>
      dsimp only
      rw [ih, ranOf_fresh]
      simp only [hmem]
      by_cases hj : j = id
      · have hn : ranOf st j = none := by rw [hj]; unfold ranOf; rw [hc]; rfl
        simp [hj]
        rw [hj] at hn
        simp [hn]
      · simp [hj]
    | some c =>
      dsimp only
      rw [ih]
      simp only [hmem]
      by_cases hj : j = id
      · have hn : ranOf st j ≠ none := by rw [hj]; unfold ranOf; rw [hc]; simp
        simp [hn]
      · simp [hj]

/-- What a history says of a cell: run, sent only, or unknown. -/
def stage (h : List Ev) (id : Nat) : Option Bool :=
  if hasRun h id = true then some true else if seen h id = true then some false else none

theorem stage_ne {h : List Ev} {id : Nat} :
    stage h id ≠ some false ↔ (hasRun h id = true ∨ seen h id = false) := by
  unfold stage
  cases hasRun h id <;> cases seen h id <;> simp

theorem clean_bool {h : List Ev} {cs : List (Nat × Nat)} :
    ((ids cs).all fun j => hasRun h j || !seen h j) = true ↔ Clean h cs := by
  simp [Clean, List.all_eq_true]

/-- The kernel knows which cells were run and which were sent. -/
theorem ranOf_state (K : Cfg) (hon : K.on = true) (h : List Ev) (id : Nat) :
    ranOf (state K h) id = stage h id := by
  induction h generalizing id with
  | nil => rfl
  | cons e h ih =>
    cases e with
    | run d text ws =>
      show ranOf (check K (assigns K (check K (fresh K (state K h) d text true) d).1 ws) d).1 id = _
      rw [ranOf_check, ranOf_assigns, ranOf_check, ranOf_fresh, ih]
      by_cases hd : id = d
      · subst hd
        rw [if_pos rfl]
        simp [stage, hasRun]
      · have : (d == id) = false := by simp; exact fun hh => hd hh.symm
        rw [if_neg hd]
        have e : hasRun (.run d text ws :: h) id = hasRun h id := by simp [hasRun, this]
        unfold stage
        rw [e]
        rfl
    | change v ann => exact ih id
    | del v => exact ih id
    | ask cs =>
      have hb := bare_state K hon h
      have hiff := ask_some_iff (K := K) hb cs
      have hcl : (∀ j ∈ ids cs, ranOf (state K h) j ≠ some false) ↔ Clean h cs := by
        constructor
        · intro hh j hj
          have := hh j hj
          rw [ih] at this
          exact stage_ne.1 this
        · intro hh j hj
          rw [ih]
          exact stage_ne.2 (hh j hj)
      show ranOf (ask K (state K h) cs).1 id = _
      have hrun : hasRun (.ask cs :: h) id = hasRun h id := rfl
      have hseen : seen (.ask cs :: h) id =
          (seen h id || ((ids cs).contains id && (ids cs).all fun j => hasRun h j || !seen h j)) :=
        rfl
      by_cases hC : Clean h cs
      · have hok := (retexts_ok (K := K) hb cs).2 (hcl.2 hC)
        have hall := clean_bool.2 hC
        unfold ask
        cases hr : retexts K (state K h) cs with
        | mk st1 ok =>
          rw [hr] at hok
          dsimp only at hok
          subst hok
          dsimp only
          rw [ranOf_marks, ranOf_creates]
          have h1 : ranOf st1 id = stage h id := by
            have := ranOf_retexts K (state K h) cs id
            rw [hr] at this
            rw [← ih, ← this]
          rw [h1]
          unfold stage
          rw [hrun, hseen, hall]
          cases hasRun h id <;> cases seen h id <;> by_cases hm : id ∈ ids cs <;> simp [hm]
      · have hok : (retexts K (state K h) cs).2 = false := by
          cases hx : (retexts K (state K h) cs).2 with
          | false => rfl
          | true => exact absurd (hcl.1 ((retexts_ok (K := K) hb cs).1 hx)) hC
        have hall : ((ids cs).all fun j => hasRun h j || !seen h j) = false := by
          cases hx : ((ids cs).all fun j => hasRun h j || !seen h j) with
          | false => rfl
          | true => exact absurd (clean_bool.1 hx) hC
        unfold ask
        cases hr : retexts K (state K h) cs with
        | mk st1 ok =>
          rw [hr] at hok
          dsimp only at hok
          subst hok
          dsimp only
          have h1 : ranOf st1 id = stage h id := by
            have := ranOf_retexts K (state K h) cs id
            rw [hr] at this
            rw [← ih, ← this]
          rw [h1]
          unfold stage
          rw [hrun, hseen, hall]
          simp

theorem reply_some {K : Cfg} (hon : K.on = true) (h : List Ev) (cs : List (Nat × Nat)) :
    reply K h cs ≠ none ↔ Clean h cs := by
  unfold reply
  rw [ask_some_iff (bare_state K hon h) cs]
  constructor
  · intro hh j hj
    have := hh j hj
    rw [ranOf_state K hon] at this
    exact stage_ne.1 this
  · intro hh j hj
    rw [ranOf_state K hon]
    exact stage_ne.2 (hh j hj)

/-! ### The verdict of one cell -/

/-- The verdict that is kept for a cell, if any, and whether the cell was run. -/
def Holds (c : Nat) (b : Bool) (st : St) : Prop := ∃ cell, st.cur c = some cell ∧ cell.kept = some b

theorem holds_check {K : Cfg} {st : St} {c : Nat} {b : Bool} (id : Nat) (h : Holds c b st) :
    Holds c b (check K st id).1 := by
  obtain ⟨cell, hc, hk⟩ := h
  by_cases hid : c = id
  · subst hid
    rw [check_kept hc hk]
    exact ⟨cell, hc, hk⟩
  · exact ⟨cell, by rw [cur_check_ne K st id hid]; exact hc, hk⟩

theorem holds_retext {st : St} {c : Nat} {b : Bool} (id text : Nat) (h : Holds c b st) :
    Holds c b (retext st id text) := by
  obtain ⟨cell, hc, hk⟩ := h
  by_cases hid : c = id
  · refine ⟨{ cell with text := text }, ?_, hk⟩
    dsimp only [retext]
    rw [hc]
    simp [hid]
  · refine ⟨cell, ?_, hk⟩
    dsimp only [retext]
    rw [hc]
    simp [hid]

theorem holds_fresh {K : Cfg} {st : St} {c : Nat} {b : Bool} {id : Nat} (text : Nat) (ran : Bool)
    (hid : c ≠ id) (h : Holds c b st) : Holds c b (fresh K st id text ran) := by
  obtain ⟨cell, hc, hk⟩ := h
  refine ⟨cell, ?_, hk⟩
  dsimp only [fresh]
  rw [if_neg hid]
  exact hc

theorem holds_creates {K : Cfg} {st : St} {c : Nat} {b : Bool} (cs : List (Nat × Nat))
    (h : Holds c b st) : Holds c b (creates K st cs) := by
  induction cs generalizing st with
  | nil => exact h
  | cons x cs ih =>
    obtain ⟨id, text⟩ := x
    unfold creates
    cases hc : st.cur id with
    | some d => exact ih h
    | none =>
      refine ih (holds_fresh text false ?_ h)
      intro hid
      obtain ⟨cell, hcc, _⟩ := h
      rw [hid, hc] at hcc
      simp at hcc

theorem holds_retexts {K : Cfg} {st : St} {c : Nat} {b : Bool} (cs : List (Nat × Nat))
    (h : Holds c b st) : Holds c b (retexts K st cs).1 := by
  induction cs generalizing st with
  | nil => exact h
  | cons x cs ih =>
    obtain ⟨id, text⟩ := x
    rw [retexts_cons]
    have hc := holds_check (K := K) id (holds_retext id text h)
    split
    · exact hc
    · exact ih hc

theorem holds_marks {K : Cfg} {st : St} {c : Nat} {b : Bool} (cs : List (Nat × Nat))
    (h : Holds c b st) :
    Holds c b (marks K st cs).1 ∧ (c ∈ (marks K st cs).2 ↔ c ∈ ids cs ∧ b = false) := by
  induction cs generalizing st with
  | nil => exact ⟨h, by simp [marks, ids]⟩
  | cons x cs ih =>
    obtain ⟨id, text⟩ := x
    rw [marks_cons]
    have hmem : c ∈ ids ((id, text) :: cs) ↔ c = id ∨ c ∈ ids cs := by simp [ids]
    obtain ⟨h1, h2⟩ := ih (holds_check (K := K) id h)
    refine ⟨h1, ?_⟩
    rw [hmem]
    dsimp only
    by_cases hid : c = id
    · subst hid
      obtain ⟨cell, hc, hk⟩ := h
      have hs : (check K st c).2 = .said b := by rw [check_kept hc hk]
      rw [hs]
      cases b with
      | false => simp
      | true =>
        rw [if_neg (by simp)]
        rw [h2]
        simp
    · split
      · simp [hid, h2]
      · simp [hid, h2]

/-- Once a cell that was run has been sent, its verdict is kept. -/
theorem holds_sent {K : Cfg} {st : St} {c : Nat} {cs : List (Nat × Nat)}
    (hr : ranOf st c = some true) (hc : c ∈ ids cs) (hok : (retexts K st cs).2 = true) :
    ∃ b, Holds c b (retexts K st cs).1 := by
  induction cs generalizing st with
  | nil => simp [ids] at hc
  | cons x cs ih =>
    obtain ⟨id, text⟩ := x
    have hmem : c = id ∨ c ∈ ids cs := by simpa [ids] using hc
    rw [retexts_cons] at hok ⊢
    by_cases hx : (check K (retext st id text) id).2 = .raised
    · rw [if_pos hx] at hok
      simp at hok
    · rw [if_neg hx] at hok ⊢
      rcases hmem with hid | hm
      · subst hid
        have hr' : ranOf (retext st c text) c = some true := by rw [ranOf_retext]; exact hr
        have : ∃ b, Holds c b (check K (retext st c text) c).1 := by
          unfold ranOf at hr'
          cases hcur : (retext st c text).cur c with
          | none => rw [hcur] at hr'; simp at hr'
          | some cell =>
            rw [hcur] at hr'
            simp only [Option.map_some, Option.some.injEq] at hr'
            cases hk : cell.kept with
            | some ok => exact ⟨ok, by rw [check_kept hcur hk]; exact ⟨cell, hcur, hk⟩⟩
            | none =>
              refine ⟨K.mypy (decls K (retext st c text) cell.text) cell.text, ?_⟩
              rw [check_new hcur hk hr']
              exact ⟨_, if_pos rfl, rfl⟩
        obtain ⟨b, hb⟩ := this
        exact ⟨b, holds_retexts cs hb⟩
      · exact ih (by rw [ranOf_check, ranOf_retext]; exact hr) hm hok

/-- An answered request: the verdict of a cell that was run and sent is kept, and the cell is
marked if the verdict is bad. -/
theorem ask_holds {K : Cfg} {st : St} {c : Nat} {cs : List (Nat × Nat)} {m : List Nat}
    (hr : ranOf st c = some true) (hc : c ∈ ids cs) (hm : (ask K st cs).2 = some m) :
    ∃ b, Holds c b (retexts K st cs).1 ∧ Holds c b (ask K st cs).1 ∧ (c ∈ m ↔ b = false) := by
  have hs := holds_sent (K := K) hr hc
  unfold ask at hm ⊢
  cases hx : retexts K st cs with
  | mk st1 ok =>
    rw [hx] at hm hs
    cases ok with
    | false => simp at hm
    | true =>
      obtain ⟨b, hb⟩ := hs rfl
      obtain ⟨h1, h2⟩ := holds_marks (K := K) cs (holds_creates (K := K) cs hb)
      simp only [Option.some.injEq] at hm
      refine ⟨b, hb, h1, ?_⟩
      rw [← hm, h2]
      simp [hc]

theorem ask_again {K : Cfg} {st : St} {c : Nat} {b : Bool} {cs : List (Nat × Nat)} {m : List Nat}
    (h : Holds c b st) (hc : c ∈ ids cs) (hm : (ask K st cs).2 = some m) : c ∈ m ↔ b = false := by
  have hs := holds_retexts (K := K) cs h
  unfold ask at hm
  cases hx : retexts K st cs with
  | mk st1 ok =>
    rw [hx] at hm hs
    cases ok with
    | false => simp at hm
    | true =>
      obtain ⟨_, h2⟩ := holds_marks (K := K) cs (holds_creates (K := K) cs hs)
      simp only [Option.some.injEq] at hm
      rw [← hm, h2]
      simp [hc]

end Verif.Checked
