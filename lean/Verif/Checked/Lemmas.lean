import Verif.Checked.Spec

/-! Lemmas about single steps, and the link with the description of what happened. -/

namespace Verif.Checked

/-- The types of the variables in a state. -/
def tyOf (st : St) (v : Nat) : Option Ty := (st.syms v).map Sym.ty

theorem decls_eq (K : Cfg) (st : St) (text : Nat) :
    decls K st text =
      fun v => if v ∈ K.reads text then (tyOf st v).map Ty.ann else none := by
  funext v
  simp only [decls, tyOf, Option.map_map]
  rfl

theorem tyOf_enter (K : Cfg) (st : St) (c : Cell) (v : Nat) :
    tyOf (enter K st c) v = tyOf st v := by
  simp only [tyOf, enter, Option.map_map]
  cases st.syms v with
  | none => rfl
  | some s =>
    simp only [Option.map_some, Function.comp_apply, Option.some.injEq]
    by_cases hv : v ∈ K.reads c.text
    · rw [if_pos hv]
    · rw [if_neg hv]

theorem check_none {K : Cfg} {st : St} {id : Nat} (h : st.cur id = none) :
    check K st id = (st, .absent) := by
  unfold check
  rw [h]

theorem check_kept {K : Cfg} {st : St} {id : Nat} {c : Cell} {ok : Bool} (h : st.cur id = some c)
    (hk : c.kept = some ok) : check K st id = (enter K st c, .said ok) := by
  unfold check
  rw [h]
  dsimp only
  rw [hk]

theorem check_raised {K : Cfg} {st : St} {id : Nat} {c : Cell} (h : st.cur id = some c)
    (hk : c.kept = none) (hr : c.ran = false) : check K st id = (enter K st c, .raised) := by
  unfold check
  rw [h]
  dsimp only
  rw [hk]
  dsimp only
  rw [hr]
  rfl

theorem check_new {K : Cfg} {st : St} {id : Nat} {c : Cell} (h : st.cur id = some c)
    (hk : c.kept = none) (hr : c.ran = true) :
    check K st id =
      ({ enter K st c with
          cur := fun j =>
            if j = id then some { c with kept := some (K.mypy (decls K st c.text) c.text) }
            else st.cur j },
        .said (K.mypy (decls K st c.text) c.text)) := by
  unfold check
  rw [h]
  dsimp only
  rw [hk]
  dsimp only
  rw [hr]
  rfl

theorem tyOf_check (K : Cfg) (st : St) (id v : Nat) : tyOf (check K st id).1 v = tyOf st v := by
  cases h : st.cur id with
  | none => rw [check_none h]
  | some c =>
    cases hk : c.kept with
    | some ok => rw [check_kept h hk]; exact tyOf_enter K st c v
    | none =>
      cases hr : c.ran with
      | false => rw [check_raised h hk hr]; exact tyOf_enter K st c v
      | true => rw [check_new h hk hr]; exact tyOf_enter K st c v

theorem next_check (K : Cfg) (st : St) (id : Nat) : (check K st id).1.next = st.next := by
  cases h : st.cur id with
  | none => rw [check_none h]
  | some c =>
    cases hk : c.kept with
    | some ok => rw [check_kept h hk]; rfl
    | none =>
      cases hr : c.ran with
      | false => rw [check_raised h hk hr]; rfl
      | true => rw [check_new h hk hr]; rfl

/-- A check leaves the other cells alone. -/
theorem cur_check_ne (K : Cfg) (st : St) (id : Nat) {j : Nat} (hj : j ≠ id) :
    (check K st id).1.cur j = st.cur j := by
  cases h : st.cur id with
  | none => rw [check_none h]
  | some c =>
    cases hk : c.kept with
    | some ok => rw [check_kept h hk]; rfl
    | none =>
      cases hr : c.ran with
      | false => rw [check_raised h hk hr]; rfl
      | true => rw [check_new h hk hr]; exact if_neg hj

/-- What a check does to the cell that is checked. -/
theorem cur_check_self (K : Cfg) (st : St) (id : Nat) :
    (∃ kept, ∀ c, st.cur id = some c → (check K st id).1.cur id = some { c with kept := kept }) := by
  cases h : st.cur id with
  | none => exact ⟨none, fun c hc => by simp at hc⟩
  | some c =>
    cases hk : c.kept with
    | some ok =>
      refine ⟨some ok, fun d hd => ?_⟩
      rw [check_kept h hk]
      cases hd
      rw [← hk]
      exact h
    | none =>
      cases hr : c.ran with
      | false =>
        refine ⟨none, fun d hd => ?_⟩
        rw [check_raised h hk hr]
        cases hd
        rw [← hk]
        exact h
      | true =>
        refine ⟨some (K.mypy (decls K st c.text) c.text), fun d hd => ?_⟩
        rw [check_new h hk hr]
        cases hd
        exact if_pos rfl

/-- Which cells exist and which were run. -/
def ranOf (st : St) (id : Nat) : Option Bool := (st.cur id).map Cell.ran

theorem ranOf_check (K : Cfg) (st : St) (id j : Nat) :
    ranOf (check K st id).1 j = ranOf st j := by
  by_cases hj : j = id
  · subst hj
    obtain ⟨kept, hc⟩ := cur_check_self K st j
    unfold ranOf
    cases h : st.cur j with
    | none => rw [check_none h, h]
    | some c => rw [hc c h]; rfl
  · unfold ranOf
    rw [cur_check_ne K st id hj]

theorem tyOf_assign (K : Cfg) (st : St) (v : Nat) (ty : Ty) (u : Nat) :
    tyOf (assign K st v ty) u = if u = v then some ty else tyOf st u := by
  unfold assign
  cases hs : st.syms v with
  | none =>
    dsimp only [tyOf]
    by_cases hu : u = v
    · rw [if_pos hu, if_pos hu]; rfl
    · rw [if_neg hu, if_neg hu]
  | some s =>
    dsimp only [tyOf]
    by_cases hu : u = v
    · rw [if_pos hu, if_pos hu]; rfl
    · rw [if_neg hu, if_neg hu]

theorem ranOf_assign (K : Cfg) (st : St) (v : Nat) (ty : Ty) (j : Nat) :
    ranOf (assign K st v ty) j = ranOf st j := by
  unfold assign
  cases hs : st.syms v with
  | none => rfl
  | some s =>
    dsimp only [ranOf]
    cases hc : st.cur j with
    | none => rfl
    | some c =>
      simp only [Option.map_some, Option.some.injEq]
      split <;> rfl

theorem tyOf_assigns (K : Cfg) (st : St) (ws : List (Nat × Ty)) :
    tyOf (assigns K st ws) = after (tyOf st) ws := by
  induction ws generalizing st with
  | nil => rfl
  | cons w ws ih =>
    obtain ⟨v, ty⟩ := w
    show tyOf (assigns K (assign K st v ty) ws) = _
    rw [ih]
    show after _ ws = after _ ws
    congr 1
    funext u
    exact tyOf_assign K st v ty u

theorem ranOf_assigns (K : Cfg) (st : St) (ws : List (Nat × Ty)) (j : Nat) :
    ranOf (assigns K st ws) j = ranOf st j := by
  induction ws generalizing st with
  | nil => rfl
  | cons w ws ih =>
    obtain ⟨v, ty⟩ := w
    show ranOf (assigns K (assign K st v ty) ws) j = _
    rw [ih, ranOf_assign]

theorem ranOf_fresh (K : Cfg) (st : St) (id text : Nat) (ran : Bool) (j : Nat) :
    ranOf (fresh K st id text ran) j = if j = id then some ran else ranOf st j := by
  dsimp only [ranOf, fresh]
  by_cases hj : j = id
  · rw [if_pos hj, if_pos hj]; rfl
  · rw [if_neg hj, if_neg hj]

theorem ranOf_retext (st : St) (id text j : Nat) : ranOf (retext st id text) j = ranOf st j := by
  dsimp only [ranOf, retext]
  cases st.cur j with
  | none => rfl
  | some c =>
    simp only [Option.map_some, Option.some.injEq]
    split <;> rfl

theorem retexts_cons (K : Cfg) (st : St) (id text : Nat) (cs : List (Nat × Nat)) :
    retexts K st ((id, text) :: cs) =
      if (check K (retext st id text) id).2 = .raised then
        ((check K (retext st id text) id).1, false)
      else retexts K (check K (retext st id text) id).1 cs := by
  show (match check K (retext st id text) id with
    | (st1, .raised) => (st1, false)
    | (st1, .absent) => retexts K st1 cs
    | (st1, .said _) => retexts K st1 cs) = _
  cases hc : check K (retext st id text) id with
  | mk st1 res => cases res <;> rfl

theorem marks_cons (K : Cfg) (st : St) (id text : Nat) (cs : List (Nat × Nat)) :
    marks K st ((id, text) :: cs) =
      ((marks K (check K st id).1 cs).1,
        if (check K st id).2 = .said false then id :: (marks K (check K st id).1 cs).2
        else (marks K (check K st id).1 cs).2) := by
  show (match check K st id with
    | (st1, .said false) => ((marks K st1 cs).1, id :: (marks K st1 cs).2)
    | (st1, .said true) => marks K st1 cs
    | (st1, .raised) => marks K st1 cs
    | (st1, .absent) => marks K st1 cs) = _
  cases hc : check K st id with
  | mk st1 res =>
    cases res with
    | absent => rfl
    | raised => rfl
    | said b => cases b <;> rfl

/-- A property of states that the parts of a request preserve is preserved by the request. -/
theorem ask_ind {K : Cfg} (P : St → Prop) {cs : List (Nat × Nat)}
    (hcheck : ∀ st id, P st → P (check K st id).1)
    (hretext : ∀ st id text, (id, text) ∈ cs → P st → P (retext st id text))
    (hfresh : ∀ st id text, (id, text) ∈ cs → st.cur id = none → P st →
      P (fresh K st id text false))
    {st : St} (h : P st) : P (ask K st cs).1 := by
  have h1 : ∀ l, (∀ x ∈ l, x ∈ cs) → ∀ st, P st → P (retexts K st l).1 := by
    intro l
    induction l with
    | nil => intro _ st h; exact h
    | cons x l ih =>
      obtain ⟨id, text⟩ := x
      intro hl st h
      rw [retexts_cons]
      have hc := hcheck _ id (hretext st id text (hl _ (by simp)) h)
      split
      · exact hc
      · exact ih (fun y hy => hl y (by simp [hy])) _ hc
  have h2 : ∀ l, (∀ x ∈ l, x ∈ cs) → ∀ st, P st → P (creates K st l) := by
    intro l
    induction l with
    | nil => intro _ st h; exact h
    | cons x l ih =>
      obtain ⟨id, text⟩ := x
      intro hl st h
      unfold creates
      cases hc : st.cur id with
      | none =>
        exact ih (fun y hy => hl y (by simp [hy])) _ (hfresh st id text (hl _ (by simp)) hc h)
      | some c => exact ih (fun y hy => hl y (by simp [hy])) _ h
  have h3 : ∀ l st, P st → P (marks K st l).1 := by
    intro l
    induction l with
    | nil => intro st h; exact h
    | cons x l ih =>
      obtain ⟨id, text⟩ := x
      intro st h
      rw [marks_cons]
      exact ih _ (hcheck st id h)
  unfold ask
  have h1' := h1 cs (fun _ hx => hx) st h
  cases hr : retexts K st cs with
  | mk st1 ok =>
    rw [hr] at h1'
    cases ok with
    | false => exact h1'
    | true => exact h3 _ _ (h2 _ (fun _ hx => hx) _ h1')

theorem tyOf_ask (K : Cfg) (st : St) (cs : List (Nat × Nat)) :
    tyOf (ask K st cs).1 = tyOf st := by
  refine ask_ind (fun s => tyOf s = tyOf st) ?_ ?_ ?_ rfl
  · intro s id h
    rw [← h]
    funext v
    exact tyOf_check K s id v
  · intro s id text _ h; exact h
  · intro s id text _ _ h; exact h

/-- The kernel knows the types of the variables. -/
theorem tyOf_state (K : Cfg) (h : List Ev) : tyOf (state K h) = types h := by
  induction h with
  | nil => rfl
  | cons e h ih =>
    cases e with
    | run id text ws =>
      show tyOf (exec K (state K h) id text ws) = after (types h) ws
      rw [← ih]
      unfold exec
      funext v
      rw [tyOf_check, tyOf_assigns]
      congr 1
      funext u
      rw [tyOf_check]
      rfl
    | change v ann =>
      show tyOf (changed (state K h) v ann) = _
      simp only [types]
      rw [← ih]
      funext u
      dsimp only [tyOf, changed]
      cases (state K h).syms u with
      | none => rfl
      | some s =>
        simp only [Option.map_some, Option.some.injEq]
        split <;> rfl
    | del v =>
      show tyOf (deleted (state K h) v) = _
      simp only [types]
      rw [← ih]
      funext u
      dsimp only [tyOf, deleted]
      by_cases hu : u = v
      · rw [if_pos hu, if_pos hu]; rfl
      · rw [if_neg hu, if_neg hu]
    | ask cs =>
      show tyOf (ask K (state K h) cs).1 = types h
      rw [tyOf_ask, ih]

end Verif.Checked
