import Verif.Checked.Inv

/-! The invariant for cells whose verdict is right, and the one for verdicts that stay. -/

namespace Verif.Checked

/-- The verdict that is kept is right, and the cell is entered at every variable it reads except
those in `w`. -/
def Good (K : Cfg) (c text : Nat) (w : List Nat) (st : St) : Prop :=
  ∃ cell, st.cur c = some cell ∧ cell.ran = true ∧ cell.text = text ∧
    ∀ b, cell.kept = some b →
      b = K.mypy (decls K st text) text ∧
      ∀ v ∈ K.reads text, ∀ s, st.syms v = some s → v ∈ w ∨ cell.ref ∈ s.live

theorem decls_of_ty {K : Cfg} {st st' : St} {text : Nat}
    (h : ∀ v ∈ K.reads text, (tyOf st' v).map Ty.ann = (tyOf st v).map Ty.ann) :
    decls K st' text = decls K st text := by
  rw [decls_eq, decls_eq]
  funext v
  by_cases hv : v ∈ K.reads text
  · rw [if_pos hv, if_pos hv, h v hv]
  · rw [if_neg hv, if_neg hv]

theorem enter_syms {K : Cfg} {st : St} {d : Cell} {v : Nat} {s' : Sym}
    (h : (enter K st d).syms v = some s') :
    ∃ s, st.syms v = some s ∧ (∀ r ∈ s.live, r ∈ s'.live) ∧
      (∀ r ∈ s'.live, r ∈ s.live ∨ r = d.ref) ∧ (v ∈ K.reads d.text → d.ref ∈ s'.live) := by
  dsimp only [enter] at h
  cases hs : st.syms v with
  | none => rw [hs] at h; simp at h
  | some s =>
    rw [hs] at h
    simp only [Option.map_some, Option.some.injEq] at h
    refine ⟨s, rfl, ?_⟩
    by_cases hv : v ∈ K.reads d.text
    · rw [if_pos hv] at h
      subst h
      refine ⟨fun r hr => List.mem_cons_of_mem _ hr, fun r hr => ?_, fun _ => List.mem_cons_self⟩
      rcases List.mem_cons.1 hr with hr | hr
      · exact Or.inr hr
      · exact Or.inl hr
    · rw [if_neg hv] at h
      subst h
      exact ⟨fun r hr => hr, fun r hr => Or.inl hr, fun hh => absurd hh hv⟩

/-- What a check does to the variables. -/
theorem check_syms {K : Cfg} {st : St} {id v : Nat} {s' : Sym}
    (h : (check K st id).1.syms v = some s') :
    ∃ s, st.syms v = some s ∧ (∀ r ∈ s.live, r ∈ s'.live) ∧
      (∀ r ∈ s'.live, r ∈ s.live ∨ (st.cur id).map Cell.ref = some r) ∧
      ∀ d, st.cur id = some d → v ∈ K.reads d.text → d.ref ∈ s'.live := by
  cases hc : st.cur id with
  | none =>
    rw [check_none hc] at h
    exact ⟨s', h, fun _ hr => hr, fun _ hr => Or.inl hr, fun d hd => by simp at hd⟩
  | some c =>
    have key : (enter K st c).syms v = some s' := by
      cases hk : c.kept with
      | some ok => rw [check_kept hc hk] at h; exact h
      | none =>
        cases hr : c.ran with
        | false => rw [check_raised hc hk hr] at h; exact h
        | true => rw [check_new hc hk hr] at h; exact h
    obtain ⟨s, h1, h2, h3, h4⟩ := enter_syms key
    refine ⟨s, h1, h2, fun r hr => ?_, fun d hd hv => ?_⟩
    · rcases h3 r hr with hr | hr
      · exact Or.inl hr
      · exact Or.inr (by rw [hr]; rfl)
    · cases hd
      exact h4 hv

theorem good_check {K : Cfg} {c text : Nat} {w : List Nat} {st : St} (id : Nat)
    (h : Good K c text w st) : Good K c text w (check K st id).1 := by
  obtain ⟨cell, hc, hr, ht, hk⟩ := h
  have hd : decls K (check K st id).1 text = decls K st text :=
    decls_of_ty (fun v _ => by rw [tyOf_check])
  by_cases hid : c = id
  · subst hid
    cases hkept : cell.kept with
    | some b =>
      refine ⟨cell, by rw [check_kept hc hkept]; exact hc, hr, ht, fun b' hb' => ?_⟩
      rw [hd]
      refine ⟨(hk b' hb').1, fun v hv s' hs' => ?_⟩
      obtain ⟨s, h1, h2, _, _⟩ := check_syms hs'
      rcases (hk b' hb').2 v hv s h1 with hw | hl
      · exact Or.inl hw
      · exact Or.inr (h2 _ hl)
    | none =>
      refine ⟨{ cell with kept := some (K.mypy (decls K st cell.text) cell.text) },
        by rw [check_new hc hkept hr]; exact if_pos rfl, hr, ht, fun b' hb' => ?_⟩
      rw [hd]
      simp only [Option.some.injEq] at hb'
      refine ⟨by rw [← hb', ht], fun v hv s' hs' => ?_⟩
      obtain ⟨s, _, _, _, h4⟩ := check_syms hs'
      exact Or.inr (h4 cell hc (by rw [ht]; exact hv))
  · refine ⟨cell, by rw [cur_check_ne K st id hid]; exact hc, hr, ht, fun b' hb' => ?_⟩
    rw [hd]
    refine ⟨(hk b' hb').1, fun v hv s' hs' => ?_⟩
    obtain ⟨s, h1, h2, _, _⟩ := check_syms hs'
    rcases (hk b' hb').2 v hv s h1 with hw | hl
    · exact Or.inl hw
    · exact Or.inr (h2 _ hl)

/-- After the cell itself is checked it is entered everywhere. -/
theorem good_checked {K : Cfg} {c text : Nat} {w : List Nat} {st : St}
    (h : Good K c text w st) : Good K c text [] (check K st c).1 := by
  obtain ⟨cell', hc', hr', ht', hk'⟩ := good_check c h
  obtain ⟨cell, hc, _, ht, _⟩ := h
  refine ⟨cell', hc', hr', ht', fun b hb => ⟨(hk' b hb).1, fun v hv s' hs' => ?_⟩⟩
  obtain ⟨s, _, _, _, h4⟩ := check_syms hs'
  obtain ⟨kept, hk⟩ := cur_check_self K st c
  have := hk cell hc
  rw [hc'] at this
  cases this
  exact Or.inr (h4 cell hc (by rw [ht]; exact hv))

/-- The verdict of a good cell that is checked is right. -/
theorem good_said {K : Cfg} {c text : Nat} {w : List Nat} {st : St} (h : Good K c text w st) :
    (check K st c).2 = .said (K.mypy (decls K st text) text) := by
  obtain ⟨cell, hc, hr, ht, hk⟩ := h
  cases hkept : cell.kept with
  | some b => rw [check_kept hc hkept, (hk b hkept).1]
  | none => rw [check_new hc hkept hr, ht]

theorem assign_cur {K : Cfg} {st : St} {v : Nat} {ty : Ty} {c : Nat} {cell : Cell}
    (hc : st.cur c = some cell) :
    (assign K st v ty).cur c = some cell ∨
      ((∃ s, st.syms v = some s ∧ s.ty.cls ≠ ty.cls ∧ cell.ref ∈ s.live) ∧
        (assign K st v ty).cur c = some { cell with kept := none }) := by
  unfold assign
  cases hs : st.syms v with
  | none => exact Or.inl hc
  | some s =>
    dsimp only
    rw [hc]
    simp only [Option.map_some, Option.some.injEq]
    by_cases hx : K.on = true ∧ s.ty.cls ≠ ty.cls ∧ cell.ref ∈ s.live
    · rw [if_pos hx]
      exact Or.inr ⟨⟨s, rfl, hx.2⟩, rfl⟩
    · rw [if_neg hx]
      exact Or.inl rfl

theorem assign_drop {K : Cfg} {st : St} {v : Nat} {ty : Ty} {c : Nat} {cell : Cell} {s : Sym}
    (hon : K.on = true) (hc : st.cur c = some cell) (hs : st.syms v = some s)
    (hcls : s.ty.cls ≠ ty.cls) (hl : cell.ref ∈ s.live) :
    (assign K st v ty).cur c = some { cell with kept := none } := by
  unfold assign
  rw [hs]
  dsimp only
  rw [hc]
  simp only [Option.map_some, Option.some.injEq]
  rw [if_pos ⟨hon, hcls, hl⟩]

theorem assign_syms {K : Cfg} {st : St} {v : Nat} {ty : Ty} (u : Nat) :
    (assign K st v ty).syms u = if u = v then some ⟨ty, []⟩ else st.syms u := by
  unfold assign
  cases hs : st.syms v <;> rfl

theorem good_assign {K : Cfg} {c text : Nat} {w : List Nat} {st : St} {v : Nat} {ty : Ty}
    (hon : K.on = true)
    (ht : v ∈ K.reads text →
        (∃ old, tyOf st v = some old ∧ old.ann = ty.ann) ∨
        (∃ old, tyOf st v = some old ∧ old.cls ≠ ty.cls ∧ v ∉ w))
    (h : Good K c text w st) : Good K c text (v :: w) (assign K st v ty) := by
  obtain ⟨cell, hc, hr, htx, hk⟩ := h
  rcases assign_cur (K := K) (v := v) (ty := ty) hc with hcur | ⟨_, hcur⟩
  · refine ⟨cell, hcur, hr, htx, fun b hb => ?_⟩
    obtain ⟨hb1, hb2⟩ := hk b hb
    have hann : ∀ u ∈ K.reads text,
        (tyOf (assign K st v ty) u).map Ty.ann = (tyOf st u).map Ty.ann := by
      intro u hu
      rw [tyOf_assign]
      by_cases huv : u = v
      · subst huv
        rw [if_pos rfl]
        rcases ht hu with ⟨old, ho, ha⟩ | ⟨old, ho, hcls, hw⟩
        · rw [ho]
          simp [ha]
        · exfalso
          unfold tyOf at ho
          cases hs : st.syms u with
          | none => rw [hs] at ho; simp at ho
          | some s =>
            rw [hs] at ho
            simp only [Option.map_some, Option.some.injEq] at ho
            rcases hb2 u hu s hs with hh | hh
            · exact hw hh
            · have hd := assign_drop (K := K) (ty := ty) hon hc hs (by rw [ho]; exact hcls) hh
              rw [hcur] at hd
              simp only [Option.some.injEq] at hd
              rw [hd] at hb
              simp at hb
      · rw [if_neg huv]
    refine ⟨by rw [decls_of_ty hann]; exact hb1, fun u hu s hs => ?_⟩
    rw [assign_syms] at hs
    by_cases huv : u = v
    · exact Or.inl (by rw [huv]; exact List.mem_cons_self)
    · rw [if_neg huv] at hs
      rcases hb2 u hu s hs with hh | hh
      · exact Or.inl (List.mem_cons_of_mem _ hh)
      · exact Or.inr hh
  · exact ⟨_, hcur, hr, htx, fun b hb => by simp at hb⟩

theorem good_assigns {K : Cfg} {c text : Nat} {w : List Nat} {st : St} {ws : List (Nat × Ty)}
    (hon : K.on = true) (ht : Told (K.reads text) (tyOf st) w ws) (h : Good K c text w st) :
    Good K c text ((ws.map Prod.fst).reverse ++ w) (assigns K st ws) := by
  induction ws generalizing st w with
  | nil => exact h
  | cons x ws ih =>
    obtain ⟨v, ty⟩ := x
    obtain ⟨h1, h2⟩ := ht
    have hg := good_assign hon h1 h
    have he : tyOf (assign K st v ty) = fun u => if u = v then some ty else tyOf st u := by
      funext u
      exact tyOf_assign K st v ty u
    rw [← he] at h2
    have := ih h2 hg
    simp only [List.map_cons, List.reverse_cons, List.append_assoc, List.singleton_append]
    exact this

theorem good_retext {K : Cfg} {c text : Nat} {w : List Nat} {st : St} {id b : Nat}
    (hb : id = c → b = text) (h : Good K c text w st) : Good K c text w (retext st id b) := by
  obtain ⟨cell, hc, hr, ht, hk⟩ := h
  refine ⟨cell, ?_, hr, ht, hk⟩
  dsimp only [retext]
  rw [hc]
  simp only [Option.map_some, Option.some.injEq]
  by_cases hid : c = id
  · rw [if_pos hid, hb hid.symm, ← ht]
  · rw [if_neg hid]

theorem good_fresh {K : Cfg} {c text : Nat} {w : List Nat} {st : St} {id : Nat} (b : Nat)
    (ran : Bool) (hid : c ≠ id) (h : Good K c text w st) :
    Good K c text w (fresh K st id b ran) := by
  obtain ⟨cell, hc, hr, ht, hk⟩ := h
  refine ⟨cell, ?_, hr, ht, hk⟩
  dsimp only [fresh]
  rw [if_neg hid]
  exact hc

theorem good_changed {K : Cfg} {c text : Nat} {w : List Nat} {st : St} {v : Nat} (ann : Nat)
    (hv : v ∉ K.reads text) (h : Good K c text w st) : Good K c text w (changed st v ann) := by
  obtain ⟨cell, hc, hr, ht, hk⟩ := h
  have hs : ∀ u ∈ K.reads text, (changed st v ann).syms u = st.syms u := by
    intro u hu
    dsimp only [changed]
    have huv : u ≠ v := fun hh => hv (hh ▸ hu)
    cases st.syms u with
    | none => rfl
    | some s => simp [huv]
  refine ⟨cell, hc, hr, ht, fun b hb => ⟨?_, fun u hu s hsu => ?_⟩⟩
  · rw [decls_of_ty (st := st) (fun u hu => by unfold tyOf; rw [hs u hu])]
    exact (hk b hb).1
  · rw [hs u hu] at hsu
    exact (hk b hb).2 u hu s hsu

theorem good_deleted {K : Cfg} {c text : Nat} {w : List Nat} {st : St} {v : Nat}
    (hv : v ∉ K.reads text) (h : Good K c text w st) : Good K c text w (deleted st v) := by
  obtain ⟨cell, hc, hr, ht, hk⟩ := h
  have hs : ∀ u ∈ K.reads text, (deleted st v).syms u = st.syms u := by
    intro u hu
    have huv : u ≠ v := fun hh => hv (hh ▸ hu)
    exact if_neg huv
  refine ⟨cell, hc, hr, ht, fun b hb => ⟨?_, fun u hu s hsu => ?_⟩⟩
  · rw [decls_of_ty (st := st) (fun u hu => by unfold tyOf; rw [hs u hu])]
    exact (hk b hb).1
  · rw [hs u hu] at hsu
    exact (hk b hb).2 u hu s hsu

theorem good_ne_none {K : Cfg} {c text : Nat} {w : List Nat} {st : St} {id : Nat}
    (h : Good K c text w st) (hn : st.cur id = none) : c ≠ id := by
  intro hid
  obtain ⟨cell, hc, _⟩ := h
  rw [hid, hn] at hc
  simp at hc

theorem good_ask {K : Cfg} {c text : Nat} {w : List Nat} {st : St} {cs : List (Nat × Nat)}
    (hb : ∀ b, (c, b) ∈ cs → b = text) (h : Good K c text w st) :
    Good K c text w (ask K st cs).1 := by
  refine ask_ind (Good K c text w) (fun _ id hg => good_check id hg) ?_ ?_ h
  · intro s id b hm hg
    exact good_retext (fun hid => hb b (hid ▸ hm)) hg
  · intro s id b _ hn hg
    exact good_fresh b false (good_ne_none hg hn) hg

/-- In the last part of an answered request the cell is checked. -/
theorem good_marks {K : Cfg} {c text : Nat} {w : List Nat} {st : St} {cs : List (Nat × Nat)}
    (h : Good K c text w st) :
    (c ∈ ids cs → Good K c text [] (marks K st cs).1) ∧
      (c ∈ (marks K st cs).2 ↔ c ∈ ids cs ∧ K.mypy (decls K st text) text = false) := by
  induction cs generalizing st w with
  | nil => exact ⟨fun hc => by simp [ids] at hc, by simp [marks, ids]⟩
  | cons x cs ih =>
    obtain ⟨id, t⟩ := x
    have hmem : c ∈ ids ((id, t) :: cs) ↔ c = id ∨ c ∈ ids cs := by simp [ids]
    have hd : decls K (check K st id).1 text = decls K st text :=
      decls_of_ty (fun v _ => by rw [tyOf_check])
    rw [marks_cons, hmem]
    dsimp only
    by_cases hid : c = id
    · subst hid
      have hg := good_checked h
      obtain ⟨_, h2⟩ := ih hg
      rw [hd] at h2
      refine ⟨fun _ => ?_, ?_⟩
      · have hall : ∀ l s, Good K c text [] s → Good K c text [] (marks K s l).1 := by
          intro l
          induction l with
          | nil => intro s hs; exact hs
          | cons y l ihl =>
            obtain ⟨j, u⟩ := y
            intro s hs
            rw [marks_cons]
            exact ihl _ (good_check j hs)
        exact hall cs _ hg
      · rw [good_said h]
        cases hx : K.mypy (decls K st text) text with
        | false => simp
        | true =>
          rw [if_neg (by simp), h2, hx]
          simp
    · obtain ⟨h1, h2⟩ := ih (good_check id h)
      rw [hd] at h2
      refine ⟨fun hc => h1 (hc.resolve_left hid), ?_⟩
      split
      · rw [List.mem_cons, h2]
        simp [hid]
      · rw [h2]
        simp [hid]

theorem good_retexts {K : Cfg} {c text : Nat} {w : List Nat} {st : St} {cs : List (Nat × Nat)}
    (hb : ∀ b, (c, b) ∈ cs → b = text) (h : Good K c text w st) :
    Good K c text w (retexts K st cs).1 := by
  induction cs generalizing st with
  | nil => exact h
  | cons x cs ih =>
    obtain ⟨id, b⟩ := x
    rw [retexts_cons]
    have hg := good_check (K := K) id (good_retext (id := id) (b := b)
      (fun hid => hb b (by rw [hid]; exact List.mem_cons_self)) h)
    split
    · exact hg
    · exact ih (fun b hm => hb b (List.mem_cons_of_mem _ hm)) hg

theorem good_creates {K : Cfg} {c text : Nat} {w : List Nat} {st : St} (cs : List (Nat × Nat))
    (h : Good K c text w st) : Good K c text w (creates K st cs) := by
  induction cs generalizing st with
  | nil => exact h
  | cons x cs ih =>
    obtain ⟨id, b⟩ := x
    unfold creates
    cases hc : st.cur id with
    | some d => exact ih h
    | none => exact ih (good_fresh b false (good_ne_none h hc) h)

/-- An answered request that sends a good cell. -/
theorem good_answered {K : Cfg} {c text : Nat} {w : List Nat} {st : St} {cs : List (Nat × Nat)}
    {m : List Nat} (hb : ∀ b, (c, b) ∈ cs → b = text) (h : Good K c text w st)
    (hc : c ∈ ids cs) (hm : (ask K st cs).2 = some m) :
    Good K c text [] (ask K st cs).1 ∧ (c ∈ m ↔ K.mypy (decls K st text) text = false) := by
  have hty := tyOf_ask K st cs
  have h1 := good_retexts (K := K) hb h
  have hr : ∀ l s, tyOf (retexts K s l).1 = tyOf s := by
    intro l
    induction l with
    | nil => intro s; rfl
    | cons x l ih =>
      obtain ⟨id, b⟩ := x
      intro s
      have hx : tyOf (check K (retext s id b) id).1 = tyOf s := by
        funext v
        rw [tyOf_check]
        rfl
      rw [retexts_cons]
      split
      · exact hx
      · rw [ih, hx]
  have hcr : ∀ l s, tyOf (creates K s l) = tyOf s := by
    intro l
    induction l with
    | nil => intro s; rfl
    | cons x l ih =>
      obtain ⟨id, b⟩ := x
      intro s
      unfold creates
      cases hcc : s.cur id with
      | some d => exact ih s
      | none => rw [ih]; rfl
  have hr' := hr cs st
  unfold ask at hm ⊢
  cases hx : retexts K st cs with
  | mk st1 ok =>
    rw [hx] at hm h1 hr'
    cases ok with
    | false => simp at hm
    | true =>
      obtain ⟨h3, h4⟩ := good_marks (K := K) (cs := cs) (good_creates cs h1)
      simp only [Option.some.injEq] at hm
      refine ⟨h3 hc, ?_⟩
      rw [← hm, h4]
      have : decls K (creates K st1 cs) text = decls K st text := by
        rw [decls_eq, decls_eq, hcr, hr']
      rw [this]
      simp [hc]

theorem good_state {K : Cfg} (hon : K.on = true) {c text : Nat} {h : List Ev}
    (hcalm : Calm K c text h) : Good K c text (since c h) (state K h) := by
  induction h with
  | nil => exact absurd hcalm (by simp [Calm])
  | cons e h ih =>
    cases e with
    | run d b ws =>
      show Good K c text _ (check K (assigns K (check K (fresh K (state K h) d b true) d).1 ws) d).1
      have hty : tyOf (check K (fresh K (state K h) d b true) d).1 = types h := by
        rw [← tyOf_state K h]
        funext v
        rw [tyOf_check]
        rfl
      simp only [Calm] at hcalm
      by_cases hd : d = c
      · subst hd
        rw [if_pos rfl] at hcalm
        obtain ⟨hb, ht⟩ := hcalm
        subst hb
        have hg : Good K d b [] (fresh K (state K h) d b true) := by
          refine ⟨⟨(state K h).next, true, b, none⟩, ?_, rfl, rfl, fun b hb => by simp at hb⟩
          dsimp only [fresh]
          rw [if_pos rfl, hon]
          rfl
        have := good_checked (good_assigns hon (by rw [hty]; exact ht) (good_check d hg))
        simp only [since, if_true]
        exact this
      · rw [if_neg hd] at hcalm
        obtain ⟨hc, ht⟩ := hcalm
        have hg := good_check d (good_fresh b true (fun hh => hd hh.symm) (ih hc))
        have := good_check d (good_assigns hon (by rw [hty]; exact ht) hg)
        simp only [since]
        rw [if_neg hd]
        exact this
    | change v ann => exact good_changed ann hcalm.2 (ih hcalm.1)
    | del v => exact good_deleted hcalm.2 (ih hcalm.1)
    | ask cs =>
      obtain ⟨hc, hb⟩ := hcalm
      show Good K c text _ (ask K (state K h) cs).1
      simp only [since]
      by_cases hx : c ∈ ids cs ∧ ((ids cs).all fun j => hasRun h j || !seen h j) = true
      · rw [if_pos hx]
        have hs := (reply_some hon h cs).2 (clean_bool.1 hx.2)
        unfold reply at hs
        cases hm : (ask K (state K h) cs).2 with
        | none => exact absurd hm hs
        | some m => exact (good_answered hb (ih hc) hx.1 hm).1
      · rw [if_neg hx]
        exact good_ask hb (ih hc)

/-! ### Verdicts that stay -/

/-- Identities of cell objects are below the next one. -/
def Low (st : St) : Prop := ∀ id c, st.cur id = some c → c.ref < st.next

theorem low_check {K : Cfg} {st : St} (id : Nat) (h : Low st) : Low (check K st id).1 := by
  intro j d hd
  rw [next_check]
  by_cases hj : j = id
  · subst hj
    cases hc : st.cur j with
    | none => rw [check_none hc] at hd; exact h j d hd
    | some c =>
      obtain ⟨kept, hk⟩ := cur_check_self K st j
      rw [hk c hc] at hd
      cases hd
      exact h j c hc
  · rw [cur_check_ne K st id hj] at hd
    exact h j d hd

theorem next_assign (K : Cfg) (st : St) (v : Nat) (ty : Ty) :
    (assign K st v ty).next = st.next := by
  unfold assign
  cases st.syms v <;> rfl

theorem refOf_assign (K : Cfg) (st : St) (v : Nat) (ty : Ty) (j : Nat) :
    ((assign K st v ty).cur j).map Cell.ref = (st.cur j).map Cell.ref := by
  unfold assign
  cases hs : st.syms v with
  | none => rfl
  | some s =>
    dsimp only
    cases st.cur j with
    | none => rfl
    | some c =>
      simp only [Option.map_some, Option.some.injEq]
      split <;> rfl

theorem refOf_assigns (K : Cfg) (st : St) (ws : List (Nat × Ty)) (j : Nat) :
    ((assigns K st ws).cur j).map Cell.ref = (st.cur j).map Cell.ref := by
  induction ws generalizing st with
  | nil => rfl
  | cons w ws ih =>
    obtain ⟨v, ty⟩ := w
    show ((assigns K (assign K st v ty) ws).cur j).map Cell.ref = _
    rw [ih, refOf_assign]

theorem next_assigns (K : Cfg) (st : St) (ws : List (Nat × Ty)) :
    (assigns K st ws).next = st.next := by
  induction ws generalizing st with
  | nil => rfl
  | cons w ws ih =>
    obtain ⟨v, ty⟩ := w
    show (assigns K (assign K st v ty) ws).next = _
    rw [ih, next_assign]

theorem low_of {st st' : St} (hn : st'.next = st.next)
    (hr : ∀ j, (st'.cur j).map Cell.ref = (st.cur j).map Cell.ref) (h : Low st) : Low st' := by
  intro j d hd
  have := hr j
  rw [hd] at this
  cases hc : st.cur j with
  | none => rw [hc] at this; simp at this
  | some c =>
    rw [hc] at this
    simp only [Option.map_some, Option.some.injEq] at this
    rw [this, hn]
    exact h j c hc

theorem low_fresh {K : Cfg} {st : St} (id text : Nat) (ran : Bool) (h : Low st) :
    Low (fresh K st id text ran) := by
  intro j d hd
  dsimp only [fresh] at hd ⊢
  by_cases hj : j = id
  · rw [if_pos hj] at hd
    cases hd
    exact Nat.lt_succ_self _
  · rw [if_neg hj] at hd
    exact Nat.lt_succ_of_lt (h j d hd)

theorem low_retext {st : St} (id text : Nat) (h : Low st) : Low (retext st id text) := by
  refine low_of (st := st) rfl (fun j => ?_) h
  dsimp only [retext]
  cases st.cur j with
  | none => rfl
  | some c =>
    simp only [Option.map_some, Option.some.injEq]
    split <;> rfl

theorem low_state (K : Cfg) (h : List Ev) : Low (state K h) := by
  induction h with
  | nil => intro j d hd; simp [state, start] at hd
  | cons e h ih =>
    cases e with
    | run id text ws =>
      exact low_check id (low_of (next_assigns K _ ws) (refOf_assigns K _ ws)
        (low_check id (low_fresh id text true ih)))
    | change v ann => exact ih
    | del v => exact ih
    | ask cs =>
      exact ask_ind Low (fun _ id hb => low_check id hb) (fun _ id text _ hb => low_retext id text hb)
        (fun _ id text _ _ hb => low_fresh id text false hb) ih

/-- The verdict is kept and the cell is entered at no variable in `w`. -/
def Stays (c : Nat) (b : Bool) (r : Nat) (w : List Nat) (st : St) : Prop :=
  (∃ cell, st.cur c = some cell ∧ cell.kept = some b ∧ cell.ref = r) ∧
    ∀ v s, st.syms v = some s → r ∈ s.live → v ∉ w

theorem stays_check {K : Cfg} {c r d : Nat} {b : Bool} {w : List Nat} {st : St} (hd : c ≠ d)
    (hr : (st.cur d).map Cell.ref ≠ some r) (h : Stays c b r w st) :
    Stays c b r w (check K st d).1 := by
  obtain ⟨⟨cell, hc, hk⟩, hl⟩ := h
  refine ⟨⟨cell, by rw [cur_check_ne K st d hd]; exact hc, hk⟩, fun v s' hs' hm => ?_⟩
  obtain ⟨s, h1, _, h3, _⟩ := check_syms hs'
  rcases h3 r hm with hx | hx
  · exact hl v s h1 hx
  · exact absurd hx hr

theorem stays_assign {K : Cfg} {c r : Nat} {b : Bool} {w : List Nat} {st : St} {v : Nat} {ty : Ty}
    (hu : v ∈ w ∨ tyOf st v = none ∨ ∃ old, tyOf st v = some old ∧ old.cls = ty.cls)
    (h : Stays c b r w st) : Stays c b r (v :: w) (assign K st v ty) := by
  obtain ⟨⟨cell, hc, hk, hr⟩, hl⟩ := h
  constructor
  · rcases assign_cur (K := K) (v := v) (ty := ty) hc with hcur | ⟨⟨s, hs, hcls, hm⟩, _⟩
    · exact ⟨cell, hcur, hk, hr⟩
    · exfalso
      rw [hr] at hm
      rcases hu with hu | hu | ⟨old, hu, hc⟩
      · exact hl v s hs hm hu
      · unfold tyOf at hu
        rw [hs] at hu
        simp at hu
      · unfold tyOf at hu
        rw [hs] at hu
        simp only [Option.map_some, Option.some.injEq] at hu
        rw [hu] at hcls
        exact hcls hc
  · intro u s hs hm
    rw [assign_syms] at hs
    by_cases huv : u = v
    · rw [if_pos huv] at hs
      cases hs
      simp at hm
    · rw [if_neg huv] at hs
      intro hx
      rcases List.mem_cons.1 hx with hx | hx
      · exact huv hx
      · exact hl u s hs hm hx

theorem stays_assigns {K : Cfg} {c r : Nat} {b : Bool} {w : List Nat} {st : St}
    {ws : List (Nat × Ty)} (hu : Untold (tyOf st) w ws) (h : Stays c b r w st) :
    Stays c b r ((ws.map Prod.fst).reverse ++ w) (assigns K st ws) := by
  induction ws generalizing st w with
  | nil => exact h
  | cons x ws ih =>
    obtain ⟨v, ty⟩ := x
    obtain ⟨h1, h2⟩ := hu
    have he : tyOf (assign K st v ty) = fun u => if u = v then some ty else tyOf st u := by
      funext u
      exact tyOf_assign K st v ty u
    rw [← he] at h2
    have := ih h2 (stays_assign (K := K) h1 h)
    simp only [List.map_cons, List.reverse_cons, List.append_assoc, List.singleton_append]
    exact this

theorem stays_quiet {K : Cfg} {c r : Nat} {b : Bool} {h es : List Ev} (hq : Quiet c h es)
    (h0 : Stays c b r (since c h) (state K h)) :
    Stays c b r (since c (es ++ h)) (state K (es ++ h)) := by
  induction es with
  | nil => exact h0
  | cons e es ih =>
    cases e with
    | run d t ws =>
      obtain ⟨hd, hq', hu⟩ := hq
      have hs := ih hq'
      show Stays c b r (since c (.run d t ws :: (es ++ h)))
        (check K (assigns K (check K (fresh K (state K (es ++ h)) d t true) d).1 ws) d).1
      have hlow := low_state K (es ++ h)
      rw [← tyOf_state K (es ++ h)] at hu
      simp only [since]
      rw [if_neg hd]
      generalize state K (es ++ h) = st at hs hu hlow
      generalize since c (es ++ h) = w at hs hu
      have hrlt : r < st.next := by
        obtain ⟨⟨cell, hc, _, hr⟩, _⟩ := hs
        rw [← hr]
        exact hlow c cell hc
      have hf : Stays c b r w (fresh K st d t true) := by
        obtain ⟨⟨cell, hc, hk⟩, hl⟩ := hs
        refine ⟨⟨cell, ?_, hk⟩, hl⟩
        dsimp only [fresh]
        rw [if_neg (fun hh => hd hh.symm)]
        exact hc
      have href : ((fresh K st d t true).cur d).map Cell.ref = some st.next := by
        dsimp only [fresh]
        rw [if_pos rfl]
        rfl
      have hne : ((fresh K st d t true).cur d).map Cell.ref ≠ some r := by
        rw [href]
        intro hh
        simp only [Option.some.injEq] at hh
        omega
      have h1 := stays_check (K := K) (fun hh => hd hh.symm) hne hf
      have href1 : ((check K (fresh K st d t true) d).1.cur d).map Cell.ref = some st.next := by
        obtain ⟨kept, hk⟩ := cur_check_self K (fresh K st d t true) d
        cases hc : (fresh K st d t true).cur d with
        | none => rw [hc] at href; simp at href
        | some cell =>
          rw [hk cell hc]
          rw [hc] at href
          exact href
      have hty : tyOf (check K (fresh K st d t true) d).1 = tyOf st := by
        funext v
        rw [tyOf_check]
        rfl
      have h2 := stays_assigns (K := K) (ws := ws) (by rw [hty]; exact hu) h1
      refine stays_check (K := K) (fun hh => hd hh.symm) ?_ h2
      rw [refOf_assigns, href1]
      intro hh
      simp only [Option.some.injEq] at hh
      omega
    | change v ann =>
      obtain ⟨hc, hl⟩ := ih hq
      refine ⟨hc, fun u s' hs' hm => ?_⟩
      have hs2 : (changed (state K (es ++ h)) v ann).syms u = some s' := hs'
      dsimp only [changed] at hs2
      cases hs : (state K (es ++ h)).syms u with
      | none => rw [hs] at hs2; simp at hs2
      | some s =>
        rw [hs] at hs2
        simp only [Option.map_some, Option.some.injEq] at hs2
        refine hl u s hs ?_
        rw [← hs2] at hm
        split at hm
        · exact hm
        · exact hm
    | del v =>
      obtain ⟨hc, hl⟩ := ih hq
      refine ⟨hc, fun u s' hs' hm => ?_⟩
      have hs2 : (deleted (state K (es ++ h)) v).syms u = some s' := hs'
      dsimp only [deleted] at hs2
      by_cases huv : u = v
      · rw [if_pos huv] at hs2
        simp at hs2
      · rw [if_neg huv] at hs2
        exact hl u s' hs2 hm
    | ask cs => exact absurd hq (by simp [Quiet])

/-! ### The setting is off -/

/-- Every cell keeps a good verdict. -/
def Fine (st : St) : Prop := ∀ id c, st.cur id = some c → c.kept = some true

theorem fine_check {K : Cfg} {st : St} (id : Nat) (h : Fine st) :
    Fine (check K st id).1 ∧ ((check K st id).2 = .absent ∨ (check K st id).2 = .said true) := by
  cases hc : st.cur id with
  | none => rw [check_none hc]; exact ⟨h, Or.inl rfl⟩
  | some c => rw [check_kept hc (h id c hc)]; exact ⟨h, Or.inr rfl⟩

theorem fine_assign {K : Cfg} {st : St} (v : Nat) (ty : Ty) (hoff : K.on = false) (h : Fine st) :
    Fine (assign K st v ty) := by
  intro j d hd
  unfold assign at hd
  cases hs : st.syms v with
  | none => rw [hs] at hd; exact h j d hd
  | some s =>
    rw [hs] at hd
    dsimp only at hd
    cases hc : st.cur j with
    | none => rw [hc] at hd; simp at hd
    | some c =>
      rw [hc] at hd
      simp only [Option.map_some, Option.some.injEq] at hd
      rw [if_neg (by simp [hoff])] at hd
      rw [← hd]
      exact h j c hc

theorem fine_assigns {K : Cfg} {st : St} (ws : List (Nat × Ty)) (hoff : K.on = false)
    (h : Fine st) : Fine (assigns K st ws) := by
  induction ws generalizing st with
  | nil => exact h
  | cons w ws ih => exact ih (fine_assign w.1 w.2 hoff h)

theorem fine_fresh {K : Cfg} {st : St} (id text : Nat) (ran : Bool) (hoff : K.on = false)
    (h : Fine st) : Fine (fresh K st id text ran) := by
  intro j d hd
  dsimp only [fresh] at hd
  by_cases hj : j = id
  · rw [if_pos hj, hoff] at hd
    cases hd
    rfl
  · rw [if_neg hj] at hd
    exact h j d hd

theorem fine_retext {st : St} (id text : Nat) (h : Fine st) : Fine (retext st id text) := by
  intro j d hd
  dsimp only [retext] at hd
  cases hc : st.cur j with
  | none => rw [hc] at hd; simp at hd
  | some c =>
    rw [hc] at hd
    simp only [Option.map_some, Option.some.injEq] at hd
    split at hd
    · rw [← hd]; exact h j c hc
    · rw [← hd]; exact h j c hc

theorem fine_state (K : Cfg) (hoff : K.on = false) (h : List Ev) : Fine (state K h) := by
  induction h with
  | nil => intro j d hd; simp [state, start] at hd
  | cons e h ih =>
    cases e with
    | run id text ws =>
      exact (fine_check id (fine_assigns ws hoff (fine_check id
        (fine_fresh id text true hoff ih)).1)).1
    | change v ann => exact ih
    | del v => exact ih
    | ask cs =>
      exact ask_ind Fine (fun _ id hb => (fine_check id hb).1)
        (fun _ id text _ hb => fine_retext id text hb)
        (fun _ id text _ _ hb => fine_fresh id text false hoff hb) ih

theorem fine_ask {K : Cfg} {st : St} (hoff : K.on = false) (h : Fine st) (cs : List (Nat × Nat)) :
    (ask K st cs).2 = some [] := by
  have h1 : ∀ l s, Fine s → Fine (retexts K s l).1 ∧ (retexts K s l).2 = true := by
    intro l
    induction l with
    | nil => intro s hs; exact ⟨hs, rfl⟩
    | cons x l ih =>
      obtain ⟨id, t⟩ := x
      intro s hs
      obtain ⟨hf, hc⟩ := fine_check (K := K) id (fine_retext id t hs)
      rw [retexts_cons, if_neg (by rcases hc with hc | hc <;> rw [hc] <;> simp)]
      exact ih _ hf
  have h2 : ∀ l s, Fine s → Fine (creates K s l) := by
    intro l
    induction l with
    | nil => intro s hs; exact hs
    | cons x l ih =>
      obtain ⟨id, t⟩ := x
      intro s hs
      unfold creates
      cases s.cur id with
      | none => exact ih _ (fine_fresh id t false hoff hs)
      | some d => exact ih _ hs
  have h3 : ∀ l s, Fine s → (marks K s l).2 = [] := by
    intro l
    induction l with
    | nil => intro s _; rfl
    | cons x l ih =>
      obtain ⟨id, t⟩ := x
      intro s hs
      obtain ⟨hf, hc⟩ := fine_check (K := K) id hs
      rw [marks_cons, if_neg (by rcases hc with hc | hc <;> rw [hc] <;> simp)]
      exact ih _ hf
  obtain ⟨hf, hok⟩ := h1 cs st h
  unfold ask
  cases hx : retexts K st cs with
  | mk st1 ok =>
    rw [hx] at hf hok
    dsimp only at hok
    subst hok
    dsimp only
    rw [h3 _ _ (h2 _ _ hf)]

end Verif.Checked
