import Verif.Naming.Spec

/-! Lemmas about expressions, what can be got at, and names. -/

namespace Verif.Naming
open Verif

theorem run_py (h : List Ev) : (run h).py = pyRun h := by
  induction h with
  | nil => rfl
  | cons e h ih =>
    have hs : ((run h).step e).py = (run h).py.step e := by
      cases e with
      | display x items =>
        cases hi : (run h).py.items items <;> simp only [St.step, hi]
      | copy x y ks =>
        cases hv : (run h).py.value y ks <;> simp only [St.step, hv]
      | del x => rfl
    show ((run h).step e).py = (pyRun h).step e
    rw [hs, ih]

theorem go_append {py : Py} {t t' : Thing} {a : List Tok} (b : List Tok) (h : go py t a = some t') : go py t (a ++ b) = go py t' b := by
  fun_induction go py t a with
  | case1 t => cases h; rfl
  | case2 o n r t1 ht ih => simp only [List.cons_append, go, ht]; exact ih h
  | case3 => cases h
  | case4 o w r t1 ht ih => simp only [List.cons_append, go, ht]; exact ih h
  | case5 => cases h
  | case6 => cases h

theorem denotes_append {py : Py} {t : Thing} {a : List Tok} (b : List Tok) (h : denotes py a = some t) : denotes py (a ++ b) = go py t b := by
  cases a with
  | nil => cases h
  | cons c a =>
    cases c with
    | name x =>
      simp only [denotes, List.cons_append] at h ⊢
      cases hx : py.env x with
      | none => rw [hx] at h; cases h
      | some o => rw [hx] at h; exact go_append b h
    | num | str | lbr | rbr | dot => cases h

theorem thing_part {py : Py} {o o' : Obj} {k : Key} : thing py o k = some (.obj o') ↔ py.part o k = some o' := by
  unfold thing Py.part
  cases py.item o k with
  | none => simp
  | some i => cases i <;> simp [itemObj]

theorem go_from {py : Py} {x : Nat} {t : Thing} {a : List Tok} {P : Obj} (h : go py t a = some (.obj P)) (ht : ∀ o, t = .obj o → From py x o) :
    From py x P := by
  fun_induction go py t a with
  | case1 t => cases h; exact ht P rfl
  | case2 o n r t1 h1 ih =>
    refine ih h ?_
    rintro o1 rfl
    exact .part (ht o rfl) (thing_part.1 h1)
  | case3 => cases h
  | case4 o w r t1 h1 ih =>
    refine ih h ?_
    rintro o1 rfl
    exact .part (ht o rfl) (thing_part.1 h1)
  | case5 => cases h
  | case6 => cases h

theorem walk_from {py : Py} {x : Nat} {ks : List Key} {o o' : Obj} (h : py.walk o ks = some o') (ho : From py x o) : From py x o' := by
  induction ks generalizing o with
  | nil => cases h; exact ho
  | cons k ks ih =>
    unfold Py.walk at h
    cases hp : py.part o k with
    | none => rw [hp] at h; cases h
    | some o1 => rw [hp] at h; exact ih h (.part ho hp)

theorem value_from {py : Py} {x : Nat} {ks : List Key} {o : Obj} (h : py.value x ks = some o) : From py x o := by
  unfold Py.value at h
  cases hx : py.env x with
  | none => rw [hx] at h; cases h
  | some o1 => rw [hx] at h; exact walk_from h (.var hx)

/-- Objects that are referred to are there. -/
structure Wf (py : Py) : Prop where
  env : ∀ x o, py.env x = some o → o.lit < py.next
  ref : ∀ l p o, Assoc.get (py.tab l) p = some (.ref o) → o.lit < py.next

theorem Wf.part {py : Py} (w : Wf py) {o o' : Obj} {k : Key} (ho : o.lit < py.next) (h : py.part o k = some o') : o'.lit < py.next := by
  unfold Py.part at h
  cases hi : py.item o k with
  | none => rw [hi] at h; cases h
  | some i =>
    rw [hi] at h
    cases i with
    | plain => cases h
    | sub => cases h; exact ho
    | ref o1 => cases h; exact w.ref _ _ _ hi

theorem Wf.from {py : Py} (w : Wf py) {x : Nat} {o : Obj} (h : From py x o) : o.lit < py.next := by
  induction h with
  | var hx => exact w.env _ _ hx
  | part _ hp ih => exact w.part ih hp

theorem items_ref {py : Py} {items : List (Pos × Src)} {t : List (Pos × Item)} (h : py.items items = some t) {p : Pos} {o : Obj}
    (hm : (p, Item.ref o) ∈ t) : ∃ x ks, (p, Src.ref x ks) ∈ items ∧ py.value x ks = some o := by
  induction items generalizing t with
  | nil => cases h; cases hm
  | cons a r ih =>
    obtain ⟨q, s⟩ := a
    cases s with
    | plain | sub =>
      simp only [Py.items, Option.map_eq_some_iff] at h
      obtain ⟨t1, h1, rfl⟩ := h
      rcases List.mem_cons.1 hm with hm | hm
      · cases hm
      · obtain ⟨x, ks, hx, hv⟩ := ih h1 hm
        exact ⟨x, ks, List.mem_cons_of_mem _ hx, hv⟩
    | ref y ks =>
      cases hv : py.value y ks with
      | none => simp only [Py.items, hv] at h; cases h
      | some o1 =>
        simp only [Py.items, hv, Option.map_eq_some_iff] at h
        obtain ⟨t1, h1, rfl⟩ := h
        rcases List.mem_cons.1 hm with hm | hm
        · cases hm; exact ⟨y, ks, List.mem_cons_self, hv⟩
        · obtain ⟨x, ks', hx, hv'⟩ := ih h1 hm
          exact ⟨x, ks', List.mem_cons_of_mem _ hx, hv'⟩

theorem items_pos {py : Py} {items : List (Pos × Src)} {t : List (Pos × Item)} (h : py.items items = some t) {p : Pos} {i : Item}
    (hm : (p, i) ∈ t) : ∃ s, (p, s) ∈ items := by
  induction items generalizing t with
  | nil => cases h; cases hm
  | cons a r ih =>
    obtain ⟨q, s⟩ := a
    have key : ∃ t1 j, py.items r = some t1 ∧ t = (q, j) :: t1 := by
      cases s with
      | plain | sub =>
        simp only [Py.items, Option.map_eq_some_iff] at h
        obtain ⟨t1, h1, rfl⟩ := h
        exact ⟨t1, _, h1, rfl⟩
      | ref y ks =>
        cases hv : py.value y ks with
        | none => simp only [Py.items, hv] at h; cases h
        | some o1 =>
          simp only [Py.items, hv, Option.map_eq_some_iff] at h
          obtain ⟨t1, h1, rfl⟩ := h
          exact ⟨t1, _, h1, rfl⟩
    obtain ⟨t1, j, h1, rfl⟩ := key
    rcases List.mem_cons.1 hm with hm | hm
    · cases hm; exact ⟨s, List.mem_cons_self⟩
    · obtain ⟨s', hs⟩ := ih h1 hm
      exact ⟨s', List.mem_cons_of_mem _ hs⟩

theorem Wf.step {py : Py} (w : Wf py) (e : Ev) : Wf (py.step e) := by
  cases e with
  | display x items =>
    cases hi : py.items items with
    | none => simp only [Py.step, hi]; exact w
    | some t =>
      simp only [Py.step, hi]
      constructor
      · intro z o hz
        simp only [upd] at hz
        split at hz
        · cases hz; exact Nat.lt_succ_self _
        · exact Nat.lt_succ_of_lt (w.env _ _ hz)
      · intro l p o hl
        simp only [upd] at hl
        split at hl
        · obtain ⟨y, ks, -, hv⟩ := items_ref hi (Assoc.mem_of_get hl)
          exact Nat.lt_succ_of_lt (w.from (value_from hv))
        · exact Nat.lt_succ_of_lt (w.ref _ _ _ hl)
  | copy x y ks =>
    cases hv : py.value y ks with
    | none => simp only [Py.step, hv]; exact w
    | some o =>
      simp only [Py.step, hv]
      refine ⟨fun z o' hz => ?_, w.ref⟩
      simp only [upd] at hz
      split at hz
      · cases hz; exact w.from (value_from hv)
      · exact w.env _ _ hz
  | del x =>
    refine ⟨fun z o' hz => ?_, w.ref⟩
    simp only [Py.step, upd] at hz
    split at hz
    · cases hz
    · exact w.env _ _ hz

theorem wf_init : Wf init.py := ⟨fun _ _ h => (by cases h), fun _ _ _ h => (by cases h)⟩

/-- Names that were given are those of objects that are there. -/
def Named (st : St) : Prop := ∀ o x, st.name o = some x → o.lit < st.py.next

/-- The name of every object that can be got at gives the object. -/
def Right (first : Obj → Bool) (st : St) : Prop :=
  ∀ z P, From st.py z P → denotes st.py (path st.name first P.lit P.pos) = some (.obj P)

theorem part_old {py py' : Py} {o : Obj} {k : Key} (hl : py'.tab o.lit = py.tab o.lit) : py'.part o k = py.part o k := by
  unfold Py.part Py.item; rw [hl]

theorem thing_old {py py' : Py} {o : Obj} {k : Key} (hl : py'.tab o.lit = py.tab o.lit) : thing py' o k = thing py o k := by
  unfold thing Py.item; rw [hl]

/-- Expressions that start at old objects keep their meaning. -/
theorem go_old {py py' : Py} (w : Wf py) (hl : ∀ l, l < py.next → py'.tab l = py.tab l) {t : Thing} {a : List Tok} {t' : Thing}
    (h : go py t a = some t') (ht : ∀ o, t = .obj o → o.lit < py.next) : go py' t a = some t' := by
  fun_induction go py t a with
  | case1 t => cases h; rfl
  | case2 o n r t1 h1 ih =>
    have h1' : thing py' o (.int n) = some t1 := by rw [thing_old (hl _ (ht o rfl)), h1]
    simp only [go, h1']
    refine ih h ?_
    rintro o1 rfl
    exact w.part (ht o rfl) (thing_part.1 h1)
  | case3 => cases h
  | case4 o w' r t1 h1 ih =>
    have h1' : thing py' o (.word w') = some t1 := by rw [thing_old (hl _ (ht o rfl)), h1]
    simp only [go, h1']
    refine ih h ?_
    rintro o1 rfl
    exact w.part (ht o rfl) (thing_part.1 h1)
  | case5 => cases h
  | case6 => cases h

/-- An expression that gives an object starts with a variable that leads to it. -/
theorem denotes_root {py : Py} {a : List Tok} {P : Obj} (h : denotes py a = some (.obj P)) :
    ∃ r s o, a = .name r :: s ∧ py.env r = some o ∧ go py (.obj o) s = some (.obj P) ∧ From py r P := by
  cases a with
  | nil => cases h
  | cons c a =>
    cases c with
    | name x =>
      simp only [denotes] at h
      cases hx : py.env x with
      | none => rw [hx] at h; cases h
      | some o =>
        rw [hx] at h
        refine ⟨x, a, o, rfl, hx, h, go_from h ?_⟩
        rintro o1 he
        cases he; exact .var hx
    | num | str | lbr | rbr | dot => cases h

/-- An expression for an object that does not start with the variable that is changed keeps its meaning. -/
theorem denotes_kept {py py' : Py} (w : Wf py) (hl : ∀ l, l < py.next → py'.tab l = py.tab l) {x : Nat} (he : ∀ z, z ≠ x → py'.env z = py.env z)
    {a : List Tok} {P : Obj} (h : denotes py a = some (.obj P)) (hx : ¬ From py x P) : denotes py' a = some (.obj P) := by
  obtain ⟨r, s, o, rfl, hr, hg, hf⟩ := denotes_root h
  have hne : r ≠ x := fun hrx => hx (hrx ▸ hf)
  simp only [denotes, he r hne, hr]
  refine go_old w hl hg ?_
  rintro o1 h1
  cases h1; exact w.env _ _ hr

/-- Giving the name of a variable to one more object changes the names of what is inside it. -/
theorem path_rename (name : Obj → Option Nat) (first : Obj → Bool) (new : Obj) (x : Nat) (lit : Nat) (p : Pos) :
    path (fun b => if b = new then some x else name b) first lit p = path name first lit p ∨
    ∃ s, path (fun b => if b = new then some x else name b) first lit p = .name x :: s ∧
      path name first lit p = path name first new.lit new.pos ++ s := by
  induction p with
  | nil =>
    by_cases hn : (⟨lit, []⟩ : Obj) = new
    · right; exact ⟨[], by simp only [path, if_pos hn], by subst hn; simp⟩
    · left; simp only [path, if_neg hn]
  | cons k p ih =>
    by_cases hn : (⟨lit, k :: p⟩ : Obj) = new
    · right; exact ⟨[], by simp only [path, if_pos hn], by subst hn; simp⟩
    · cases hx : name ⟨lit, k :: p⟩ with
      | some y => left; simp only [path, if_neg hn, hx]
      | none =>
        have hbr : ∃ c : List Tok, ∀ nm : Obj → Option Nat, nm ⟨lit, k :: p⟩ = none → path nm first lit (k :: p) = path nm first lit p ++ c := by
          cases k with
          | int n => exact ⟨[.lbr, .num n, .rbr], fun nm h => by simp only [path, h, keyTok]⟩
          | digits n => exact ⟨[.lbr, .num n, .rbr], fun nm h => by simp only [path, h, keyTok]⟩
          | word w =>
            cases hf : first ⟨lit, .word w :: p⟩ with
            | true => exact ⟨[.lbr, .name w, .rbr], fun nm h => by simp only [path, h, keyTok, hf, if_true]⟩
            | false => exact ⟨[.dot, .name w], fun nm h => by simp [path, h, keyTok, hf]⟩
        obtain ⟨c, hc⟩ := hbr
        rw [hc name hx, hc (fun b => if b = new then some x else name b) (by simp only [if_neg hn, hx])]
        rcases ih with ih | ⟨s, h1, h2⟩
        · left; rw [ih]
        · right; exact ⟨s ++ c, by rw [h1]; rfl, by rw [h2, List.append_assoc]⟩

theorem path_congr {nm nm' : Obj → Option Nat} (first : Obj → Bool) {lit : Nat} (h : ∀ p, nm' ⟨lit, p⟩ = nm ⟨lit, p⟩) (p : Pos) :
    path nm' first lit p = path nm first lit p := by
  induction p with
  | nil => simp only [path, h]
  | cons k p ih => simp only [path, h, ih]

end Verif.Naming
