import Verif.Callee.Spec

/-! # Lemmas about the scopes of calls -/

namespace Verif.Callee

theorem reaches_binders {h : List Ev} {x f : Nat} (hr : Reaches h x f) : x ∈ binders h := by
  induction hr with
  | defined => simp [binders]
  | decorated => simp [binders]
  | copied => simp [binders]
  | older e h x f _ ih => cases e <;> simp [binders, ih]

theorem reaches_makes {h : List Ev} {x f : Nat} (hr : Reaches h x f) : f ∈ makes h := by
  induction hr with
  | defined => simp [makes]
  | decorated _ _ _ _ _ _ _ _ _ _ _ ih => simp [makes, ih]
  | copied _ _ _ _ _ _ _ ih => simpa [makes] using ih
  | older e h x f _ ih => cases e <;> simp [makes, ih]

theorem find_makes {h : List Ev} {o : Nat} : o ∉ makes h ↔ find (real h).made o = none := by
  induction h with
  | nil => simp [makes, real, find]
  | cons e h ih =>
    cases e with
    | define x o' raw key body loc deps =>
      by_cases hc : raw = o
      · simp [makes, real, find, hc]
      · simp only [makes, List.mem_cons, not_or, real, find, if_neg hc, ← ih]
        exact ⟨fun h => h.2, fun h => ⟨fun h' => hc h'.symm, h⟩⟩
    | done outer => cases outer <;> simpa [makes, real] using ih
    | _ => simpa [makes, real] using ih

theorem find_define {h : List Ev} {x o raw key body f : Nat} {loc : Bool} {deps : List Nat}
    (hn : raw ∉ makes h) {p : Nat × Nat} (hf : find (real h).made f = some p) :
    find (real (.define x o raw key body loc deps :: h)).made f = some p := by
  have : raw ≠ f := by
    intro hc
    subst hc
    rw [find_makes.1 hn] at hf
    simp at hf
  simp [real, find, this, hf]

/-- Going through dependencies, all of which have the right scope or none for the object. -/
theorem foldl_take {syms : List (Nat × Sym)} {o : Nat} {p : Nat × Nat} (deps : List Nat)
    (hall : ∀ y ∈ deps, ∀ s, Assoc.get syms y = some s → s.obj = o → s.call ≠ none →
      s.call = some p) (acc : Option (Nat × Nat)) :
    deps.foldl (take syms o) acc = some p ∨
      (deps.foldl (take syms o) acc = acc ∧
        ∀ y ∈ deps, ∀ s, Assoc.get syms y = some s → s.obj = o → s.call = none) := by
  induction deps generalizing acc with
  | nil => exact Or.inr ⟨rfl, by simp⟩
  | cons y ys ih =>
    have hys := fun y' hy' => hall y' (List.mem_cons_of_mem _ hy')
    have hy := hall y List.mem_cons_self
    simp only [List.foldl_cons]
    rcases ih hys (take syms o acc y) with h1 | ⟨h1, h2⟩
    · exact Or.inl h1
    · rw [h1]
      cases hg : Assoc.get syms y with
      | none =>
        refine Or.inr ⟨by simp [take, hg], ?_⟩
        intro y' hy' s hs
        rcases List.mem_cons.1 hy' with rfl | hy'
        · rw [hg] at hs; simp at hs
        · exact h2 y' hy' s hs
      | some s =>
        by_cases hc : s.obj = o ∧ s.call ≠ none
        · exact Or.inl (by simp only [take, hg, if_pos hc]; exact hy s hg hc.1 hc.2)
        · refine Or.inr ⟨by simp only [take, hg, if_neg hc], ?_⟩
          intro y' hy' s' hs' ho
          rcases List.mem_cons.1 hy' with rfl | hy'
          · rw [hg] at hs'
            cases hs'
            exact Classical.byContradiction fun hn => hc ⟨ho, hn⟩
          · exact h2 y' hy' s' hs' ho

theorem get_upsert (syms : List (Nat × Sym)) (x o : Nat) (c : Option (Nat × Nat))
    (deps : List Nat) (z : Nat) :
    Assoc.get (upsert syms x o c deps) z =
      if z = x then some ⟨o, deps.foldl (take (Assoc.set syms x ⟨o, c⟩) o) c⟩
      else Assoc.get syms z := by
  simp only [upsert, Assoc.get_set]
  split <;> rfl

/-- What is true of the tracer after a tidy history. -/
structure Inv (h : List Ev) : Prop where
  stack : (run h).stack = (real h).stack
  next : (run h).next = (real h).count + 1
  calling : ∀ x, (run h).calling = some x ↔ Named h x
  prev : ((run h).prev = .ret ∨ (run h).prev = .after) ↔ EndedLast h
  right : ∀ x s p, Assoc.get (run h).syms x = some s → s.call = some p →
    Reaches h x s.obj ∧ find (real h).made s.obj = some p
  known : ∀ x f, Reaches h x f →
    ∃ s p, Assoc.get (run h).syms x = some s ∧ s.obj = f ∧ s.call = some p
  bound : ∀ x s, Assoc.get (run h).syms x = some s → x ∈ binders h
  byStmt : ∀ key f, Sole h key f → ∃ x, Assoc.get (run h).byStmt key = some x ∧ Reaches h x f
  calls : (run h).calls = (real h).frames

theorem Inv.known_call {h : List Ev} (i : Inv h) {x f : Nat} (hr : Reaches h x f) :
    callOf (run h).syms x = find (real h).made f ∧ callOf (run h).syms x ≠ none := by
  obtain ⟨s, p, h1, h2, h3⟩ := i.known x f hr
  have := (i.right x s p h1 h3).2
  rw [h2] at this
  simp [callOf, h1, h3, this]

theorem Inv.unknown {h : List Ev} (i : Inv h) {x : Nat} (hr : ∀ f, ¬Reaches h x f) :
    callOf (run h).syms x = none := by
  cases hg : Assoc.get (run h).syms x with
  | none => simp [callOf, hg]
  | some s =>
    cases hc : s.call with
    | none => simp [callOf, hg, hc]
    | some p => exact absurd (i.right x s p hg hc).1 (hr _)

theorem inv_nil : Inv [] :=
  { stack := rfl, next := rfl, calls := rfl
    calling := fun x => by simp [run, start, Named]
    prev := by simp [run, start, EndedLast]
    right := fun x s p hs => by simp [run, start] at hs
    known := fun x f hr => by cases hr
    bound := fun x s hs => by simp [run, start] at hs
    byStmt := fun key f hs => by obtain ⟨⟨x, b, d, hm⟩, _⟩ := hs; simp at hm }

/-- Events which bind nothing keep what is known of variables. -/
theorem reaches_other {e : Ev} {h : List Ev} {x f : Nat} (he : binders (e :: h) = binders h)
    (hr : Reaches (e :: h) x f) : Reaches h x f := by
  cases hr with
  | defined => simp [binders] at he
  | decorated => simp [binders] at he
  | copied => simp [binders] at he
  | older _ _ _ _ hr => exact hr

theorem sole_other {e : Ev} {h : List Ev} {key f : Nat}
    (he : ∀ x o raw body loc deps, e ≠ .define x o raw key body loc deps)
    (hs : Sole (e :: h) key f) : Sole h key f := by
  obtain ⟨⟨x, body, deps, hm⟩, hall⟩ := hs
  refine ⟨⟨x, body, deps, ?_⟩, fun x o raw body loc deps hm =>
    hall x o raw body loc deps (List.mem_cons_of_mem _ hm)⟩
  rcases List.mem_cons.1 hm with hm | hm
  · exact absurd hm.symm (he _ _ _ _ _ _)
  · exact hm

theorem choose_entered {h : List Ev} (i : Inv h) {o key : Nat}
    (ht : (∃ x, Named h x ∧ Reaches h x o) ∨
      ((∀ x f, Named h x → ¬Reaches h x f) ∧ Sole h key o)) :
    choose (run h) key = find (real h).made o := by
  rcases ht with ⟨x, hn, hr⟩ | ⟨hn, hs⟩
  · have hc := (i.calling x).2 hn
    obtain ⟨h1, h2⟩ := i.known_call hr
    simp only [choose, pick, hc, if_neg h2]
    exact h1
  · obtain ⟨y, hy, hr⟩ := i.byStmt key o hs
    obtain ⟨h1, h2⟩ := i.known_call hr
    cases hc : (run h).calling with
    | none => simp only [choose, pick, hc, hy]; exact h1
    | some x =>
      have hu := i.unknown (hn x · ((i.calling x).1 hc))
      simp only [choose, pick, hc, hu, hy]; exact h1

theorem inv_define {h : List Ev} (i : Inv h) {x o raw key body : Nat} {deps : List Nat}
    (hx : x ∉ binders h) (hxd : x ∉ deps) (hraw : raw ∉ makes h)
    (ho : o = raw ∨ ∃ y ∈ deps, Reaches h y o) :
    Inv (.define x o raw key body true deps :: h) := by
  have hget : ∀ y ∈ deps, Assoc.get (Assoc.set (run h).syms x
      ⟨o, some (cur (run h).stack, body)⟩) y = Assoc.get (run h).syms y := by
    intro y hy
    rw [Assoc.get_set, if_neg]
    intro hc; subst hc; exact hxd hy
  -- the scope the variable ends up with
  have hnew : ∃ p, deps.foldl (take (Assoc.set (run h).syms x
        ⟨o, some (cur (run h).stack, body)⟩) o) (some (cur (run h).stack, body)) = some p ∧
      find (real (.define x o raw key body true deps :: h)).made o = some p ∧
      Reaches (.define x o raw key body true deps :: h) x o := by
    by_cases hor : o = raw
    · subst hor
      have hnone : ∀ y ∈ deps, ∀ s, Assoc.get (Assoc.set (run h).syms x
          ⟨o, some (cur (run h).stack, body)⟩) y = some s → s.obj = o → s.call = none := by
        intro y hy s hs hso
        rw [hget y hy] at hs
        cases hc : s.call with
        | none => rfl
        | some p =>
          have := (i.right y s p hs hc).2
          rw [hso, find_makes.1 hraw] at this
          simp at this
      refine ⟨(cur (run h).stack, body), ?_, ?_, .defined _ _ _ _ _ _⟩
      · rcases foldl_take (p := (cur (run h).stack, body)) deps
          (fun y hy s hs h1 h2 => absurd (hnone y hy s hs h1) h2)
          (some (cur (run h).stack, body)) with h1 | ⟨h1, _⟩ <;> exact h1
      · simp [real, find, cur, i.stack]
    · obtain ⟨y, hy, hr⟩ := ho.resolve_left hor
      obtain ⟨s, p, hs, hso, hsp⟩ := i.known y o hr
      have hfind : find (real h).made o = some p := by rw [← hso]; exact (i.right y s p hs hsp).2
      refine ⟨p, ?_, find_define hraw hfind, .decorated _ _ _ _ _ y _ _ _ hy hr⟩
      rcases foldl_take (p := p) (o := o) deps (syms := Assoc.set (run h).syms x
          ⟨o, some (cur (run h).stack, body)⟩) (fun y' hy' s' hs' h1 h2 => by
            rw [hget y' hy'] at hs'
            cases hc : s'.call with
            | none => exact absurd hc h2
            | some p' =>
              have := (i.right y' s' p' hs' hc).2
              rw [h1, hfind] at this
              rw [this])
          (some (cur (run h).stack, body)) with h1 | ⟨_, h2⟩
      · exact h1
      · have := h2 y hy s (by rw [hget y hy]; exact hs) hso
        rw [hsp] at this
        simp at this
  obtain ⟨p, hp, hfind, hreach⟩ := hnew
  have hsyms : ∀ z, Assoc.get (run (.define x o raw key body true deps :: h)).syms z =
      if z = x then some ⟨o, some p⟩ else Assoc.get (run h).syms z := by
    intro z
    simp only [run, step, get_upsert, if_true]
    rw [hp]
  constructor
  · exact i.stack
  · exact i.next
  · exact i.calling
  · exact i.prev
  · intro z s q hz hq
    rw [hsyms] at hz
    by_cases hzx : z = x
    · subst hzx
      rw [if_pos rfl] at hz
      cases hz
      cases hq
      exact ⟨hreach, hfind⟩
    · rw [if_neg hzx] at hz
      obtain ⟨h1, h2⟩ := i.right z s q hz hq
      exact ⟨.older _ _ _ _ h1, find_define hraw h2⟩
  · intro z f hr
    rw [hsyms]
    by_cases hzx : z = x
    · subst hzx
      refine ⟨⟨o, some p⟩, p, by rw [if_pos rfl], ?_, rfl⟩
      cases hr with
      | defined => rfl
      | decorated => rfl
      | older _ _ _ _ hr => exact absurd (reaches_binders hr) hx
    · rw [if_neg hzx]
      cases hr with
      | defined => exact absurd rfl hzx
      | decorated => exact absurd rfl hzx
      | older _ _ _ _ hr => exact i.known z f hr
  · intro z s hz
    rw [hsyms] at hz
    by_cases hzx : z = x
    · simp [binders, hzx]
    · rw [if_neg hzx] at hz
      simp [binders, i.bound z s hz]
  · intro k f hs
    simp only [run, step, Assoc.get_set]
    by_cases hk : k = key
    · subst hk
      rw [if_pos rfl]
      have hof : o = f := hs.2 x o raw body true deps List.mem_cons_self
      subst hof
      exact ⟨x, rfl, hreach⟩
    · rw [if_neg hk]
      obtain ⟨y, h1, h2⟩ := i.byStmt k f (sole_other (fun _ _ _ _ _ _ hc => hk (by
        injection hc with _ _ _ h4; exact h4.symm)) hs)
      exact ⟨y, h1, .older _ _ _ _ h2⟩
  · exact i.calls

theorem inv_assign {h : List Ev} (i : Inv h) {x o : Nat} {deps : List Nat}
    (hx : x ∉ binders h) : Inv (.assign x o deps :: h) := by
  have hold : callOf (run h).syms x = none := by
    cases hg : Assoc.get (run h).syms x with
    | none => simp [callOf, hg]
    | some s => exact absurd (i.bound x s hg) hx
  have hget : ∀ y s, Assoc.get (Assoc.set (run h).syms x ⟨o, none⟩) y = some s →
      s.call ≠ none → Assoc.get (run h).syms y = some s := by
    intro y s hs hn
    rw [Assoc.get_set] at hs
    by_cases hyx : y = x
    · rw [if_pos hyx] at hs
      cases hs
      simp at hn
    · rwa [if_neg hyx] at hs
  have hsyms : ∀ z, Assoc.get (run (.assign x o deps :: h)).syms z =
      if z = x then some ⟨o, deps.foldl (take (Assoc.set (run h).syms x ⟨o, none⟩) o) none⟩
      else Assoc.get (run h).syms z := by
    intro z
    simp only [run, step, get_upsert, hold]
  have hright : ∀ y ∈ deps, ∀ s, Assoc.get (Assoc.set (run h).syms x ⟨o, none⟩) y = some s →
      s.obj = o → s.call ≠ none → Reaches h y o ∧ s.call = find (real h).made o := by
    intro y _ s hs hso hn
    cases hc : s.call with
    | none => exact absurd hc hn
    | some p =>
      have := i.right y s p (hget y s hs hn) hc
      rw [hso] at this
      exact ⟨this.1, this.2.symm⟩
  constructor
  · exact i.stack
  · exact i.next
  · exact i.calling
  · exact i.prev
  · intro z s q hz hq
    rw [hsyms] at hz
    by_cases hzx : z = x
    · subst hzx
      rw [if_pos rfl] at hz
      cases hz
      simp only at hq ⊢
      by_cases hex : ∃ y ∈ deps, Reaches h y o
      · obtain ⟨y, hy, hr⟩ := hex
        obtain ⟨h1, h2⟩ := i.known_call hr
        cases hf : find (real h).made o with
        | none => rw [hf] at h1; exact absurd h1 h2
        | some p =>
          rcases foldl_take (p := p) deps (fun y hy s hs a b => by
            rw [(hright y hy s hs a b).2, hf]) none with h3 | ⟨h3, _⟩
          · rw [h3] at hq
            cases hq
            exact ⟨.copied _ _ y _ _ hy hr, hf⟩
          · rw [h3] at hq
            simp at hq
      · rcases foldl_take (p := q) (o := o) deps
          (syms := Assoc.set (run h).syms z ⟨o, none⟩) (fun y hy s hs a b =>
            absurd ⟨y, hy, (hright y hy s hs a b).1⟩ hex) none with h3 | ⟨h3, _⟩
        · have : ∀ l : List Nat, (∀ y ∈ l, y ∈ deps) →
              l.foldl (take (Assoc.set (run h).syms z ⟨o, none⟩) o) none = none := by
            intro l hl
            rcases foldl_take (p := (0, 0)) (o := o) l
              (syms := Assoc.set (run h).syms z ⟨o, none⟩) (fun y hy s hs a b =>
                absurd ⟨y, hl y hy, (hright y (hl y hy) s hs a b).1⟩ hex) none with h4 | ⟨h4, _⟩
            · rcases foldl_take (p := (1, 0)) (o := o) l
                (syms := Assoc.set (run h).syms z ⟨o, none⟩) (fun y hy s hs a b =>
                  absurd ⟨y, hl y hy, (hright y (hl y hy) s hs a b).1⟩ hex) none with h5 | ⟨h5, _⟩
              · rw [h4] at h5; simp at h5
              · exact h5
            · exact h4
          rw [this deps (fun _ h => h)] at hq
          simp at hq
        · rw [h3] at hq
          simp at hq
    · rw [if_neg hzx] at hz
      obtain ⟨h1, h2⟩ := i.right z s q hz hq
      exact ⟨.older _ _ _ _ h1, by simpa [real] using h2⟩
  · intro z f hr
    rw [hsyms]
    by_cases hzx : z = x
    · subst hzx
      cases hr with
      | copied _ _ y _ _ hy hr =>
        obtain ⟨s, p, hs, hso, hsp⟩ := i.known y o hr
        have hyx : y ≠ z := by
          intro hc; subst hc; exact hx (reaches_binders hr)
        have hfind : find (real h).made o = some p := by
          rw [← hso]; exact (i.right y s p hs hsp).2
        rcases foldl_take (p := p) deps (fun y hy s hs a b => by
          rw [(hright y hy s hs a b).2, hfind]) none with h3 | ⟨_, h4⟩
        · exact ⟨_, p, by rw [if_pos rfl], rfl, h3⟩
        · have := h4 y hy s (by rw [Assoc.get_set, if_neg hyx]; exact hs) hso
          rw [hsp] at this
          simp at this
      | older _ _ _ _ hr => exact absurd (reaches_binders hr) hx
    · rw [if_neg hzx]
      cases hr with
      | copied => exact absurd rfl hzx
      | older _ _ _ _ hr => exact i.known z f hr
  · intro z s hz
    rw [hsyms] at hz
    by_cases hzx : z = x
    · simp [binders, hzx]
    · rw [if_neg hzx] at hz
      simp [binders, i.bound z s hz]
  · intro k f hs
    obtain ⟨y, h1, h2⟩ := i.byStmt k f (sole_other (fun _ _ _ _ _ _ hc => by simp at hc) hs)
    exact ⟨y, h1, .older _ _ _ _ h2⟩
  · exact i.calls

theorem inv_of_tidy : (h : List Ev) → Tidy h → Inv h
  | [], _ => inv_nil
  | e :: h, ht => by
    have i := inv_of_tidy h ht.1
    have he := ht.2
    cases e with
    | define x o raw key body loc deps =>
      obtain ⟨rfl, hx, hxd, hraw, ho⟩ := he
      exact inv_define i hx hxd hraw ho
    | assign x o deps => exact inv_assign i he
    | before x =>
      exact
        { stack := i.stack, next := i.next, calls := i.calls, prev := i.prev
          calling := fun z => by simp [run, step, Named]
          right := fun z s p h1 h2 =>
            let ⟨a, b⟩ := i.right z s p h1 h2; ⟨.older _ _ _ _ a, b⟩
          known := fun z f hr => i.known z f (reaches_other rfl hr)
          bound := i.bound
          byStmt := fun k f hs =>
            let ⟨y, a, b⟩ := i.byStmt k f (sole_other (by simp) hs); ⟨y, a, .older _ _ _ _ b⟩ }
    | enter o key =>
      exact
        { stack := by simp [run, step, real, i.stack, i.next]
          next := by simp [run, step, real, i.next]
          calls := by
            simp only [run, step, real, i.calls, i.next, choose_entered i he]
          prev := by simp [run, step, EndedLast]
          calling := i.calling
          right := fun z s p h1 h2 =>
            let ⟨a, b⟩ := i.right z s p h1 h2; ⟨.older _ _ _ _ a, b⟩
          known := fun z f hr => i.known z f (reaches_other rfl hr)
          bound := i.bound
          byStmt := fun k f hs =>
            let ⟨y, a, b⟩ := i.byStmt k f (sole_other (by simp) hs); ⟨y, a, .older _ _ _ _ b⟩ }
    | leave r =>
      exact
        { stack := by simp [run, step, real, i.stack]
          next := i.next, calls := i.calls
          prev := by simp [run, step, EndedLast]
          calling := fun z => by
            simp only [run, step, Named, finishes]
            rw [← i.prev, ← i.calling z]
            cases r <;> simp
          right := fun z s p h1 h2 =>
            let ⟨a, b⟩ := i.right z s p h1 h2; ⟨.older _ _ _ _ a, b⟩
          known := fun z f hr => i.known z f (reaches_other rfl hr)
          bound := i.bound
          byStmt := fun k f hs =>
            let ⟨y, a, b⟩ := i.byStmt k f (sole_other (by simp) hs); ⟨y, a, .older _ _ _ _ b⟩ }
    | done outer =>
      have hm : (real (.done outer :: h)).made = (real h).made := by cases outer <;> rfl
      exact
        { stack := by cases outer <;> simp [run, step, real, i.stack]
          next := by cases outer <;> exact i.next
          calls := by cases outer <;> exact i.calls
          prev := by simp [run, step, EndedLast]
          calling := fun z => by simp [run, step, Named]
          right := fun z s p h1 h2 =>
            let ⟨a, b⟩ := i.right z s p h1 h2; ⟨.older _ _ _ _ a, by rw [hm]; exact b⟩
          known := fun z f hr => i.known z f (reaches_other rfl hr)
          bound := i.bound
          byStmt := fun k f hs =>
            let ⟨y, a, b⟩ := i.byStmt k f (sole_other (by simp) hs); ⟨y, a, .older _ _ _ _ b⟩ }
    | raised =>
      exact
        { stack := i.stack, next := i.next, calls := i.calls
          prev := by simp [run, step, EndedLast]
          calling := i.calling
          right := fun z s p h1 h2 =>
            let ⟨a, b⟩ := i.right z s p h1 h2; ⟨.older _ _ _ _ a, b⟩
          known := fun z f hr => i.known z f (reaches_other rfl hr)
          bound := i.bound
          byStmt := fun k f hs =>
            let ⟨y, a, b⟩ := i.byStmt k f (sole_other (by simp) hs); ⟨y, a, .older _ _ _ _ b⟩ }

end Verif.Callee
