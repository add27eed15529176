import Verif.Widget.Lemmas

/-! # Cells are run again when a widget they read is moved -/

namespace Verif.Widget

theorem mem_live {b : List Stmt} {w : Name} : w ∈ live b ↔ Spec.Reads b w := by
  induction b with
  | nil =>
    constructor
    · intro h; cases h
    · rintro ⟨pre, y, post, h, -⟩; simp at h
  | cons s l ih =>
    have key : ∀ {s : Stmt}, ¬ Spec.Touches w s → (∀ y, s ≠ .copy y w) → (Spec.Reads (s :: l) w ↔ Spec.Reads l w) := by
      intro s h1 h2
      constructor
      · rintro ⟨pre, y, post, h, hp⟩
        cases pre with
        | nil => exact absurd (List.cons.inj h).1 (h2 y)
        | cons a pre => exact ⟨pre, y, post, (List.cons.inj h).2, fun s hs => hp s (by simp [hs])⟩
      · rintro ⟨pre, y, post, h, hp⟩
        refine ⟨s :: pre, y, post, by rw [h]; rfl, fun s' hs => ?_⟩
        rcases List.mem_cons.mp hs with rfl | hs
        · exact h1
        · exact hp s' hs
    have stop : ∀ {s : Stmt}, Spec.Touches w s → (∀ y, s ≠ .copy y w) → ¬ Spec.Reads (s :: l) w := by
      rintro s h1 h2 ⟨pre, y, post, h, hp⟩
      cases pre with
      | nil => exact h2 y (List.cons.inj h).1
      | cons a pre => exact hp a (by simp) ((List.cons.inj h).1 ▸ h1)
    cases s with
    | make w' v =>
      simp only [live, List.mem_filter, ih, decide_eq_true_eq]
      by_cases h : w' = w
      · have := stop (s := .make w' v) h (by intro y; simp)
        exact ⟨fun hh => absurd h.symm hh.2, fun hh => absurd hh this⟩
      · rw [key (s := .make w' v) h (by intro y; simp)]
        exact ⟨fun hh => hh.1, fun hh => ⟨hh, fun e => h e.symm⟩⟩
    | put w' v =>
      simp only [live, List.mem_filter, ih, decide_eq_true_eq]
      by_cases h : w' = w
      · have := stop (s := .put w' v) h (by intro y; simp)
        exact ⟨fun hh => absurd h.symm hh.2, fun hh => absurd hh this⟩
      · rw [key (s := .put w' v) h (by intro y; simp)]
        exact ⟨fun hh => hh.1, fun hh => ⟨hh, fun e => h e.symm⟩⟩
    | copy y w' =>
      simp only [live, List.mem_cons, List.mem_filter, ih, decide_eq_true_eq]
      by_cases h : w = w'
      · exact ⟨fun _ => ⟨[], y, l, by rw [h]; rfl, by simp⟩, fun _ => .inl h⟩
      · by_cases hy : y = w
        · have := stop (s := .copy y w') hy (by intro z hz; exact h (by cases hz; rfl))
          exact ⟨fun hh => hh.elim (fun e => absurd e h) (fun hh => absurd hy.symm hh.2), fun hh => absurd hh this⟩
        · rw [key (s := .copy y w') hy (by intro z hz; exact h (by cases hz; rfl))]
          exact ⟨fun hh => hh.elim (fun e => absurd e h) (fun hh => hh.1), fun hh => .inr ⟨hh, fun e => hy e.symm⟩⟩

/-- What is kept for the widget is newer than the execution. -/
def Newer (c : Nat) (w : Name) (q : List (Name × Part)) : Prop := ∀ p, Assoc.get q w = some p → c < newest p

theorem newest_ready {p : Part} {c r : Nat} (h : p.ready = some r) (hr : c < r) : c < newest p := by
  have : r ≤ newest p := by unfold newest; rw [h]; exact Nat.le_max_right _ _
  omega

theorem newest_time {p : Part} {c : Nat} (h : c < p.time.cell) : c < newest p := by
  have : p.time.cell ≤ newest p := by unfold newest; exact Nat.le_trans (Nat.le_max_left _ _) (Nat.le_max_left _ _)
  omega

theorem newer_step {c ctr : Nat} {w w' : Name} {q q' : List (Name × Part)} (hc : c ≤ ctr) (h : Newer c w q) (hq : PartsStep ctr w' q q') : Newer c w q' := by
  cases hq with
  | same e => rw [e]; exact h
  | taken p e h0 he hs =>
    intro p' hp
    rw [hs, Assoc.get_set] at hp
    by_cases hn : w = w'
    · rw [if_pos hn] at hp
      obtain rfl := Option.some.inj hp
      exact newest_ready rfl (by omega)
    · rw [if_neg hn] at hp; exact h p' hp

theorem newer_kept {c ctr : Nat} (w : Name) (hc : c < ctr) (i : Nat) (s : Stmt) : Kept ctr i s fun _ q => Newer c w q := by
  constructor
  · intro w' v _ e q h p hp
    rw [Assoc.get_set] at hp
    by_cases hn : w = w'
    · rw [if_pos hn] at hp
      obtain rfl := Option.some.inj hp
      exact newest_time hc
    · rw [if_neg hn] at hp; exact h p hp
  · intro w' c' _ e q e' q' old v h hw he hq
    exact newer_step (by omega) h hq
  · intro w' c' _ e q p h hp p' hp'
    rw [Assoc.get_set] at hp'
    by_cases hn : w = w'
    · rw [if_pos hn] at hp'
      obtain rfl := Option.some.inj hp'
      exact newest_time hc
    · rw [if_neg hn] at hp'; exact h p' hp'
  · intro y w' _ e q v h p hp
    rw [get_erase] at hp
    by_cases hn : w = y
    · rw [if_pos hn] at hp; cases hp
    · rw [if_neg hn] at hp; exact h p hp

theorem newer_stays (rest : List Char → Option Code) {h : List Event} {c : Nat} {w : Name} (more : List Event) (hc : c ≤ (after rest h).ctr)
    (hn : Newer c w (after rest h).parts) : Newer c w (after rest (more ++ h)).parts ∧ c ≤ (after rest (more ++ h)).ctr := by
  induction more with
  | nil => exact ⟨hn, hc⟩
  | cons ev more ih =>
    obtain ⟨ih1, ih2⟩ := ih
    show Newer c w (step rest (after rest (more ++ h)) ev).parts ∧ c ≤ (step rest (after rest (more ++ h)) ev).ctr
    set σ := after rest (more ++ h) with hσ
    cases ev with
    | run k body =>
      obtain ⟨r1, r2, r3, r4⟩ := runBody_kept rest (ctr := σ.ctr + 1) body 0 (fun s _ i => newer_kept (c := c) w (Nat.lt_succ_of_le ih2) i s)
        { σ with ctr := σ.ctr + 1, bodies := Assoc.set σ.bodies (σ.ctr + 1) body, last := Assoc.set σ.last k (σ.ctr + 1) } rfl ih1
      refine ⟨r4, ?_⟩
      simp only [step]
      rw [r1]
      exact Nat.le_trans ih2 (Nat.le_succ _)
    | move w' v =>
      simp only [step]
      cases he : Assoc.get σ.env w' with
      | none => exact ⟨ih1, ih2⟩
      | some b =>
        cases b with
        | val _ => exact ⟨ih1, ih2⟩
        | wid old =>
          obtain ⟨-, a2, -, -, a5⟩ := assign_step rest w' old v σ he
          refine ⟨newer_step ih2 ih1 a5, ?_⟩
          dsimp only
          rw [a2]; exact ih2

theorem lastRun_append {more h : List Event} {k : Nat} (hm : ∀ b, .run k b ∉ more) : Spec.lastRun (more ++ h) k = Spec.lastRun h k := by
  induction more with
  | nil => rfl
  | cons ev more ih =>
    have ih := ih fun b hb => hm b (by simp [hb])
    cases ev with
    | run k' b =>
      have : k' ≠ k := by rintro rfl; exact hm b (by simp)
      simp only [List.cons_append, Spec.lastRun, if_neg this, ih]
    | move w v => simp only [List.cons_append, Spec.lastRun, ih]

theorem ready_of_newer {rest : List Char → Option Code} {h : List Event} {k : Nat} {b : List Stmt} {w : Name} (hl : Spec.lastRun h k = some b) (hr : Spec.Reads b w)
    {v : Val} (hw : Spec.Shows (after rest h) w v) (hn : ∀ c, Assoc.get (after rest h).last k = some c → Newer c w (after rest h).parts) : ready (after rest h) k = true := by
  obtain ⟨h1, -, h3⟩ := after_basic rest h
  obtain ⟨c, c1, c2, -⟩ := h3 k b hl
  obtain ⟨p, hp⟩ := (h1 w).mp ⟨v, hw⟩
  unfold ready
  rw [c1]
  simp only [c2, Option.getD_some, List.any_eq_true]
  refine ⟨w, mem_live.mpr hr, ?_⟩
  rw [hp]
  simpa using hn c c1 p hp

/-- A number moved on a widget is noticed: a cell that reads the widget is reported to be run again from then on until it is run, whatever else happens, for as long as the name is
bound to a widget. -/
theorem noticed_partial (rest : List Char → Option Code) (h more : List Event) (k : Nat) (b : List Stmt) (w : Name) (old v : Val) (n : Int)
    (hl : Spec.lastRun h k = some b) (hr : Spec.Reads b w) (hw : Spec.Shows (after rest h) w old) (hne : old ≠ .num n) (hm : ∀ b, .run k b ∉ more)
    (hv : Spec.Shows (after rest (more ++ .move w (.num n) :: h)) w v) : ready (after rest (more ++ .move w (.num n) :: h)) k = true := by
  obtain ⟨h1, -, h3⟩ := after_basic rest h
  obtain ⟨c, c1, c2, c3⟩ := h3 k b hl
  obtain ⟨p, hp⟩ := (h1 w).mp ⟨old, hw⟩
  have hl' : Spec.lastRun (.move w (.num n) :: h) k = some b := hl
  have hstep : after rest (.move w (.num n) :: h) = (assign rest w old (.num n) (after rest h)).1 := by
    show step rest (after rest h) (.move w (.num n)) = _
    simp only [step]
    rw [hw]
  have hparts : (after rest (.move w (.num n) :: h)).parts =
      Assoc.set (after rest h).parts w { p with over := some (extraTime (after rest h) p), ready := some ((after rest h).ctr + 1) } := by
    rw [hstep, assign, if_neg hne]
    simp only [observe, hp, parse_num, take, addEdge_parts]
    rfl
  have hctr : (after rest (.move w (.num n) :: h)).ctr = (after rest h).ctr := by
    rw [hstep]; exact (assign_step rest w old (.num n) _ hw).2.1
  have hnew : Newer c w (after rest (.move w (.num n) :: h)).parts := by
    intro p' hp'
    rw [hparts, Assoc.get_set_self] at hp'
    obtain rfl := Option.some.inj hp'
    exact newest_ready rfl (by omega)
  obtain ⟨m1, -⟩ := newer_stays rest more (by rw [hctr]; exact c3) hnew
  refine ready_of_newer (by rw [lastRun_append hm]; exact hl') hr hv fun c' hc' => ?_
  have : ∀ more : List Event, (∀ b, .run k b ∉ more) → Assoc.get (after rest (more ++ .move w (.num n) :: h)).last k = some c := by
    intro more hm
    induction more with
    | nil =>
      show Assoc.get (after rest (.move w (.num n) :: h)).last k = some c
      rw [hstep, (assign_step rest w old (.num n) _ hw).2.2.2.1]; exact c1
    | cons ev more ih =>
      have ih := ih fun b hb => hm b (by simp [hb])
      show Assoc.get (step rest (after rest (more ++ .move w (.num n) :: h)) ev).last k = some c
      set σ := after rest (more ++ .move w (.num n) :: h)
      cases ev with
      | run k' body =>
        have hk : k ≠ k' := by rintro rfl; exact hm body (by simp)
        obtain ⟨-, -, r3, -⟩ := runBody_kept rest (ctr := σ.ctr + 1) (P := fun _ _ => True) body 0 (fun s _ i => ⟨fun _ _ _ _ _ _ => trivial,
          fun _ _ _ _ _ _ _ _ _ _ _ _ _ => trivial, fun _ _ _ _ _ _ _ _ => trivial, fun _ _ _ _ _ _ _ => trivial⟩)
          { σ with ctr := σ.ctr + 1, bodies := Assoc.set σ.bodies (σ.ctr + 1) body, last := Assoc.set σ.last k' (σ.ctr + 1) } rfl trivial
        simp only [step]
        rw [r3]
        show Assoc.get (Assoc.set σ.last k' (σ.ctr + 1)) k = some c
        rw [Assoc.get_set_ne _ _ hk]; exact ih
      | move w' v' =>
        simp only [step]
        cases he : Assoc.get σ.env w' with
        | none => exact ih
        | some bd =>
          cases bd with
          | val _ => exact ih
          | wid old' =>
            dsimp only
            rw [(assign_step rest w' old' v' σ he).2.2.2.1]; exact ih
  rw [this more hm] at hc'
  obtain rfl := Option.some.inj hc'
  exact m1

/-- What is kept for a widget is not newer than the execution. -/
def Older (c : Nat) (w : Name) (q : List (Name × Part)) : Prop := ∀ p, Assoc.get q w = some p → newest p ≤ c

theorem newest_le {p : Part} {c : Nat} (h1 : p.time.cell ≤ c) (h2 : ∀ e, p.over = some e → e.cell ≤ c) (h3 : ∀ r, p.ready = some r → r ≤ c) : newest p ≤ c := by
  unfold newest
  refine Nat.max_le.mpr ⟨Nat.max_le.mpr ⟨h1, ?_⟩, ?_⟩
  · cases ho : p.over with
    | none => exact Nat.zero_le _
    | some e => exact h2 e ho
  · cases ho : p.ready with
    | none => exact Nat.zero_le _
    | some r => exact h3 r ho

theorem ready_le_newest {p : Part} {r : Nat} (h : p.ready = some r) : r ≤ newest p := by
  unfold newest; rw [h]; exact Nat.le_max_right _ _

theorem older_kept {c : Nat} (w : Name) (i : Nat) (s : Stmt) (hs : ∀ c', s ≠ .put w c') : Kept c i s fun _ q => Older c w q := by
  constructor
  · intro w' v _ e q h p hp
    rw [Assoc.get_set] at hp
    by_cases hn : w = w'
    · rw [if_pos hn] at hp
      obtain rfl := Option.some.inj hp
      refine newest_le (Nat.le_refl _) (fun e h => by cases h) fun r hr => ?_
      cases ho : Assoc.get q w' with
      | none => rw [ho] at hr; cases hr
      | some p0 =>
        rw [ho] at hr
        have hr' : p0.ready = some r := hr
        exact Nat.le_trans (ready_le_newest hr') (h p0 (by rw [hn]; exact ho))
    · rw [if_neg hn] at hp; exact h p hp
  · intro w' c' hs' e q e' q' old v h hw he hq p hp
    have hn : w ≠ w' := by rintro rfl; exact hs c' hs'
    cases hq with
    | same e => rw [e] at hp; exact h p hp
    | taken p0 e h0 he hs =>
      rw [hs, Assoc.get_set_ne _ _ hn] at hp; exact h p hp
  · intro w' c' hs' e q p0 h hp0 p hp
    have hn : w ≠ w' := by rintro rfl; exact hs c' hs'
    rw [Assoc.get_set_ne _ _ hn] at hp; exact h p hp
  · intro y w' _ e q v h p hp
    rw [get_erase] at hp
    by_cases hn : w = y
    · rw [if_pos hn] at hp; cases hp
    · rw [if_neg hn] at hp; exact h p hp

/-- A cell that sets none of the widgets it reads is not reported to be run again right after it ran. -/
theorem settled_by_run_partial (rest : List Char → Option Code) (h : List Event) (k : Nat) (b : List Stmt) (hb : ∀ w, Spec.Reads b w → ¬ Spec.Sets b w) :
    ready (after rest (.run k b :: h)) k = false := by
  obtain ⟨-, h2, -⟩ := after_basic rest h
  set σ := after rest h with hσ
  set σ0 : Sys := { σ with ctr := σ.ctr + 1, bodies := Assoc.set σ.bodies (σ.ctr + 1) b, last := Assoc.set σ.last k (σ.ctr + 1) } with hσ0
  have hlast : Assoc.get (after rest (.run k b :: h)).last k = some (σ.ctr + 1) ∧ Assoc.get (after rest (.run k b :: h)).bodies (σ.ctr + 1) = some b := by
    obtain ⟨-, r2, r3, -⟩ := runBody_kept rest (ctr := σ.ctr + 1) b 0 (fun s _ i => bounded_kept _ i s) σ0 rfl (h2.mono (Nat.le_succ _))
    show Assoc.get (runBody rest (σ.ctr + 1) 0 b σ0).last k = _ ∧ Assoc.get (runBody rest (σ.ctr + 1) 0 b σ0).bodies _ = _
    rw [r2, r3]
    exact ⟨Assoc.get_set_self _ _ _, Assoc.get_set_self _ _ _⟩
  unfold ready
  rw [hlast.1]
  simp only [hlast.2, Option.getD_some, List.any_eq_false]
  intro w hw
  have hset : ∀ s ∈ b, ∀ c', s ≠ .put w c' := fun s hs c' e => hb w (mem_live.mp hw) ⟨c', e ▸ hs⟩
  have hold : Older (σ.ctr + 1) w σ.parts := fun p hp => by
    obtain ⟨-, p2, p3, p4⟩ := h2 w p hp
    exact newest_le (by omega) (fun e he => Nat.le_trans (p3 e he) (Nat.le_succ _)) p4
  obtain ⟨-, -, -, r4⟩ := runBody_kept rest (ctr := σ.ctr + 1) b 0 (fun s hs i => older_kept w i s (hset s hs)) σ0 rfl hold
  have : Older (σ.ctr + 1) w (after rest (.run k b :: h)).parts := r4
  cases hp : Assoc.get (after rest (.run k b :: h)).parts w with
  | none => simp
  | some p => simpa using this p hp

/-- A cell that reads the value of a widget and then sets it to another number is reported to be run again right after it ran. -/
theorem runs_again (rest : List Char → Option Code) (h : List Event) (k : Nat) (y w : Name) (old : Val) (n : Int) (hy : y ≠ w) (hw : Spec.Shows (after rest h) w old)
    (hne : old ≠ .num n) : ready (after rest (.run k [.copy y w, .put w (.lit (.num n))] :: h)) k = true := by
  obtain ⟨h1, h2, -⟩ := after_basic rest h
  obtain ⟨p, hp⟩ := (h1 w).mp ⟨old, hw⟩
  set σ := after rest h with hσ
  have hw' : Assoc.get σ.env w = some (.wid old) := hw
  have hparts : ∃ p', Assoc.get (after rest (.run k [.copy y w, .put w (.lit (.num n))] :: h)).parts w = some p' ∧ p'.ready = some (σ.ctr + 2) := by
    show ∃ p', Assoc.get (step rest σ (.run k [.copy y w, .put w (.lit (.num n))])).parts w = some p' ∧ _
    have e1 : ∀ τ : Sys, (usePart ⟨σ.ctr + 1, 0⟩ w τ).env = τ.env ∧ (usePart ⟨σ.ctr + 1, 0⟩ w τ).parts = τ.parts ∧ (usePart ⟨σ.ctr + 1, 0⟩ w τ).ctr = τ.ctr := fun τ =>
      ⟨(usePart_fields _ w τ).1, (usePart_fields _ w τ).2.2.2.2.1, (usePart_fields _ w τ).2.1⟩
    simp only [step, runBody, runStmt, runCopy, hw']
    simp only [runPut, look, (e1 _).1, Assoc.get_set_ne _ _ (Ne.symm hy), hw', assign, if_neg hne, observe, (e1 _).2.1, get_erase_ne _ (Ne.symm hy), hp, parse_num]
    simp only [useName, refreshPart, take, addEdge_parts, Assoc.get_set_self]
    exact ⟨_, rfl, congrArg some (by simp only [(e1 _).2.2])⟩
  have hlast : Assoc.get (after rest (.run k [.copy y w, .put w (.lit (.num n))] :: h)).last k = some (σ.ctr + 1) ∧
      Assoc.get (after rest (.run k [.copy y w, .put w (.lit (.num n))] :: h)).bodies (σ.ctr + 1) = some [.copy y w, .put w (.lit (.num n))] := by
    obtain ⟨-, r2, r3, -⟩ := runBody_kept rest (ctr := σ.ctr + 1) [.copy y w, .put w (.lit (.num n))] 0 (fun s _ i => bounded_kept _ i s)
      { σ with ctr := σ.ctr + 1, bodies := Assoc.set σ.bodies (σ.ctr + 1) [.copy y w, .put w (.lit (.num n))], last := Assoc.set σ.last k (σ.ctr + 1) } rfl
      (h2.mono (Nat.le_succ _))
    show Assoc.get (runBody rest (σ.ctr + 1) 0 _ _).last k = _ ∧ Assoc.get (runBody rest (σ.ctr + 1) 0 _ _).bodies _ = _
    rw [r2, r3]
    exact ⟨Assoc.get_set_self _ _ _, Assoc.get_set_self _ _ _⟩
  obtain ⟨p', hp', hr'⟩ := hparts
  unfold ready
  rw [hlast.1]
  simp only [hlast.2, Option.getD_some, List.any_eq_true]
  refine ⟨w, mem_live.mpr ⟨[], y, [.put w (.lit (.num n))], rfl, by simp⟩, ?_⟩
  rw [hp']
  simpa using newest_ready hr' (Nat.lt_succ_self _)

/-- A text of two words, or of blanks, moved on a widget is not noticed: no cell is reported that was not reported before, and the code for every name stays the same, though the
widget shows the text. -/
theorem unnoticed (rest : List Char → Option Code) (h : List Event) (w : Name) (old : Val) (s : List Char) (hs : Spec.TwoWords s ∨ ∃ n, s = List.replicate n ' ')
    (hw : Spec.Shows (after rest h) w old) :
    Spec.Shows (after rest (.move w (.str s) :: h)) w (.str s) ∧ (∀ k, ready (after rest (.move w (.str s) :: h)) k = ready (after rest h) k) ∧
    (∀ y, code (after rest (.move w (.str s) :: h)) y = code (after rest h) y) := by
  have hp : parse rest (text (.str s)) = none := by
    rcases hs with hs | ⟨n, rfl⟩
    · exact parse_twoWords rest hs
    · exact parse_blank rest n
  have hw' : Assoc.get (after rest h).env w = some (.wid old) := hw
  have he := (assign_step rest w old (.str s) _ hw').1 w
  rw [if_pos rfl] at he
  have hstep : after rest (.move w (.str s) :: h) = (assign rest w old (.str s) (after rest h)).1 := by
    show step rest (after rest h) (.move w (.str s)) = _
    simp only [step]
    rw [hw']
  rw [hstep]
  refine ⟨he, ?_⟩
  unfold assign
  split
  · exact ⟨fun _ => rfl, fun _ => rfl⟩
  · unfold observe
    rw [hp]
    cases Assoc.get (after rest h).parts w <;> exact ⟨fun _ => rfl, fun _ => rfl⟩

/-- A cell that sets the value of a widget to a text of two words or of blanks ends there with an exception: the names bound by what follows keep what they had. Without ipyflow
the cell goes on. -/
theorem ends_with_exception (rest : List Char → Option Code) (h : List Event) (k : Nat) (w : Name) (old : Val) (s : List Char) (l : List Stmt)
    (hs : Spec.TwoWords s ∨ ∃ n, s = List.replicate n ' ') (hw : Spec.Shows (after rest h) w old) (hne : old ≠ .str s) (n : Name) (hn : n ≠ w) :
    Assoc.get (after rest (.run k (.put w (.lit (.str s)) :: l) :: h)).env n = Assoc.get (after rest h).env n := by
  have hp : parse rest (text (.str s)) = none := by
    rcases hs with hs | ⟨n, rfl⟩
    · exact parse_twoWords rest hs
    · exact parse_blank rest n
  obtain ⟨h1, -, -⟩ := after_basic rest h
  obtain ⟨p, hpp⟩ := (h1 w).mp ⟨old, hw⟩
  have hw' : Assoc.get (after rest h).env w = some (.wid old) := hw
  show Assoc.get (step rest (after rest h) (.run k (.put w (.lit (.str s)) :: l))).env n = _
  simp only [step, runBody, runStmt, runPut, look, hw', assign, if_neg hne, observe, hpp, hp]
  exact Assoc.get_set_ne _ _ hn

end Verif.Widget
