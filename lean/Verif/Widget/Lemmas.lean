import Verif.Widget.Spec
import Mathlib.Tactic.Set

/-! # Lemmas about texts and about when cells are to be run again -/

namespace Verif.Widget

theorem digitChar_facts (n : Nat) : (Nat.digitChar (n % 10)).toNat - '0'.toNat = n % 10 ∧ Nat.digitChar (n % 10) ≠ ' ' ∧ Nat.digitChar (n % 10) ≠ '-' := by
  have : n % 10 < 10 := Nat.mod_lt _ (by decide)
  revert this
  generalize n % 10 = m
  intro h
  have : m = 0 ∨ m = 1 ∨ m = 2 ∨ m = 3 ∨ m = 4 ∨ m = 5 ∨ m = 6 ∨ m = 7 ∨ m = 8 ∨ m = 9 := by omega
  rcases this with h | h | h | h | h | h | h | h | h | h <;> subst h <;> decide

theorem number_digits (fuel n : Nat) (h : n < fuel) : number (digits fuel n) = n := by
  induction fuel generalizing n with
  | zero => omega
  | succ f ih =>
    simp only [digits, number, (digitChar_facts n).1]
    split
    · rename_i h0; simp only [number]; omega
    · rw [ih _ (by omega)]; omega

theorem digits_chars (fuel n : Nat) : ∀ c ∈ digits fuel n, c ≠ ' ' ∧ c ≠ '-' := by
  induction fuel generalizing n with
  | zero => intro c h; simp [digits] at h
  | succ f ih =>
    intro c h
    simp only [digits, List.mem_cons] at h
    rcases h with rfl | h
    · exact (digitChar_facts n).2
    · split at h
      · cases h
      · exact ih _ c h

theorem written_chars (n : Nat) : ∀ c ∈ written n, c ≠ ' ' ∧ c ≠ '-' := fun c h => digits_chars _ _ c (List.mem_reverse.mp h)

theorem written_ne_nil (n : Nat) : written n ≠ [] := by simp [written, digits]

theorem number_written (n : Nat) : number (written n).reverse = n := by
  rw [written, List.reverse_reverse]; exact number_digits _ _ (by omega)

theorem isNumber_written (n : Nat) : isNumber (written n) = true := by simp [isNumber, number_written]

theorem isNumber_minus (l : List Char) : isNumber ('-' :: l) = false := by
  simp only [isNumber, beq_eq_false_iff_ne]
  intro h
  have := written_chars (number ('-' :: l).reverse) '-' (by rw [← h]; simp)
  exact this.2 rfl

theorem blank_written (n : Nat) : (written n).all (· == ' ') = false := by
  cases h : written n with
  | nil => exact absurd h (written_ne_nil n)
  | cons c l =>
    have := (written_chars n c (by simp [h])).1
    simp [this]

/-- Numbers come back. -/
theorem parse_num (rest : List Char → Option Code) (k : Int) : parse rest (text (.num k)) = some (.lit (.num k)) := by
  cases k with
  | ofNat n => simp [parse, text, blank_written, isNumber_written, number_written]
  | negSucc n =>
    have h1 : ('-' :: written (n + 1)).all (· == ' ') = false := by simp
    have h2 := isNumber_minus (written (n + 1))
    simp only [parse, text, h1, h2, isNumber_written, number_written, if_true, Bool.false_eq_true, if_false, Option.some.injEq, Code.lit.injEq, Val.num.injEq]
    omega

theorem isName_of_word {l : List Char} (h0 : l ≠ []) (h1 : ∀ c ∈ l, c.isAlpha) (h2 : l ∉ keywords) : isName l = true := by
  cases l with
  | nil => exact absurd rfl h0
  | cons c l =>
    have hc : c.isAlpha = true := h1 c (by simp)
    have hl : l.all (fun d => d.isAlphanum || d == '_') = true := by
      rw [List.all_eq_true]; intro d hd
      have := h1 d (by simp [hd])
      simp [Char.isAlphanum, this]
    simp [isName, hc, hl, h2]

theorem alpha_ne {c d : Char} (h : c.isAlpha = true) (hd : d.isAlpha = false) : c ≠ d := by
  rintro rfl; rw [h] at hd; exact absurd hd (by decide)

theorem not_number {c : Char} {l : List Char} (h : ' ' ∈ c :: l) : isNumber (c :: l) = false := by
  simp only [isNumber, beq_eq_false_iff_ne]
  intro he
  rw [he] at h
  exact (written_chars _ _ h).1 rfl

/-- Two words are not read. -/
theorem parse_twoWords (rest : List Char → Option Code) {s : List Char} (h : Spec.TwoWords s) : parse rest s = none := by
  obtain ⟨a, b, rfl, h⟩ := h
  obtain ⟨a0, a1, a2⟩ := h a (.inl rfl)
  obtain ⟨b0, b1, b2⟩ := h b (.inr rfl)
  have ha : ∀ c ∈ a, (c != ' ') = true := fun c hc => by simpa using alpha_ne (a1 c hc) (d := ' ') (by decide)
  have htake : (a ++ ' ' :: b).takeWhile (· != ' ') = a := by
    rw [List.takeWhile_append_of_pos ha]; simp
  have hdrop : (a ++ ' ' :: b).dropWhile (· != ' ') = ' ' :: b := by
    rw [List.dropWhile_append_of_pos ha]; simp
  have htwo : isTwoNames (a ++ ' ' :: b) = true := by
    simp only [isTwoNames, htake, hdrop, List.drop_succ_cons, List.drop_zero, isName_of_word a0 a1 a2, isName_of_word b0 b1 b2, Bool.and_self]
  cases a with
  | nil => exact absurd rfl a0
  | cons c l =>
    have hc := a1 c (by simp)
    have hblank : (c :: l ++ ' ' :: b).all (· == ' ') = false := by
      have := alpha_ne hc (d := ' ') (by decide)
      simp [this]
    have hnum : isNumber (c :: l ++ ' ' :: b) = false := not_number (c := c) (l := l ++ ' ' :: b) (by simp)
    have hname : isName (c :: l ++ ' ' :: b) = false := by
      have hsp : ¬ ((l ++ ' ' :: b).all (fun d => d.isAlphanum || d == '_') = true) := by
        intro h
        have := List.all_eq_true.mp h ' ' (by simp)
        exact absurd this (by decide)
      have hsp' : (l ++ ' ' :: b).all (fun d => d.isAlphanum || d == '_') = false := by
        cases hh : (l ++ ' ' :: b).all (fun d => d.isAlphanum || d == '_') with
        | true => exact absurd hh hsp
        | false => rfl
      show ((c.isAlpha || c == '_') && (l ++ ' ' :: b).all _ && _) = false
      rw [hsp', Bool.and_false, Bool.false_and]
    have hminus : c ≠ '-' := alpha_ne hc (by decide)
    unfold parse
    rw [hblank, hnum]
    simp only [Bool.false_eq_true, if_false]
    split
    · rename_i l' he
      exact absurd (List.cons.inj he).1 hminus
    · rw [hname, htwo]; simp

theorem parse_blank (rest : List Char → Option Code) (n : Nat) : parse rest (List.replicate n ' ') = none := by
  simp [parse]

/-! ## What statements leave alone -/

section fields
variable (a b : Time) (σ : Sys)

@[simp] theorem addEdge_env : (addEdge a b σ).env = σ.env := by unfold addEdge; split <;> rfl
@[simp] theorem addEdge_ctr : (addEdge a b σ).ctr = σ.ctr := by unfold addEdge; split <;> rfl
@[simp] theorem addEdge_bodies : (addEdge a b σ).bodies = σ.bodies := by unfold addEdge; split <;> rfl
@[simp] theorem addEdge_last : (addEdge a b σ).last = σ.last := by unfold addEdge; split <;> rfl
@[simp] theorem addEdge_stmts : (addEdge a b σ).stmts = σ.stmts := by unfold addEdge; split <;> rfl
@[simp] theorem addEdge_homes : (addEdge a b σ).homes = σ.homes := by unfold addEdge; split <;> rfl
@[simp] theorem addEdge_parts : (addEdge a b σ).parts = σ.parts := by unfold addEdge; split <;> rfl

end fields

/-- What an assignment to a widget may do to the parts. -/
inductive PartsStep (ctr : Nat) (w : Name) (q q' : List (Name × Part)) : Prop
  | same (h : q' = q)
  | taken (p : Part) (e : Time) (h0 : Assoc.get q w = some p) (he : e.cell = p.home.cell) (h : q' = Assoc.set q w { p with over := some e, ready := some (ctr + 1) })

theorem observe_step (rest : List Char → Option Code) (w : Name) (v : Val) (σ : Sys) :
    (observe rest w v σ).1.env = σ.env ∧ (observe rest w v σ).1.ctr = σ.ctr ∧ (observe rest w v σ).1.bodies = σ.bodies ∧ (observe rest w v σ).1.last = σ.last ∧
    PartsStep σ.ctr w σ.parts (observe rest w v σ).1.parts := by
  unfold observe
  cases hp : Assoc.get σ.parts w with
  | none => exact ⟨rfl, rfl, rfl, rfl, .same rfl⟩
  | some p =>
    cases hc : parse rest (text v) with
    | none => exact ⟨rfl, rfl, rfl, rfl, .same rfl⟩
    | some c =>
      refine ⟨by simp [take], by simp [take], by simp [take], by simp [take], .taken p (extraTime σ p) hp rfl (by simp [take])⟩

theorem assign_step (rest : List Char → Option Code) (w : Name) (old v : Val) (σ : Sys) (h : Assoc.get σ.env w = some (.wid old)) :
    (∀ n, Assoc.get (assign rest w old v σ).1.env n = if n = w then some (.wid v) else Assoc.get σ.env n) ∧ (assign rest w old v σ).1.ctr = σ.ctr ∧
    (assign rest w old v σ).1.bodies = σ.bodies ∧ (assign rest w old v σ).1.last = σ.last ∧ PartsStep σ.ctr w σ.parts (assign rest w old v σ).1.parts := by
  unfold assign
  split
  · rename_i e
    subst e
    refine ⟨fun n => ?_, rfl, rfl, rfl, .same rfl⟩
    split
    · rename_i e; rw [e]; exact h
    · rfl
  · obtain ⟨h1, h2, h3, h4, h5⟩ := observe_step rest w v { σ with env := Assoc.set σ.env w (.wid v) }
    refine ⟨fun n => ?_, h2, h3, h4, h5⟩
    rw [h1]; exact Assoc.get_set _ _ _ _

theorem useName_fields (t : Time) (σ : Sys) (c : Code) :
    (useName t σ c).env = σ.env ∧ (useName t σ c).ctr = σ.ctr ∧ (useName t σ c).bodies = σ.bodies ∧ (useName t σ c).last = σ.last ∧ (useName t σ c).parts = σ.parts ∧
    (useName t σ c).stmts = σ.stmts ∧ (useName t σ c).homes = σ.homes := by
  cases c with
  | lit v => simp [useName]
  | name n =>
    simp only [useName]
    cases Assoc.get σ.homes n <;> simp

theorem refreshPart_fields (w : Name) (t : Time) (σ : Sys) :
    (refreshPart w t σ).env = σ.env ∧ (refreshPart w t σ).ctr = σ.ctr ∧ (refreshPart w t σ).bodies = σ.bodies ∧ (refreshPart w t σ).last = σ.last ∧
    (refreshPart w t σ).stmts = σ.stmts ∧ (refreshPart w t σ).homes = σ.homes := by
  unfold refreshPart
  cases Assoc.get σ.parts w <;> simp

theorem usePart_fields (t : Time) (w : Name) (σ : Sys) :
    (usePart t w σ).env = σ.env ∧ (usePart t w σ).ctr = σ.ctr ∧ (usePart t w σ).bodies = σ.bodies ∧ (usePart t w σ).last = σ.last ∧ (usePart t w σ).parts = σ.parts ∧
    (usePart t w σ).stmts = σ.stmts ∧ (usePart t w σ).homes = σ.homes := by
  unfold usePart
  cases Assoc.get σ.parts w <;> simp

/-- What it takes for a property of names and parts to be kept by a statement. -/
structure Kept (ctr i : Nat) (s : Stmt) (P : List (Name × Bind) → List (Name × Part) → Prop) : Prop where
  make : ∀ w v, s = .make w v → ∀ e q, P e q → P (Assoc.set e w (.wid v)) (Assoc.set q w ⟨⟨ctr, i⟩, ⟨ctr, i⟩, none, (Assoc.get q w).bind Part.ready⟩)
  put : ∀ w c, s = .put w c → ∀ e q e' q' old v, P e q → Assoc.get e w = some (.wid old) → (∀ n, Assoc.get e' n = if n = w then some (.wid v) else Assoc.get e n) →
    PartsStep ctr w q q' → P e' q'
  refresh : ∀ w c, s = .put w c → ∀ e q p, P e q → Assoc.get q w = some p → P e (Assoc.set q w { p with time := ⟨ctr, i⟩, over := none })
  copy : ∀ y w, s = .copy y w → ∀ e q v, P e q → P (Assoc.set e y (.val v)) (Assoc.erase q y)

theorem runStmt_kept (rest : List Char → Option Code) {ctr i : Nat} {s : Stmt} {P : List (Name × Bind) → List (Name × Part) → Prop} (k : Kept ctr i s P) (σ : Sys)
    (hc : σ.ctr = ctr) (h : P σ.env σ.parts) :
    (runStmt rest ⟨ctr, i⟩ s σ).1.ctr = σ.ctr ∧ (runStmt rest ⟨ctr, i⟩ s σ).1.bodies = σ.bodies ∧ (runStmt rest ⟨ctr, i⟩ s σ).1.last = σ.last ∧
    P (runStmt rest ⟨ctr, i⟩ s σ).1.env (runStmt rest ⟨ctr, i⟩ s σ).1.parts := by
  cases s with
  | make w v => exact ⟨rfl, rfl, rfl, k.make w v rfl _ _ h⟩
  | put w c =>
    simp only [runStmt, runPut]
    set σ1 : Sys := { σ with stmts := Assoc.set σ.stmts ⟨ctr, i⟩ (.put w c) } with hσ1
    cases hl : look σ1 c with
    | none => exact ⟨rfl, rfl, rfl, h⟩
    | some v =>
      cases he : Assoc.get σ1.env w with
      | none => exact ⟨rfl, rfl, rfl, h⟩
      | some b =>
        cases b with
        | val _ => exact ⟨rfl, rfl, rfl, h⟩
        | wid old =>
          obtain ⟨a1, a2, a3, a4, a5⟩ := assign_step rest w old v σ1 he
          have hP := k.put w c rfl σ.env σ.parts _ _ old v h he a1 (by rw [← hc]; exact a5)
          dsimp only
          rcases hr : assign rest w old v σ1 with ⟨σ2, ok⟩
          rw [hr] at a1 a2 a3 a4 a5 hP
          dsimp only at a1 a2 a3 a4 a5 hP
          cases ok with
          | false => exact ⟨a2, a3, a4, hP⟩
          | true =>
            dsimp only
            obtain ⟨u1, u2, u3, u4, u5, -, -⟩ := useName_fields ⟨ctr, i⟩ (refreshPart w ⟨ctr, i⟩ σ2) c
            obtain ⟨r1, r2, r3, r4, -, -⟩ := refreshPart_fields w ⟨ctr, i⟩ σ2
            rw [u1, u2, u3, u4, u5, r1, r2, r3, r4]
            refine ⟨a2, a3, a4, ?_⟩
            unfold refreshPart
            cases hp : Assoc.get σ2.parts w with
            | none => exact hP
            | some p => simpa using k.refresh w c rfl _ _ p hP hp
  | copy y w =>
    simp only [runStmt, runCopy]
    set σ1 : Sys := { σ with stmts := Assoc.set σ.stmts ⟨ctr, i⟩ (.copy y w) } with hσ1
    cases he : Assoc.get σ1.env w with
    | none => exact ⟨rfl, rfl, rfl, h⟩
    | some b =>
      cases b with
      | val _ => exact ⟨rfl, rfl, rfl, h⟩
      | wid v =>
        obtain ⟨u1, u2, u3, u4, u5, -, -⟩ := usePart_fields ⟨ctr, i⟩ w σ1
        dsimp only
        rw [u1, u2, u3, u4, u5]
        exact ⟨rfl, rfl, rfl, k.copy y w rfl _ _ v h⟩

theorem runBody_kept (rest : List Char → Option Code) {ctr : Nat} {P : List (Name × Bind) → List (Name × Part) → Prop} (l : List Stmt) (i : Nat)
    (k : ∀ s ∈ l, ∀ i, Kept ctr i s P) (σ : Sys) (hc : σ.ctr = ctr) (h : P σ.env σ.parts) :
    (runBody rest ctr i l σ).ctr = σ.ctr ∧ (runBody rest ctr i l σ).bodies = σ.bodies ∧ (runBody rest ctr i l σ).last = σ.last ∧
    P (runBody rest ctr i l σ).env (runBody rest ctr i l σ).parts := by
  induction l generalizing i σ with
  | nil => exact ⟨rfl, rfl, rfl, h⟩
  | cons s l ih =>
    obtain ⟨h1, h2, h3, h4⟩ := runStmt_kept rest (k s (by simp) i) σ hc h
    simp only [runBody]
    rcases hr : runStmt rest ⟨ctr, i⟩ s σ with ⟨σ', ok⟩
    rw [hr] at h1 h2 h3 h4
    dsimp only at h1 h2 h3 h4
    cases ok with
    | false => exact ⟨h1, h2, h3, h4⟩
    | true =>
      obtain ⟨j1, j2, j3, j4⟩ := ih (i + 1) (fun s hs => k s (by simp [hs])) σ' (h1.trans hc) h4
      exact ⟨j1.trans h1, j2.trans h2, j3.trans h3, j4⟩

theorem get_erase_self {κ ν : Type} [DecidableEq κ] (l : List (κ × ν)) (k : κ) : Assoc.get (Assoc.erase l k) k = none := by
  rw [Assoc.get_eq_none_iff]; simp [Assoc.keys, Assoc.erase]

theorem get_erase_ne {κ ν : Type} [DecidableEq κ] (l : List (κ × ν)) {k k' : κ} (h : k' ≠ k) : Assoc.get (Assoc.erase l k) k' = Assoc.get l k' := by
  induction l with
  | nil => rfl
  | cons p l ih =>
    obtain ⟨a, b⟩ := p
    by_cases ha : a = k
    · subst ha
      have : Assoc.erase ((a, b) :: l) a = Assoc.erase l a := by simp [Assoc.erase]
      rw [this, ih]
      simp [Assoc.get, Ne.symm h]
    · have : Assoc.erase ((a, b) :: l) k = (a, b) :: Assoc.erase l k := by simp [Assoc.erase, ha]
      rw [this]
      simp only [Assoc.get, ih]

theorem get_erase {κ ν : Type} [DecidableEq κ] (l : List (κ × ν)) (k k' : κ) : Assoc.get (Assoc.erase l k) k' = if k' = k then none else Assoc.get l k' := by
  split
  · rename_i h; rw [h]; exact get_erase_self l k
  · rename_i h; exact get_erase_ne l h

/-- Names are bound to widgets exactly if something is kept for them. -/
def Paired (e : List (Name × Bind)) (q : List (Name × Part)) : Prop := ∀ w, (∃ v, Assoc.get e w = some (.wid v)) ↔ ∃ p, Assoc.get q w = some p

theorem PartsStep.some_iff {ctr : Nat} {w : Name} {q q' : List (Name × Part)} (h : PartsStep ctr w q q') (n : Name) : (∃ p, Assoc.get q' n = some p) ↔ ∃ p, Assoc.get q n = some p := by
  cases h with
  | same h => rw [h]
  | taken p e h0 he h =>
    rw [h, Assoc.get_set]
    by_cases hn : n = w
    · rw [if_pos hn, hn, h0]; exact ⟨fun _ => ⟨_, rfl⟩, fun _ => ⟨_, rfl⟩⟩
    · rw [if_neg hn]

theorem paired_put {e e' : List (Name × Bind)} {q q' : List (Name × Part)} {ctr : Nat} {w : Name} {old v : Val} (h : Paired e q) (hw : Assoc.get e w = some (.wid old))
    (he : ∀ n, Assoc.get e' n = if n = w then some (.wid v) else Assoc.get e n) (hq : PartsStep ctr w q q') : Paired e' q' := by
  intro n
  rw [hq.some_iff n, ← h n, he]
  by_cases hn : n = w
  · rw [if_pos hn, hn, hw]; exact ⟨fun _ => ⟨_, rfl⟩, fun _ => ⟨_, rfl⟩⟩
  · rw [if_neg hn]

theorem paired_kept (ctr i : Nat) (s : Stmt) : Kept ctr i s Paired := by
  constructor
  · intro w v _ e q h n
    rw [Assoc.get_set, Assoc.get_set]
    by_cases hn : n = w
    · rw [if_pos hn, if_pos hn]; exact ⟨fun _ => ⟨_, rfl⟩, fun _ => ⟨_, rfl⟩⟩
    · rw [if_neg hn, if_neg hn]; exact h n
  · intro w c _ e q e' q' old v h hw he hq
    exact paired_put h hw he hq
  · intro w c _ e q p h hp n
    rw [h n, Assoc.get_set]
    by_cases hn : n = w
    · rw [if_pos hn, hn, hp]; exact ⟨fun _ => ⟨_, rfl⟩, fun _ => ⟨_, rfl⟩⟩
    · rw [if_neg hn]
  · intro y w _ e q v h n
    rw [Assoc.get_set, get_erase]
    by_cases hn : n = y
    · rw [if_pos hn, if_pos hn]; exact ⟨(fun ⟨_, h⟩ => by cases h), (fun ⟨_, h⟩ => by cases h)⟩
    · rw [if_neg hn, if_neg hn]; exact h n

/-- Nothing is kept with times yet to come. -/
def Bounded (ctr : Nat) (q : List (Name × Part)) : Prop :=
  ∀ w p, Assoc.get q w = some p → p.home.cell ≤ ctr ∧ p.time.cell ≤ ctr ∧ (∀ e, p.over = some e → e.cell ≤ ctr) ∧ (∀ r, p.ready = some r → r ≤ ctr + 1)

theorem bounded_step {ctr : Nat} {w : Name} {q q' : List (Name × Part)} (h : Bounded ctr q) (hq : PartsStep ctr w q q') : Bounded ctr q' := by
  cases hq with
  | same e => rw [e]; exact h
  | taken p e h0 he hs =>
    intro n p' hp
    rw [hs, Assoc.get_set] at hp
    by_cases hn : n = w
    · rw [if_pos hn] at hp
      obtain rfl := Option.some.inj hp
      obtain ⟨h1, h2, -, -⟩ := h w p h0
      exact ⟨h1, h2, fun e' h' => (by obtain rfl := Option.some.inj h'; rw [he]; exact h1), fun r hr => (by obtain rfl := Option.some.inj hr; exact Nat.le_refl _)⟩
    · rw [if_neg hn] at hp; exact h n p' hp

theorem bounded_kept (ctr i : Nat) (s : Stmt) : Kept ctr i s fun _ q => Bounded ctr q := by
  constructor
  · intro w v _ e q h n p hp
    rw [Assoc.get_set] at hp
    by_cases hn : n = w
    · rw [if_pos hn] at hp
      obtain rfl := Option.some.inj hp
      refine ⟨Nat.le_refl _, Nat.le_refl _, (fun e h => by cases h), fun r hr => ?_⟩
      cases ho : Assoc.get q w with
      | none => simp [ho] at hr
      | some p0 => rw [ho] at hr; exact (h w p0 ho).2.2.2 r hr
    · rw [if_neg hn] at hp; exact h n p hp
  · intro w c _ e q e' q' old v h hw he hq
    exact bounded_step h hq
  · intro w c _ e q p h hp n p' hp'
    rw [Assoc.get_set] at hp'
    by_cases hn : n = w
    · rw [if_pos hn] at hp'
      obtain rfl := Option.some.inj hp'
      obtain ⟨h1, -, -, h4⟩ := h w p hp
      exact ⟨h1, Nat.le_refl _, (fun e h => by cases h), h4⟩
    · rw [if_neg hn] at hp'; exact h n p' hp'
  · intro y w _ e q v h n p hp
    rw [get_erase] at hp
    by_cases hn : n = y
    · rw [if_pos hn] at hp; cases hp
    · rw [if_neg hn] at hp; exact h n p hp

theorem Bounded.mono {c c' : Nat} {q : List (Name × Part)} (h : Bounded c q) (hc : c ≤ c') : Bounded c' q := fun w p hp =>
  let ⟨h1, h2, h3, h4⟩ := h w p hp
  ⟨Nat.le_trans h1 hc, Nat.le_trans h2 hc, fun e he => Nat.le_trans (h3 e he) hc, fun r hr => Nat.le_trans (h4 r hr) (Nat.succ_le_succ hc)⟩

/-- What holds after every history. -/
theorem after_basic (rest : List Char → Option Code) (h : List Event) :
    Paired (after rest h).env (after rest h).parts ∧ Bounded (after rest h).ctr (after rest h).parts ∧
    (∀ k b, Spec.lastRun h k = some b → ∃ c, Assoc.get (after rest h).last k = some c ∧ Assoc.get (after rest h).bodies c = some b ∧ c ≤ (after rest h).ctr) := by
  induction h with
  | nil => exact ⟨fun w => ⟨(fun ⟨_, h⟩ => by cases h), (fun ⟨_, h⟩ => by cases h)⟩, (fun w p h => by cases h), (fun k b h => by cases h)⟩
  | cons ev h ih =>
    obtain ⟨ih1, ih2, ih3⟩ := ih
    set σ := after rest h with hσ
    cases ev with
    | run k body =>
      set σ0 : Sys := { σ with ctr := σ.ctr + 1, bodies := Assoc.set σ.bodies (σ.ctr + 1) body, last := Assoc.set σ.last k (σ.ctr + 1) } with hσ0
      obtain ⟨r1, r2, r3, r4⟩ := runBody_kept rest (ctr := σ.ctr + 1) body 0 (fun s _ i => paired_kept _ i s) σ0 rfl ih1
      obtain ⟨-, -, -, r5⟩ := runBody_kept rest (ctr := σ.ctr + 1) body 0 (fun s _ i => bounded_kept _ i s) σ0 rfl (ih2.mono (Nat.le_succ _))
      show Paired (runBody rest (σ.ctr + 1) 0 body σ0).env _ ∧ Bounded (runBody rest (σ.ctr + 1) 0 body σ0).ctr _ ∧ _
      refine ⟨r4, by rw [r1]; exact r5, fun k' b hb => ?_⟩
      show ∃ c, Assoc.get (runBody rest (σ.ctr + 1) 0 body σ0).last k' = some c ∧ Assoc.get (runBody rest (σ.ctr + 1) 0 body σ0).bodies c = some b ∧
        c ≤ (runBody rest (σ.ctr + 1) 0 body σ0).ctr
      rw [r1, r2, r3]
      simp only [Spec.lastRun] at hb
      by_cases hk : k = k'
      · rw [if_pos hk] at hb
        obtain rfl := Option.some.inj hb
        subst hk
        exact ⟨σ.ctr + 1, Assoc.get_set_self _ _ _, Assoc.get_set_self _ _ _, Nat.le_refl _⟩
      · rw [if_neg hk] at hb
        obtain ⟨c, c1, c2, c3⟩ := ih3 k' b hb
        refine ⟨c, ?_, ?_, Nat.le_trans c3 (Nat.le_succ _)⟩
        · show Assoc.get (Assoc.set σ.last k (σ.ctr + 1)) k' = some c
          rw [Assoc.get_set_ne _ _ (Ne.symm hk)]; exact c1
        · show Assoc.get (Assoc.set σ.bodies (σ.ctr + 1) body) c = some b
          rw [Assoc.get_set_ne _ _ (by omega)]; exact c2
    | move w v =>
      show Paired (step rest σ (.move w v)).env _ ∧ Bounded (step rest σ (.move w v)).ctr _ ∧ _
      have key : Paired (step rest σ (.move w v)).env (step rest σ (.move w v)).parts ∧ Bounded σ.ctr (step rest σ (.move w v)).parts ∧
          (step rest σ (.move w v)).ctr = σ.ctr ∧ (step rest σ (.move w v)).last = σ.last ∧ (step rest σ (.move w v)).bodies = σ.bodies := by
        simp only [step]
        cases he : Assoc.get σ.env w with
        | none => exact ⟨ih1, ih2, rfl, rfl, rfl⟩
        | some b =>
          cases b with
          | val _ => exact ⟨ih1, ih2, rfl, rfl, rfl⟩
          | wid old =>
            obtain ⟨a1, a2, a3, a4, a5⟩ := assign_step rest w old v σ he
            exact ⟨paired_put ih1 he a1 a5, bounded_step ih2 a5, a2, a4, a3⟩
      obtain ⟨k1, k2, k3, k4, k5⟩ := key
      refine ⟨k1, by rw [k3]; exact k2, fun k b hb => ?_⟩
      obtain ⟨c, c1, c2, c3⟩ := ih3 k b hb
      refine ⟨c, ?_, ?_, ?_⟩
      · show Assoc.get (step rest σ (.move w v)).last k = _
        rw [k4]; exact c1
      · show Assoc.get (step rest σ (.move w v)).bodies c = _
        rw [k5]; exact c2
      · show c ≤ (step rest σ (.move w v)).ctr
        rw [k3]; exact c3

end Verif.Widget
