import Verif.Rval.Model
import Mathlib.Tactic.Basic
import Mathlib.Data.List.Basic

/-! # What an assigned value depends on: properties (C95, C96) -/

namespace Verif.Rval

variable {X N S : Type} [DecidableEq S]

/-! ## Specification -/

/-- The names that a target binds. -/
def names : Exp X N → List X
  | .name x => [x]
  | .pair a b => names a ++ names b
  | .disp _ es => names es
  | .star e => names e
  | _ => []

/-- Evaluating the expression reads the symbol; the names in `b` are local to a comprehension. A recorded access `a.b[0]` stands for the variable `a` (`cov`), but not
for what its subscripts read, nor for what is read to compute the object that it starts with. A recorded display stands for its elements. The first iterable of a comprehension is
evaluated outside of it. -/
def Reads (E : Env X N S) (b : List X) (cov : Bool) : Exp X N → S → Prop
  | .done, _ => False
  | .pair x y, s => Reads E b false x s ∨ Reads E b false y s
  | .op _ e, s => Reads E b false e s
  | .name x, s => cov = false ∧ x ∉ b ∧ E.look x = some s
  | .attr n e, s => s ∈ E.loaded n ∨ Reads E b (cov || !(E.loaded n).isEmpty) e s
  | .sub n e i, s => s ∈ E.loaded n ∨ Reads E b (cov || !(E.loaded n).isEmpty) e s ∨ Reads E b false i s
  | .call n f a, s => s ∈ E.loaded n ∨ Reads E b false f s ∨ Reads E b false a s
  | .disp n es, s => s ∈ E.loaded n ∨ (E.loaded n = [] ∧ Reads E b false es s)
  | .star e, s => Reads E b false e s
  | .lam n, s => s ∈ E.loaded n
  | .comp t e f m, s => Reads E (names t ++ b) false e s ∨ Reads E b false f s ∨ Reads E (names t ++ b) false m s

/-- Evaluating the expression reads the variable, and not just as the start of a recorded access. -/
def Uses (E : Env X N S) (b : List X) (cov : Bool) : Exp X N → S → Prop
  | .done, _ => False
  | .pair x y, s => Uses E b false x s ∨ Uses E b false y s
  | .op _ e, s => Uses E b false e s
  | .name x, s => cov = false ∧ x ∉ b ∧ E.look x = some s
  | .attr n e, s => Uses E b (cov || !(E.loaded n).isEmpty) e s
  | .sub n e i, s => Uses E b (cov || !(E.loaded n).isEmpty) e s ∨ Uses E b false i s
  | .call _ f a, s => Uses E b false f s ∨ Uses E b false a s
  | .disp n es, s => E.loaded n = [] ∧ Uses E b false es s
  | .star e, s => Uses E b false e s
  | .lam _, _ => False
  | .comp t e f m, s => Uses E (names t ++ b) false e s ∨ Uses E b false f s ∨ Uses E (names t ++ b) false m s

/-! ### The part of the language for which it is right -/

/-- Constants and what is built from them. -/
def Silent : Exp X N → Prop
  | .done => True
  | .pair a b => Silent a ∧ Silent b
  | .op _ e => Silent e
  | _ => False

/-- Accesses that start with a variable and have constant subscripts, recorded with the whole. -/
def Chain (E : Env X N S) (top : List S) : Exp X N → Prop
  | .name _ => True
  | .attr n e => (∀ s ∈ E.loaded n, s ∈ top) ∧ Chain E top e
  | .sub n e i => (∀ s ∈ E.loaded n, s ∈ top) ∧ Chain E top e ∧ Silent i
  | _ => False

/-- Targets without attributes, elements and stars. -/
def Target (E : Env X N S) : Exp X N → Prop
  | .done => True
  | .name _ => True
  | .pair a b => Target E a ∧ Target E b
  | .disp n es => E.loaded n = [] ∧ Target E es
  | _ => False

/-- What may be starred. -/
def Starrable (E : Env X N S) (b : List X) : Exp X N → Prop
  | .name x => x ∉ b
  | .disp n _ => E.loaded n ≠ []
  | _ => False

/-- Functions that may be called. -/
def isName : Exp X N → Prop
  | .name _ => True
  | _ => False

/-- Calls. -/
def IsCall (e : Exp X N) : Prop := ∃ n f a, e = .call n f a

/-- Attributes and elements. -/
def IsAccess (e : Exp X N) : Prop := (∃ n o, e = .attr n o) ∨ ∃ n o i, e = .sub n o i

/-- Accesses are recorded, start with a variable or a call, and have constant subscripts; what is called is a variable or an access; comprehensions do not
use a variable of their own for anything else. -/
def Good (E : Env X N S) (b : List X) : Exp X N → Prop
  | .done => True
  | .pair x y => Good E b x ∧ Good E b y
  | .op _ e => Good E b e
  | .name _ => True
  | .attr n e => E.loaded n ≠ [] ∧ ((IsCall e ∧ Good E b e) ∨ Chain E (E.loaded n) e)
  | .sub n e i => E.loaded n ≠ [] ∧ ((IsCall e ∧ Good E b e) ∨ Chain E (E.loaded n) e) ∧ Silent i
  | .call _ f a => (isName f ∨ (IsAccess f ∧ Good E b f)) ∧ Good E b a
  | .disp n es => E.loaded n ≠ [] ∨ Good E b es
  | .star e => Starrable E b e
  | .lam _ => True
  | .comp t e f m => Target E t ∧ Good E (names t ++ b) e ∧ Good E b f ∧ Good E (names t ++ b) m ∧
      ∀ x ∈ names t, ∀ s, E.look x = some s →
        ¬ Reads E (names t ++ b) false e s ∧ ¬ Reads E b false f s ∧ ¬ Reads E (names t ++ b) false m s

/-- No starred arguments. -/
def NoStar : Exp X N → Prop
  | .pair x y => NoStar x ∧ NoStar y
  | .op _ e => NoStar e
  | .attr _ e => NoStar e
  | .sub _ e i => NoStar e ∧ NoStar i
  | .call _ f a => NoStar f ∧ NoStar a
  | .disp _ es => NoStar es
  | .star _ => False
  | .comp _ e f m => NoStar e ∧ NoStar f ∧ NoStar m
  | _ => True

/-! ## Proofs -/

theorem IsCall.is {e : Exp X N} (h : IsCall e) : isCall e = true := by
  obtain ⟨n, f, a, rfl⟩ := h
  rfl

theorem IsAccess.is {e : Exp X N} (h : IsAccess e) : isAttrSub e = true := by
  rcases h with ⟨n, o, rfl⟩ | ⟨n, o, i, rfl⟩ <;> rfl

theorem silent_reads (E : Env X N S) (b : List X) : ∀ (e : Exp X N) (cov : Bool), Silent e → ∀ s, ¬ Reads E b cov e s := by
  intro e
  induction e with
  | done => intro cov _ s h; exact h
  | pair x y ihx ihy => intro cov h s hr; rcases hr with hr | hr; exacts [ihx false h.1 s hr, ihy false h.2 s hr]
  | op n e ih => intro cov h s hr; exact ih false h s hr
  | _ => intro cov h; exact h.elim

theorem silent_visit (E : Env X N S) : ∀ (e : Exp X N) (st : St S), Silent e → visit E e st = st := by
  intro e
  induction e with
  | done => intro st _; rfl
  | pair x y ihx ihy => intro st h; show visit E y (visit E x st) = st; rw [ihx st h.1, ihy st h.2]
  | op n e ih => intro st h; exact ih st h
  | _ => intro st h; exact h.elim

theorem chain_reads (E : Env X N S) (b : List X) (top : List S) : ∀ (e : Exp X N), Chain E top e → ∀ s, Reads E b true e s → s ∈ top := by
  intro e
  induction e with
  | name x => intro _ s h; exact absurd h.1 (by simp)
  | attr n e ih =>
    intro h s hr
    rcases hr with hr | hr
    · exact h.1 s hr
    · exact ih h.2 s hr
  | sub n e i ih _ =>
    intro h s hr
    rcases hr with hr | hr | hr
    · exact h.1 s hr
    · exact ih h.2.1 s hr
    · exact absurd hr (silent_reads E b i false h.2.2 s)
  | _ => intro h; exact h.elim

theorem call_cov (E : Env X N S) (b : List X) {e : Exp X N} (h : isCall e = true) (c c' : Bool) (s : S) : Reads E b c e s ↔ Reads E b c' e s := by
  cases e <;> simp_all [isCall, Reads]

theorem call_cov_uses (E : Env X N S) (b : List X) {e : Exp X N} (h : isCall e = true) (c c' : Bool) (s : S) : Uses E b c e s ↔ Uses E b c' e s := by
  cases e <;> simp_all [isCall, Uses]

theorem chain_uses (E : Env X N S) (b : List X) (top : List S) : ∀ (e : Exp X N), Chain E top e → ∀ s, ¬ Uses E b true e s := by
  have hs : ∀ (e : Exp X N) (cov : Bool), Silent e → ∀ s, ¬ Uses E b cov e s := by
    intro e
    induction e with
    | done => intro cov _ s h; exact h
    | pair x y ihx ihy => intro cov h s hr; rcases hr with hr | hr; exacts [ihx false h.1 s hr, ihy false h.2 s hr]
    | op n e ih => intro cov h s hr; exact ih false h s hr
    | _ => intro cov h; exact h.elim
  intro e
  induction e with
  | name x => intro _ s h; exact absurd h.1 (by simp)
  | attr n e ih => intro h s hr; exact ih h.2 s hr
  | sub n e i ih _ =>
    intro h s hr
    rcases hr with hr | hr
    · exact ih h.2.1 s hr
    · exact hs i false h.2.2 s hr
  | _ => intro h; exact h.elim

theorem silent_uses (E : Env X N S) (b : List X) : ∀ (e : Exp X N) (cov : Bool), Silent e → ∀ s, ¬ Uses E b cov e s := by
  intro e
  induction e with
  | done => intro cov _ s h; exact h
  | pair x y ihx ihy => intro cov h s hr; rcases hr with hr | hr; exacts [ihx false h.1 s hr, ihy false h.2 s hr]
  | op n e ih => intro cov h s hr; exact ih false h s hr
  | _ => intro cov h; exact h.elim

/-- What the targets of a comprehension kill. -/
theorem target_visit (E : Env X N S) : ∀ (t : Exp X N) (st : St S), Target E t → st.kill = true →
    ∃ d, visit E t st = { st with dead := st.dead ++ d } ∧ ∀ s, s ∈ d ↔ ∃ x ∈ names t, E.look x = some s := by
  intro t
  induction t with
  | done => intro st _ _; exact ⟨[], by simp [visit], by simp [names]⟩
  | name x =>
    intro st _ hk
    refine ⟨(E.look x).toList, ?_, ?_⟩
    · show add _ true true st = _
      unfold add
      rw [if_pos hk]
    · intro s; simp [names]
  | pair x y ihx ihy =>
    intro st h hk
    obtain ⟨d1, h1, h2⟩ := ihx st h.1 hk
    obtain ⟨d2, h3, h4⟩ := ihy { st with dead := st.dead ++ d1 } h.2 hk
    refine ⟨d1 ++ d2, ?_, ?_⟩
    · show visit E y (visit E x st) = _
      rw [h1, h3]
      simp
    · intro s
      rw [List.mem_append, h2, h4]
      simp only [names, List.mem_append]
      constructor
      · rintro (⟨x, h, h'⟩ | ⟨x, h, h'⟩)
        · exact ⟨x, .inl h, h'⟩
        · exact ⟨x, .inr h, h'⟩
      · rintro ⟨x, h | h, h'⟩
        · exact .inl ⟨x, h, h'⟩
        · exact .inr ⟨x, h, h'⟩
  | disp n es ih =>
    intro st h hk
    obtain ⟨d, h1, h2⟩ := ih st h.2 hk
    refine ⟨d, ?_, h2⟩
    show (if E.loaded n = [] then _ else _) = _
    rw [if_pos h.1, h1]
  | _ => intro st h; exact h.elim

/-- What a visit does. -/
structure Post (E : Env X N S) (b : List X) (e : Exp X N) (st st' : St S) : Prop where
  kill : st'.kill = false
  upd : st'.upd = true
  dead : ∀ s, s ∈ st'.dead ↔ s ∈ st.dead
  syms : ∀ s, s ∈ st'.syms ↔ s ∈ st.syms ∨ Reads E b false e s
  used : ∀ s, s ∈ st'.used → s ∈ st.used ∨ Reads E b false e s
  usedMono : ∀ s, s ∈ st.used → s ∈ st'.used
  uses : NoStar e → ∀ s, Uses E b false e s → s ∈ st'.used

theorem add_on {l : List S} {x u : Bool} {st : St S} (hk : st.kill = false) (hu : st.upd = true) :
    add l x u st = { st with
      used := if u then st.used ++ l.filter (fun s => decide (s ∉ st.dead)) else st.used
      syms := if x then st.syms ++ l.filter (fun s => decide (s ∉ st.dead)) else st.syms } := by
  unfold add
  rw [hk, hu]
  rfl

theorem mem_alive {l d : List S} {s : S} : s ∈ l.filter (fun s => decide (s ∉ d)) ↔ s ∈ l ∧ s ∉ d := by simp

theorem uses_reads (E : Env X N S) : ∀ (e : Exp X N) (b : List X) (cov : Bool) (s : S), Uses E b cov e s → Reads E b cov e s := by
  intro e
  induction e with
  | done => intro b cov s h; exact h
  | pair x y ihx ihy => intro b cov s h; rcases h with h | h; exacts [.inl (ihx b false s h), .inr (ihy b false s h)]
  | op n e ih => intro b cov s h; exact ih b false s h
  | name x => intro b cov s h; exact h
  | attr n e ih => intro b cov s h; exact .inr (ih b _ s h)
  | sub n e i ihe ihi => intro b cov s h; rcases h with h | h; exacts [.inr (.inl (ihe b _ s h)), .inr (.inr (ihi b _ s h))]
  | call n f a ihf iha => intro b cov s h; rcases h with h | h; exacts [.inr (.inl (ihf b _ s h)), .inr (.inr (iha b _ s h))]
  | disp n es ih => intro b cov s h; exact .inr ⟨h.1, ih b _ s h.2⟩
  | star e ih => intro b cov s h; exact ih b _ s h
  | lam n => intro b cov s h; exact h.elim
  | comp t e f m _ ihe ihf ihm =>
    intro b cov s h
    rcases h with h | h | h
    exacts [.inl (ihe _ _ s h), .inr (.inl (ihf _ _ s h)), .inr (.inr (ihm _ _ s h))]

theorem visit_post (E : Env X N S) : ∀ (e : Exp X N) (b : List X) (st : St S), Good E b e → st.kill = false → st.upd = true →
    (∀ x ∈ b, ∀ s, E.look x = some s → s ∈ st.dead) → (∀ s ∈ st.dead, ¬ Reads E b false e s) → Post E b e st (visit E e st) := by
  intro e
  induction e with
  | done =>
    intro b st _ hk hu _ _
    exact ⟨hk, hu, fun _ => Iff.rfl, fun s => by simp [visit, Reads], fun s h => .inl h, fun s h => h, fun _ s h => h.elim⟩
  | pair x y ihx ihy =>
    intro b st hg hk hu hb hd
    have p1 := ihx b st hg.1 hk hu hb (fun s hs hr => hd s hs (.inl hr))
    have p2 := ihy b (visit E x st) hg.2 p1.kill p1.upd (fun x hx s hs => (p1.dead s).2 (hb x hx s hs))
      (fun s hs hr => hd s ((p1.dead s).1 hs) (.inr hr))
    refine ⟨p2.kill, p2.upd, fun s => (p2.dead s).trans (p1.dead s), fun s => ?_, fun s hs => ?_, fun s hs => p2.usedMono s (p1.usedMono s hs), ?_⟩
    · show s ∈ (visit E y (visit E x st)).syms ↔ _
      rw [p2.syms, p1.syms, or_assoc]; rfl
    · rcases p2.used s hs with h | h
      · rcases p1.used s h with h | h
        · exact .inl h
        · exact .inr (.inl h)
      · exact .inr (.inr h)
    · intro hn s hs
      rcases hs with hs | hs
      · exact p2.usedMono s (p1.uses hn.1 s hs)
      · exact p2.uses hn.2 s hs
  | op n e ih =>
    intro b st hg hk hu hb hd
    have p := ih b st hg hk hu hb hd
    exact ⟨p.kill, p.upd, p.dead, p.syms, p.used, p.usedMono, p.uses⟩
  | name x =>
    intro b st _ hk hu hb hd
    have hv : visit E (.name x) st = add (E.look x).toList true true st := rfl
    rw [hv, add_on hk hu]
    have key : ∀ s, s ∈ (E.look x).toList.filter (fun s => decide (s ∉ st.dead)) ↔ Reads E b false (.name x : Exp X N) s := by
      intro s
      rw [mem_alive, Option.mem_toList]
      constructor
      · rintro ⟨h1, h2⟩
        exact ⟨rfl, fun hx => h2 (hb x hx s h1), h1⟩
      · intro h
        exact ⟨h.2.2, fun hs => hd s hs h⟩
    refine ⟨hk, hu, fun _ => Iff.rfl, fun s => ?_, fun s hs => ?_, fun s hs => ?_, fun _ s hs => ?_⟩
    · show s ∈ st.syms ++ _ ↔ _
      rw [List.mem_append, key]
    · have hs' : s ∈ st.used ++ _ := hs
      rw [List.mem_append, key] at hs'
      exact hs'
    · exact List.mem_append_left _ hs
    · exact List.mem_append_right _ ((key s).2 hs)
  | attr n e ih =>
    intro b st hg hk hu hb hd
    obtain ⟨hl, hobj⟩ := hg
    have hcov : (false || !(E.loaded n).isEmpty) = true := by
      cases h : E.loaded n with
      | nil => exact absurd h hl
      | cons a l => rfl
    have hv : visit E (.attr n e) st = add (E.loaded n) true false (if isCall e then visit E e st else st) := by
      show (if E.loaded n = [] then _ else _) = _
      rw [if_neg hl]
    have hreads : ∀ s, Reads E b false (.attr n e) s ↔ s ∈ E.loaded n ∨ Reads E b true e s := by
      intro s
      show s ∈ E.loaded n ∨ Reads E b (false || !(E.loaded n).isEmpty) e s ↔ _
      rw [hcov]
    have huses : ∀ s, Uses E b false (.attr n e) s ↔ Uses E b true e s := by
      intro s
      show Uses E b (false || !(E.loaded n).isEmpty) e s ↔ _
      rw [hcov]
    rw [hv]
    have key : ∀ (d : List S), (∀ s, s ∈ d ↔ s ∈ st.dead) → ∀ s, s ∈ (E.loaded n).filter (fun s => decide (s ∉ d)) ↔ s ∈ E.loaded n := by
      intro d hdd s
      rw [mem_alive]
      exact ⟨fun h => h.1, fun h => ⟨h, fun hs => hd s ((hdd s).1 hs) (.inl h)⟩⟩
    rcases hobj with ⟨hc, hge⟩ | hch
    · have hc := hc.is
      rw [if_pos hc]
      have p := ih b st hge hk hu hb (fun s hs hr => hd s hs ((hreads s).2 (.inr ((call_cov E b hc _ _ s).1 hr))))
      rw [add_on p.kill p.upd]
      refine ⟨p.kill, p.upd, p.dead, fun s => ?_, fun s hs => ?_, fun s hs => p.usedMono s hs, fun hn s hs => ?_⟩
      · show s ∈ (visit E e st).syms ++ _ ↔ _
        rw [List.mem_append, key _ p.dead, p.syms, hreads, call_cov E b hc true false]
        tauto
      · rcases p.used s hs with h | h
        · exact .inl h
        · exact .inr ((hreads s).2 (.inr ((call_cov E b hc _ _ s).1 h)))
      · rw [huses, call_cov_uses E b hc true false] at hs
        exact p.uses hn s hs
    · have hnc : ¬ isCall e = true := by
        intro hc
        cases e <;> simp [isCall] at hc
        exact hch
      rw [if_neg hnc, add_on hk hu]
      refine ⟨hk, hu, fun _ => Iff.rfl, fun s => ?_, fun s hs => .inl hs, fun s hs => hs, fun _ s hs => ?_⟩
      · show s ∈ st.syms ++ _ ↔ _
        rw [List.mem_append, key _ (fun _ => Iff.rfl), hreads]
        constructor
        · rintro (h | h)
          · exact .inl h
          · exact .inr (.inl h)
        · rintro (h | h | h)
          · exact .inl h
          · exact .inr h
          · exact .inr (chain_reads E b _ e hch s h)
      · rw [huses] at hs
        exact absurd hs (chain_uses E b _ e hch s)
  | sub n e i ih _ =>
    intro b st hg hk hu hb hd
    obtain ⟨hl, hobj, hsil⟩ := hg
    have hcov : (false || !(E.loaded n).isEmpty) = true := by
      cases h : E.loaded n with
      | nil => exact absurd h hl
      | cons a l => rfl
    have hv : visit E (.sub n e i) st = { add (E.loaded n) false true (if isCall e then visit E e st else st) with
        syms := (add (E.loaded n) false true (if isCall e then visit E e st else st)).syms ++ E.loaded n } := by
      show (if E.loaded n ++ (visit E i quietSt).syms = [] then _ else _) = _
      rw [silent_visit E i _ hsil]
      have h1 : E.loaded n ++ (quietSt : St S).syms = E.loaded n := List.append_nil _
      rw [h1, if_neg hl]
    have hreads : ∀ s, Reads E b false (.sub n e i) s ↔ s ∈ E.loaded n ∨ Reads E b true e s := by
      intro s
      show s ∈ E.loaded n ∨ Reads E b (false || !(E.loaded n).isEmpty) e s ∨ Reads E b false i s ↔ _
      rw [hcov]
      have := silent_reads E b i false hsil s
      tauto
    have huses : ∀ s, Uses E b false (.sub n e i) s ↔ Uses E b true e s := by
      intro s
      show Uses E b (false || !(E.loaded n).isEmpty) e s ∨ Uses E b false i s ↔ _
      rw [hcov]
      have := silent_uses E b i false hsil s
      tauto
    rw [hv]
    rcases hobj with ⟨hc, hge⟩ | hch
    · have hc := hc.is
      rw [if_pos hc]
      have p := ih b st hge hk hu hb (fun s hs hr => hd s hs ((hreads s).2 (.inr ((call_cov E b hc _ _ s).1 hr))))
      rw [add_on p.kill p.upd]
      refine ⟨p.kill, p.upd, p.dead, fun s => ?_, fun s hs => ?_, fun s hs => ?_, fun hn s hs => ?_⟩
      · show s ∈ (visit E e st).syms ++ _ ↔ _
        rw [List.mem_append, p.syms, hreads, call_cov E b hc true false]
        tauto
      · have hs' : s ∈ (visit E e st).used ++ _ := hs
        rw [List.mem_append, mem_alive] at hs'
        rcases hs' with h | h
        · rcases p.used s h with h | h
          · exact .inl h
          · exact .inr ((hreads s).2 (.inr ((call_cov E b hc _ _ s).1 h)))
        · exact .inr ((hreads s).2 (.inl h.1))
      · exact List.mem_append_left _ (p.usedMono s hs)
      · rw [huses, call_cov_uses E b hc true false] at hs
        exact List.mem_append_left _ (p.uses hn.1 s hs)
    · have hnc : ¬ isCall e = true := by
        intro hc
        cases e <;> simp [isCall] at hc
        exact hch
      rw [if_neg hnc, add_on hk hu]
      refine ⟨hk, hu, fun _ => Iff.rfl, fun s => ?_, fun s hs => ?_, fun s hs => List.mem_append_left _ hs, fun _ s hs => ?_⟩
      · show s ∈ st.syms ++ _ ↔ _
        rw [List.mem_append, hreads]
        constructor
        · rintro (h | h)
          · exact .inl h
          · exact .inr (.inl h)
        · rintro (h | h | h)
          · exact .inl h
          · exact .inr h
          · exact .inr (chain_reads E b _ e hch s h)
      · have hs' : s ∈ st.used ++ _ := hs
        rw [List.mem_append, mem_alive] at hs'
        rcases hs' with h | h
        · exact .inl h
        · exact .inr ((hreads s).2 (.inl h.1))
      · rw [huses] at hs
        exact absurd hs (chain_uses E b _ e hch s)
  | call n f a ihf iha =>
    intro b st hg hk hu hb hd
    obtain ⟨hf, ha⟩ := hg
    -- the function
    have hfun : Post E b f st (add (resolve E f) true true (if isAttrSub f then visit E f st else st)) := by
      rcases hf with hf | ⟨hf, hgf⟩
      · cases f with
        | name x =>
          have h1 : isAttrSub (.name x : Exp X N) = false := rfl
          rw [h1]
          exact ihf b st trivial hk hu hb (fun s hs hr => hd s hs (.inr (.inl hr)))
        | _ => exact hf.elim
      · have hf := hf.is
        rw [if_pos hf]
        have p := ihf b st hgf hk hu hb (fun s hs hr => hd s hs (.inr (.inl hr)))
        rw [add_on p.kill p.upd]
        have hres : ∀ s, s ∈ resolve E f → Reads E b false f s := by
          intro s hs
          cases f with
          | attr n e => exact .inl hs
          | sub n e i => exact .inl hs
          | _ => simp [isAttrSub] at hf
        refine ⟨p.kill, p.upd, p.dead, fun s => ?_, fun s hs => ?_, fun s hs => List.mem_append_left _ (p.usedMono s hs),
          fun hn s hs => List.mem_append_left _ (p.uses hn s hs)⟩
        · show s ∈ (visit E f st).syms ++ _ ↔ _
          rw [List.mem_append, p.syms, mem_alive]
          constructor
          · rintro (h | h)
            · exact h
            · exact .inr (hres s h.1)
          · exact .inl
        · have hs' : s ∈ (visit E f st).used ++ _ := hs
          rw [List.mem_append, mem_alive] at hs'
          rcases hs' with h | h
          · exact p.used s h
          · exact .inr (hres s h.1)
    have hv : visit E (.call n f a) st = visit E a (add (E.loaded n) true true (add (resolve E f) true true (if isAttrSub f then visit E f st else st))) := rfl
    rw [hv]
    generalize hst1 : add (resolve E f) true true (if isAttrSub f then visit E f st else st) = st1 at hfun
    rw [add_on hfun.kill hfun.upd]
    have hload : ∀ s, s ∈ (E.loaded n).filter (fun s => decide (s ∉ st1.dead)) ↔ s ∈ E.loaded n := by
      intro s
      rw [mem_alive]
      exact ⟨fun h => h.1, fun h => ⟨h, fun hs => hd s ((hfun.dead s).1 hs) (.inl h)⟩⟩
    have p := iha b { st1 with
        used := if true then st1.used ++ (E.loaded n).filter (fun s => decide (s ∉ st1.dead)) else st1.used
        syms := if true then st1.syms ++ (E.loaded n).filter (fun s => decide (s ∉ st1.dead)) else st1.syms } ha hfun.kill hfun.upd
      (fun x hx s hs => (hfun.dead s).2 (hb x hx s hs)) (fun s hs hr => hd s ((hfun.dead s).1 hs) (.inr (.inr hr)))
    refine ⟨p.kill, p.upd, fun s => (p.dead s).trans (hfun.dead s), fun s => ?_, fun s hs => ?_, fun s hs => ?_, fun hn s hs => ?_⟩
    · rw [p.syms]
      show s ∈ st1.syms ++ _ ∨ _ ↔ _
      rw [List.mem_append, hfun.syms, hload]
      show _ ↔ s ∈ st.syms ∨ (s ∈ E.loaded n ∨ Reads E b false f s ∨ Reads E b false a s)
      tauto
    · rcases p.used s hs with h | h
      · have h' : s ∈ st1.used ++ _ := h
        rw [List.mem_append, hload] at h'
        rcases h' with h | h
        · rcases hfun.used s h with h | h
          · exact .inl h
          · exact .inr (.inr (.inl h))
        · exact .inr (.inl h)
      · exact .inr (.inr (.inr h))
    · exact p.usedMono s (List.mem_append_left _ (hfun.usedMono s hs))
    · rcases hs with hs | hs
      · exact p.usedMono s (List.mem_append_left _ (hfun.uses hn.1 s hs))
      · exact p.uses hn.2 s hs
  | disp n es ih =>
    intro b st hg hk hu hb hd
    by_cases hl : E.loaded n = []
    · have hge : Good E b es := by
        rcases hg with h | h
        · exact absurd hl h
        · exact h
      have hv : visit E (.disp n es) st = visit E es st := by
        show (if E.loaded n = [] then _ else _) = _
        rw [if_pos hl]
      have hreads : ∀ s, Reads E b false (.disp n es) s ↔ Reads E b false es s := by
        intro s
        show s ∈ E.loaded n ∨ (E.loaded n = [] ∧ _) ↔ _
        rw [hl]
        simp
      rw [hv]
      have p := ih b st hge hk hu hb (fun s hs hr => hd s hs ((hreads s).2 hr))
      refine ⟨p.kill, p.upd, p.dead, fun s => ?_, fun s hs => ?_, p.usedMono, fun hn s hs => p.uses hn s hs.2⟩
      · rw [p.syms, hreads]
      · rw [hreads]; exact p.used s hs
    · have hv : visit E (.disp n es) st = add (E.loaded n) true true st := by
        show (if E.loaded n = [] then _ else _) = _
        rw [if_neg hl]
      have hreads : ∀ s, Reads E b false (.disp n es) s ↔ s ∈ E.loaded n := by
        intro s
        show s ∈ E.loaded n ∨ (E.loaded n = [] ∧ _) ↔ _
        simp [hl]
      rw [hv, add_on hk hu]
      have hload : ∀ s, s ∈ (E.loaded n).filter (fun s => decide (s ∉ st.dead)) ↔ s ∈ E.loaded n := by
        intro s
        rw [mem_alive]
        exact ⟨fun h => h.1, fun h => ⟨h, fun hs => hd s hs ((hreads s).2 h)⟩⟩
      refine ⟨hk, hu, fun _ => Iff.rfl, fun s => ?_, fun s hs => ?_, fun s hs => List.mem_append_left _ hs, fun _ s hs => absurd hs.1 hl⟩
      · show s ∈ st.syms ++ _ ↔ _
        rw [List.mem_append, hload, hreads]
      · have hs' : s ∈ st.used ++ _ := hs
        rw [List.mem_append, hload] at hs'
        rw [hreads]; exact hs'
  | star e ih =>
    intro b st hg hk hu hb hd
    have hres : ∀ s, s ∈ resolve E e ↔ Reads E b false e s := by
      intro s
      cases e with
      | name x =>
        show s ∈ (E.look x).toList ↔ false = false ∧ x ∉ b ∧ E.look x = some s
        rw [Option.mem_toList]
        exact ⟨fun h => ⟨rfl, hg, h⟩, fun h => h.2.2⟩
      | disp n es =>
        show s ∈ E.loaded n ↔ s ∈ E.loaded n ∨ (E.loaded n = [] ∧ _)
        have h : E.loaded n ≠ [] := hg
        simp [h]
      | _ => exact hg.elim
    refine ⟨hk, hu, fun _ => Iff.rfl, fun s => ?_, fun s hs => .inl hs, fun s hs => hs, fun h => h.elim⟩
    show s ∈ st.syms ++ _ ↔ _
    rw [List.mem_append, hres]
    rfl
  | lam n =>
    intro b st _ hk hu hb hd
    refine ⟨hk, hu, fun _ => Iff.rfl, fun s => ?_, fun s hs => .inl hs, fun s hs => hs, fun _ s h => h.elim⟩
    show s ∈ st.syms ++ _ ↔ _
    rw [List.mem_append]
    rfl
  | comp t e f m _ ihe ihf ihm =>
    intro b st hg hk hu hb hd
    obtain ⟨ht, hge, hgf, hgm, hyg⟩ := hg
    obtain ⟨d, hd1, hd2⟩ := target_visit E t { st with
      dead := []
      kill := true } ht rfl
    have hv : visit E (.comp t e f m) st = leaveKill d st.dead (visit E m (visit E f (visit E e { st with dead := st.dead ++ d }))) := by
      show leaveKill (visit E t _).dead st.dead (visit E m (visit E f (visit E e (enterKill (visit E t _).dead _)))) = _
      rw [hd1]
      rfl
    rw [hv]
    have hyg' : ∀ s ∈ d, ¬ Reads E (names t ++ b) false e s ∧ ¬ Reads E b false f s ∧ ¬ Reads E (names t ++ b) false m s := by
      intro s hs
      obtain ⟨x, hx, hl⟩ := (hd2 s).1 hs
      exact hyg x hx s hl
    have hb1 : ∀ x ∈ names t ++ b, ∀ s, E.look x = some s → s ∈ st.dead ++ d := by
      intro x hx s hs
      rw [List.mem_append] at hx
      rcases hx with hx | hx
      · exact List.mem_append_right _ ((hd2 s).2 ⟨x, hx, hs⟩)
      · exact List.mem_append_left _ (hb x hx s hs)
    have hcase : ∀ s ∈ st.dead ++ d, ¬ Reads E (names t ++ b) false e s ∧ ¬ Reads E b false f s ∧ ¬ Reads E (names t ++ b) false m s := by
      intro s hs
      rw [List.mem_append] at hs
      rcases hs with hs | hs
      · exact ⟨fun h => hd s hs (.inl h), fun h => hd s hs (.inr (.inl h)), fun h => hd s hs (.inr (.inr h))⟩
      · exact hyg' s hs
    have p1 := ihe (names t ++ b) { st with dead := st.dead ++ d } hge hk hu hb1 (fun s hs => (hcase s hs).1)
    have p2 := ihf b (visit E e { st with dead := st.dead ++ d }) hgf p1.kill p1.upd
      (fun x hx s hs => (p1.dead s).2 (List.mem_append_left _ (hb x hx s hs))) (fun s hs => (hcase s ((p1.dead s).1 hs)).2.1)
    have hdead2 : ∀ s, s ∈ (visit E f (visit E e { st with dead := st.dead ++ d })).dead ↔ s ∈ st.dead ++ d := fun s => (p2.dead s).trans (p1.dead s)
    have p3 := ihm (names t ++ b) (visit E f (visit E e { st with dead := st.dead ++ d })) hgm p2.kill p2.upd
      (fun x hx s hs => (hdead2 s).2 (hb1 x hx s hs)) (fun s hs => (hcase s ((hdead2 s).1 hs)).2.2)
    generalize hst3 : visit E m (visit E f (visit E e { st with dead := st.dead ++ d })) = st3 at p3
    refine ⟨p3.kill, p3.upd, fun s => ?_, fun s => ?_, fun s hs => ?_, fun s hs => p3.usedMono s (p2.usedMono s (p1.usedMono s hs)), fun hn s hs => ?_⟩
    · show s ∈ st3.dead.filter _ ↔ _
      rw [List.mem_filter]
      have h3 := (p3.dead s).trans (hdead2 s)
      rw [h3, List.mem_append]
      by_cases h4 : s ∈ st.dead <;> by_cases h5 : s ∈ d <;> simp [h4, h5]
    · show s ∈ st3.syms ↔ _
      rw [p3.syms, p2.syms, p1.syms]
      show _ ↔ s ∈ st.syms ∨ (Reads E (names t ++ b) false e s ∨ Reads E b false f s ∨ Reads E (names t ++ b) false m s)
      tauto
    · have hs' : s ∈ st3.used := hs
      rcases p3.used s hs' with h | h
      · rcases p2.used s h with h | h
        · rcases p1.used s h with h | h
          · exact .inl h
          · exact .inr (.inl h)
        · exact .inr (.inr (.inl h))
      · exact .inr (.inr (.inr h))
    · show s ∈ st3.used
      rcases hs with hs | hs | hs
      · exact p3.usedMono s (p2.usedMono s (p1.uses hn.1 s hs))
      · exact p3.usedMono s (p2.uses hn.2.1 s hs)
      · exact p3.uses hn.2.2 s hs

theorem visit_init (E : Env X N S) {e : Exp X N} (hg : Good E [] e) : Post E [] e (init true) (visit E e (init true)) :=
  visit_post E e [] (init true) hg rfl rfl (fun x hx => by simp at hx) (fun s hs => by simp [init] at hs)

/-- C95. If evaluating the right side reads anything, then what is assigned depends on exactly what is read. -/
theorem deps_exact_partial (E : Env X N S) {e : Exp X N} (static : List S) (hg : Good E [] e) {s0 : S} (hr : Reads E [] false e s0) (s : S) :
    s ∈ deps E true static e ↔ Reads E [] false e s := by
  have p := visit_init E hg
  have h0 : ∀ s, s ∈ (visit E e (init true)).syms ↔ Reads E [] false e s := by
    intro s
    rw [p.syms]
    simp [init]
  unfold deps
  rw [if_neg]
  · exact h0 s
  · intro h
    have := (h0 s0).2 hr
    rw [h] at this
    simp at this

/-- C96. Every variable that is read is recorded as used, and nothing is that is not read. If nothing is read, what the static analysis finds is recorded. -/
theorem usages_partial (E : Env X N S) {e : Exp X N} (static : List S) (hg : Good E [] e) (hn : NoStar e) (s : S) :
    (Uses E [] false e s → s ∈ usages E true static e) ∧
    (s ∈ usages E true static e → Reads E [] false e s ∨ (s ∈ static ∧ ∀ s', ¬ Reads E [] false e s')) ∧
    (s ∈ static → (∀ s', ¬ Reads E [] false e s') → s ∈ usages E true static e) := by
  have p := visit_init E hg
  have h0 : ∀ s, s ∈ (visit E e (init true)).syms ↔ Reads E [] false e s := by
    intro s
    rw [p.syms]
    simp [init]
  by_cases hr : ∃ s', Reads E [] false e s'
  · obtain ⟨s', hr⟩ := hr
    have hu : usages E true static e = (visit E e (init true)).used := by
      unfold usages
      rw [if_neg]
      intro h
      have := (h0 s').2 hr
      rw [h] at this
      simp at this
    rw [hu]
    refine ⟨p.uses hn s, fun h => ?_, fun _ h => absurd hr (h s')⟩
    rcases p.used s h with h | h
    · simp [init] at h
    · exact .inl h
  · have hr : ∀ s', ¬ Reads E [] false e s' := fun s' h => hr ⟨s', h⟩
    have hu : usages E true static e = (visit E e (init true)).used ++ static := by
      unfold usages
      rw [if_pos (List.eq_nil_iff_forall_not_mem.2 fun s hs => hr s ((h0 s).1 hs))]
      rfl
    rw [hu]
    refine ⟨fun h => List.mem_append_left _ (p.uses hn s h), fun h => ?_, fun h _ => List.mem_append_right _ h⟩
    rcases List.mem_append.1 h with h | h
    · rcases p.used s h with h | h
      · simp [init] at h
      · exact .inl h
    · exact .inr ⟨h, hr⟩

/-- C95. An attribute of an element that was not recorded itself: what is assigned depends on the symbol of the attribute, if there is one. -/
theorem deps_member_partial (E : Env X N S) (static : List S) {n m : N} {x : X} {s s' : S} (hn : E.loaded n = []) (hm : E.loaded m = [s])
    (hs : E.member s n = some s') (t : S) : t ∈ deps E true static (.attr n (.sub m (.name x) .done)) ↔ t = s' := by
  have h1 : (visit E (.sub m (.name x) .done) quietSt).syms = [s] := by
    simp [visit, hm, quietSt, add, isCall]
  have h2 : visit E (.attr n (.sub m (.name x) .done)) (init true) = { init true with syms := [s'], used := [s'] } := by
    show (if E.loaded n = [] then _ else _) = _
    rw [if_pos hn, h1]
    simp [isCall, fallback, hs, add, init]
  unfold deps
  rw [h2]
  simp

/-- C95. If there is no symbol for the attribute, then only the static analysis counts. -/
theorem deps_no_member (E : Env X N S) (static : List S) {n m : N} {x : X} {s : S} (hn : E.loaded n = []) (hm : E.loaded m = [s])
    (hs : E.member s n = none) : deps E true static (.attr n (.sub m (.name x) .done)) = static := by
  have h1 : (visit E (.sub m (.name x) .done) quietSt).syms = [s] := by
    simp [visit, hm, quietSt, add, isCall]
  have h2 : visit E (.attr n (.sub m (.name x) .done)) (init true) = init true := by
    show (if E.loaded n = [] then _ else _) = _
    rw [if_pos hn, h1]
    simp [isCall, fallback, hs]
  unfold deps
  rw [h2]
  simp [init]

end Verif.Rval
