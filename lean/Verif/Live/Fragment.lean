import Verif.Live.Lemmas

/-!
# The part of the language for which the analysis is right

The conditions exclude exactly the constructs for which `Verif.Live.Props` has counterexamples (and a few that combine them
with assignment expressions).
-/

namespace Verif.Live
open Verif

/-- The node neither assigns nor defines anything. -/
def Pure : Node → Prop
  | .const _ => True
  | .name _ => True
  | .skip => True
  | .brk => True
  | .cont => True
  | .pair a b => Pure a ∧ Pure b
  | .cmp a b => Pure a ∧ Pure b
  | .bin a b => Pure a ∧ Pure b
  | .seq a b => Pure a ∧ Pure b
  | .boolop a b => Pure a ∧ Pure b
  | .cond c a b => Pure c ∧ Pure a ∧ Pure b
  | .ite c a b => Pure c ∧ Pure a ∧ Pure b
  | .whil c a b => Pure c ∧ Pure a ∧ Pure b
  | .disp _ e => Pure e
  | .fstr e => Pure e
  | .star e => Pure e
  | .rais e => Pure e
  | .attr e _ => Pure e
  | .sub e i => Pure e ∧ Pure i
  | .call f a => Pure f ∧ Pure a
  | .comp elt _ iter ifs => Pure elt ∧ Pure iter ∧ Pure ifs
  | .lam d _ => d = .skip
  | _ => False

/-- The node is a call. -/
def isCall : Node → Bool
  | .call _ _ => true
  | _ => false

/-- The variable at the start of a chain of attributes, subscripts and calls. -/
def rootName : Node → Option Nat
  | .name x => some x
  | .attr e _ => rootName e
  | .sub e _ => rootName e
  | .call f _ => rootName f
  | _ => none

/-- A target made of names. -/
def Pat : Node → Prop
  | .name _ => True
  | .disp _ e => Pat e
  | .pair a b => Pat a ∧ Pat b
  | .star e => Pat e
  | _ => False

mutual

/-- Code for which the analysis is right. -/
def Plain (P : Par) : Node → Prop
  | .const _ => True
  | .name _ => True
  | .skip => True
  | .brk => True
  | .cont => True
  | .imp _ => True
  | .pair a b => Plain P a ∧ Plain P b
  | .cmp a b => Plain P a ∧ Plain P b
  | .bin a b => Plain P a ∧ Plain P b
  | .seq a b => Plain P a ∧ Plain P b
  | .disp _ e => Plain P e
  | .fstr e => Plain P e
  | .star e => Plain P e
  | .rais e => Plain P e
  -- assignment expressions in a part that need not be evaluated
  | .boolop a b => Plain P a ∧ Plain P b ∧ Pure b
  | .cond c a b => Plain P c ∧ Plain P a ∧ Plain P b ∧ Pure a ∧ Pure b
  | .attr e _ => Base P e
  | .sub e i => Base P e ∧ isQuoted P e = false ∧ Plain P i
  -- curried calls; assignment expressions in arguments
  | .call f a => Base P f ∧ isCall f = false ∧ Plain P a ∧ Pure a
  -- defaults of lambdas
  | .lam d _ => d = .skip
  -- comprehensions that iterate over a variable named as their target
  | .comp elt x iter ifs =>
    Plain P elt ∧ Plain P iter ∧ Plain P ifs ∧ Pure elt ∧ Pure iter ∧ Pure ifs ∧ Ev.rd x ∉ evs (sem iter)
  | .walrus _ e => Plain P e
  | .assign t e => Plain P e ∧ Tgt P t
  | .assign2 t u e => Plain P e ∧ Pat t ∧ Pat u
  | .aug t e => Plain P t ∧ Plain P e
  -- annotations that read variables
  | .ann t a e => Plain P e ∧ Tgt P t ∧ Quiet a
  | .annOnly _ _ => False
  | .ite c s t => Plain P c ∧ Plain P s ∧ Plain P t
  -- loops with `break` and `else`
  | .whil c s o =>
    Plain P c ∧ Plain P s ∧ Plain P o ∧ ((brks (sem s) = false ∧ brks (sem c) = false) ∨ o = .skip)
  | .forr t it s o => Pat t ∧ Plain P it ∧ Plain P s ∧ Plain P o ∧ (brks (sem s) = false ∨ o = .skip)
  -- context managers that suppress exceptions
  | .withs sw e t s => sw = false ∧ Plain P e ∧ (Pat t ∨ t = .skip) ∧ Plain P s
  -- assignments in `try`, `except` and `else`
  | .tryy s h o f => Plain P s ∧ Plain P h ∧ Plain P o ∧ Plain P f ∧ Pure s ∧ Pure h ∧ Pure o
  -- defaults of keyword-only parameters and annotations that read variables
  | .defn _ _ _ dflt kwd deco _ => Plain P dflt ∧ Plain P deco ∧ Pure dflt ∧ Pure deco ∧ Quiet kwd
  -- class bodies that read variables
  | .cls _ bases body => Plain P bases ∧ Quiet body
  | .del _ => False

/-- What may stand before an attribute, a subscript or the arguments of a call: a chain that starts from a variable, a
binary operation, a display or a constant. -/
def Base (P : Par) : Node → Prop
  | .name _ => True
  | .const _ => True
  | .attr e _ => Base P e
  | .sub e i => Base P e ∧ isQuoted P e = false ∧ Plain P i
  | .call f a => Base P f ∧ isCall f = false ∧ Plain P a ∧ Pure a
  | .bin a b => Plain P a ∧ Plain P b
  | .disp _ e => Plain P e
  | _ => False

/-- Targets of assignments: names and tuples of names, attributes and subscripts of chains that start from a variable. -/
def Tgt (P : Par) : Node → Prop
  | .name _ => True
  | .attr e _ => Base P e ∧ (rootName e).isSome = true ∧ Plain P e
  | .sub e i => Base P e ∧ (rootName e).isSome = true ∧ Plain P e ∧ Plain P i ∧ Pure i
  | .disp _ e => Pat e
  | _ => False

end

variable {P : Par} {callF : Nat → Funcs → Except Err (List LRef)}

theorem callKnown_state {f : Node} {s s' : S} {l : List LRef} (h : callKnown callF f s = .ok (l, s')) : s' = s := by
  unfold callKnown at h
  split at h
  · split_ifs at h
    · split at h
      · cases h
      · cases h
        rfl
    · cases h
      rfl
  · cases h
    rfl

theorem branch_ok {tgt body orelse : S → Res} {s s' : S} {l : List LRef} (h : branch tgt body orelse s = .ok (l, s')) :
    ∃ l0 s0 l1 s1 l2 s2, tgt ⟨∅, s.funcs⟩ = .ok (l0, s0) ∧ body s0 = .ok (l1, s1) ∧ orelse ⟨∅, s1.funcs⟩ = .ok (l2, s2) ∧
      l = l0 ++ (l1 ++ l2).filter (fun r => r.1 ∉ s.dead) ∧ s' = ⟨s.dead ∪ (s1.dead ∩ s2.dead), s2.funcs⟩ := by
  unfold branch at h
  cases h0 : tgt ⟨∅, s.funcs⟩ with
  | error e =>
    rw [h0] at h
    cases h
  | ok p =>
    obtain ⟨l0, s0⟩ := p
    rw [h0] at h
    simp only at h
    cases h1 : body s0 with
    | error e =>
      rw [h1] at h
      cases h
    | ok p =>
      obtain ⟨l1, s1⟩ := p
      rw [h1] at h
      simp only at h
      cases h2 : orelse ⟨∅, s1.funcs⟩ with
      | error e =>
        rw [h2] at h
        cases h
      | ok p =>
        obtain ⟨l2, s2⟩ := p
        rw [h2] at h
        cases h
        exact ⟨l0, s0, l1, s1, l2, s2, rfl, h1, h2, rfl, rfl⟩

theorem killed_ok {x : Nat} {inner : S → Res} {s s' : S} {l : List LRef} (h : killed x inner s = .ok (l, s')) :
    ∃ s1, inner { s with dead := insert [nm x] s.dead } = .ok (l, s1) ∧
      s' = { s1 with dead := s1.dead \ (if [nm x] ∈ s.dead then ∅ else {[nm x]}) } := by
  unfold killed at h
  cases h0 : inner { s with dead := insert [nm x] s.dead } with
  | error e =>
    rw [h0] at h
    cases h
  | ok p =>
    obtain ⟨l0, s0⟩ := p
    rw [h0] at h
    cases h
    exact ⟨s0, rfl, rfl⟩

theorem insert_sdiff_self {D : Finset Ref} {r : Ref} : insert r D \ (if r ∈ D then ∅ else {r}) = D := by
  by_cases h : r ∈ D
  · rw [if_pos h, Finset.insert_eq_of_mem h]
    simp
  · rw [if_neg h]
    ext y
    simp only [Finset.mem_sdiff, Finset.mem_insert, Finset.mem_singleton]
    constructor
    · rintro ⟨h1 | h1, h2⟩
      · exact absurd h1 h2
      · exact h1
    · intro hy
      exact ⟨.inr hy, fun e => h (e ▸ hy)⟩

/-- Code that neither assigns nor defines anything leaves the state of the analysis as it is. -/
theorem pure_state : ∀ (n : Node) (b : Bool) (s s' : S) (l : List LRef), Pure n →
    visit P callF n ⟨false, b⟩ s = .ok (l, s') → s' = s := by
  intro n
  induction n with
  | const => intro b s s' l _ h; unfold visit at h; cases h; rfl
  | skip => intro b s s' l _ h; unfold visit at h; cases h; rfl
  | brk => intro b s s' l _ h; unfold visit at h; cases h; rfl
  | cont => intro b s s' l _ h; unfold visit at h; cases h; rfl
  | name x =>
    intro b s s' l _ h
    unfold visit visitName at h
    rw [if_neg (by simp)] at h
    split_ifs at h <;> cases h <;> rfl
  | pair x y ihx ihy | cmp x y ihx ihy | seq x y ihx ihy | boolop x y ihx ihy =>
    intro b s s' l hp h
    unfold visit at h
    obtain ⟨l1, s1, l2, h1, h2, rfl⟩ := andThen_ok h
    rw [ihy _ _ _ _ hp.2 h2, ihx _ _ _ _ hp.1 h1]
  | bin x y ihx ihy =>
    intro b s s' l hp h
    unfold visit at h
    obtain ⟨l1, s1, l2, h1, h2, rfl⟩ := andThen_ok h
    rw [ihy _ _ _ _ hp.2 h2, ihx _ _ _ _ hp.1 h1]
  | cond x y z ihx ihy ihz =>
    intro b s s' l hp h
    unfold visit at h
    obtain ⟨l1, s1, l2, h1, h2, rfl⟩ := andThen_ok h
    obtain ⟨l3, s3, l4, h3, h4, rfl⟩ := andThen_ok h1
    rw [ihz _ _ _ _ hp.2.2 h2, ihy _ _ _ _ hp.2.1 h4, ihx _ _ _ _ hp.1 h3]
  | ite x y z ihx ihy ihz | whil x y z ihx ihy ihz =>
    intro b s s' l hp h
    unfold visit at h
    obtain ⟨l1, s1, l2, h1, h2, rfl⟩ := andThen_ok h
    obtain ⟨l0, s0, l3, s3, l4, s4, h3, h4, h5, _, rfl⟩ := branch_ok h2
    cases h3
    have e4 := ihy _ _ _ _ hp.2.1 h4
    have e5 := ihz _ _ _ _ hp.2.2 h5
    subst e4 e5
    rw [ihx _ _ _ _ hp.1 h1]
    show (⟨s.dead ∪ (∅ ∩ ∅), s.funcs⟩ : S) = s
    have : s.dead ∪ (∅ ∩ ∅) = s.dead := by
      ext y
      simp
    rw [this]
  | disp k x ih => intro b s s' l hp h; unfold visit at h; exact ih _ _ _ _ hp h
  | fstr x ih => intro b s s' l hp h; unfold visit at h; exact ih _ _ _ _ hp h
  | star x ih => intro b s s' l hp h; unfold visit at h; exact ih _ _ _ _ hp h
  | rais x ih => intro b s s' l hp h; unfold visit at h; exact ih _ _ _ _ hp h
  | attr e a ih =>
    intro b s s' l hp h
    unfold visit at h
    obtain ⟨l1, s1, l2, h1, h2, rfl⟩ := andThen_ok h
    rw [ih _ _ _ _ hp h2, report_state h1]
  | sub e i ihe ihi =>
    intro b s s' l hp h
    unfold visit at h
    split_ifs at h
    · cases h
      rfl
    · obtain ⟨l1, s1, l2, h1, h2, rfl⟩ := andThen_ok h
      obtain ⟨l3, s3, l4, h3, h4, rfl⟩ := andThen_ok h1
      rw [ihi _ _ _ _ hp.2 h2, ihe _ _ _ _ hp.1 h4, report_state h3]
  | call f a ihf iha =>
    intro b s s' l hp h
    unfold visit at h
    obtain ⟨l1, s1, l2, h1, h2, rfl⟩ := andThen_ok h
    obtain ⟨l3, s3, l4, h3, h4, rfl⟩ := andThen_ok h1
    obtain ⟨l5, s5, l6, h5, h6, rfl⟩ := andThen_ok h3
    rw [callKnown_state h2, ihf _ _ _ _ hp.1 h4, report_state h6, iha _ _ _ _ hp.2 h5]
  | comp elt x iter ifs ih1 ih2 ih3 =>
    intro b s s' l hp h
    unfold visit at h
    obtain ⟨s1, h1, rfl⟩ := killed_ok h
    obtain ⟨l2, s2, l3, h2, h3, rfl⟩ := andThen_ok h1
    obtain ⟨l4, s4, l5, h4, h5, rfl⟩ := andThen_ok h2
    rw [ih3 _ _ _ _ hp.2.2 h3, ih2 _ _ _ _ hp.2.1 h5, ih1 _ _ _ _ hp.1 h4]
    simp only [insert_sdiff_self]
  | lam d x _ _ =>
    intro b s s' l hp h
    have hp : d = .skip := hp
    subst hp
    unfold visit at h
    unfold visit at h
    cases h
    rfl
  | _ => exact fun _ _ _ _ hp => hp.elim

theorem pure_dead (n : Node) (b : Bool) (s s' : S) (l : List LRef) (hp : Pure n)
    (h : visit P callF n ⟨false, b⟩ s = .ok (l, s')) : s'.dead = s.dead := by
  rw [pure_state n b s s' l hp h]

end Verif.Live
