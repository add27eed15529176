import Mathlib.Algebra.Order.BigOperators.Group.List
import Mathlib.Algebra.Order.Ring.Nat
import Verif.Live.Wrong

/-!
# Live-reference analysis: calls (C36)

Calls of functions that the analysed code defines itself, which the visitor follows on the spot. Functions defined elsewhere
are followed by the work list of `Verif.Live.Work`.
-/

namespace Verif.Live
open Verif

/-- The names that the code calls itself: not inside the functions it defines, nor inside lambdas and classes. -/
def callsOf : Node → List Nat
  | .const _ => []
  | .name _ => []
  | .skip => []
  | .imp _ => []
  | .brk => []
  | .cont => []
  | .del _ => []
  | .pair a b => callsOf a ++ callsOf b
  | .cmp a b => callsOf a ++ callsOf b
  | .bin a b => callsOf a ++ callsOf b
  | .boolop a b => callsOf a ++ callsOf b
  | .seq a b => callsOf a ++ callsOf b
  | .disp _ e => callsOf e
  | .fstr e => callsOf e
  | .star e => callsOf e
  | .rais e => callsOf e
  | .cond c a b => callsOf c ++ callsOf a ++ callsOf b
  | .attr e _ => callsOf e
  | .sub e i => callsOf e ++ callsOf i
  | .call f a => callsOf a ++ callsOf f ++ (match f with
      | .name x => [x]
      | _ => [])
  | .lam d _ => callsOf d
  | .comp elt _ iter ifs => callsOf elt ++ callsOf iter ++ callsOf ifs
  | .walrus _ e => callsOf e
  | .assign t e => callsOf e ++ callsOf t
  | .assign2 t u e => callsOf e ++ callsOf t ++ callsOf u
  | .aug t e => callsOf t ++ callsOf e
  | .ann t _ e => callsOf e ++ callsOf t
  | .annOnly t _ => callsOf t
  | .ite c a b => callsOf c ++ callsOf a ++ callsOf b
  | .whil c a b => callsOf c ++ callsOf a ++ callsOf b
  | .forr t it a b => callsOf it ++ callsOf t ++ callsOf a ++ callsOf b
  | .withs _ e t a => callsOf e ++ callsOf t ++ callsOf a
  | .tryy a h o f => callsOf a ++ callsOf h ++ callsOf o ++ callsOf f
  | .defn _ _ _ d _ e _ => callsOf d ++ callsOf e
  | .cls _ b _ => callsOf b

/-- The functions that the code defines, at any depth: name, whether it has keyword-only parameters, body. -/
def defsOf : Node → List (Nat × Bool × Node)
  | .const _ => []
  | .name _ => []
  | .skip => []
  | .imp _ => []
  | .brk => []
  | .cont => []
  | .del _ => []
  | .pair a b => defsOf a ++ defsOf b
  | .cmp a b => defsOf a ++ defsOf b
  | .bin a b => defsOf a ++ defsOf b
  | .boolop a b => defsOf a ++ defsOf b
  | .seq a b => defsOf a ++ defsOf b
  | .disp _ e => defsOf e
  | .fstr e => defsOf e
  | .star e => defsOf e
  | .rais e => defsOf e
  | .cond c a b => defsOf c ++ defsOf a ++ defsOf b
  | .attr e _ => defsOf e
  | .sub e i => defsOf e ++ defsOf i
  | .call f a => defsOf a ++ defsOf f
  | .lam d _ => defsOf d
  | .comp elt _ iter ifs => defsOf elt ++ defsOf iter ++ defsOf ifs
  | .walrus _ e => defsOf e
  | .assign t e => defsOf e ++ defsOf t
  | .assign2 t u e => defsOf e ++ defsOf t ++ defsOf u
  | .aug t e => defsOf t ++ defsOf e
  | .ann t _ e => defsOf e ++ defsOf t
  | .annOnly t _ => defsOf t
  | .ite c a b => defsOf c ++ defsOf a ++ defsOf b
  | .whil c a b => defsOf c ++ defsOf a ++ defsOf b
  | .forr t it a b => defsOf it ++ defsOf t ++ defsOf a ++ defsOf b
  | .withs _ e t a => defsOf e ++ defsOf t ++ defsOf a
  | .tryy a h o f => defsOf a ++ defsOf h ++ defsOf o ++ defsOf f
  | .defn f _ kw d _ e b => defsOf d ++ defsOf e ++ (f, kw, b) :: defsOf b
  | .cls _ b _ => defsOf b

/-- No function calls itself, directly or through others: functions can be ranked so that they call only lower ones. -/
def Ranked (rank : Nat → Nat) (code : Node) : Prop :=
  ∀ d ∈ defsOf code, ∀ g ∈ callsOf d.2.2, rank g < rank d.1

/-- No function has keyword-only parameters. -/
def NoKeywordOnly (code : Node) : Prop := ∀ d ∈ defsOf code, d.2.1 = false

/-- The known functions all come from a list of definitions. -/
def FromDefs (ds : List (Nat × Bool × Node)) (fs : Funcs) : Prop := ∀ d ∈ fs, (d.1, d.2.2.1, d.2.2.2) ∈ ds

/-- The visit succeeds and the functions known after it come from `ds`. -/
def Fine (ds : List (Nat × Bool × Node)) (r : Res) : Prop := ∃ l s, r = .ok (l, s) ∧ FromDefs ds s.funcs

theorem Fine.andThen {ds : List (Nat × Bool × Node)} {r : Res} {f : S → Res} (h : Fine ds r)
    (hf : ∀ s, FromDefs ds s.funcs → Fine ds (f s)) : Fine ds (andThen r f) := by
  obtain ⟨l, s, rfl, hs⟩ := h
  obtain ⟨l', s', h', hs'⟩ := hf s hs
  exact ⟨l ++ l', s', by unfold Verif.Live.andThen; simp only [h'], hs'⟩

theorem Fine.assign {ds : List (Nat × Bool × Node)} {P : Par} {may : Bool} {lits : Finset Ref} {r1 : Res} {tgt : S → Res}
    (h : Fine ds r1) (hf : ∀ s, FromDefs ds s.funcs → Fine ds (tgt s)) : Fine ds (assignImpl P may lits r1 tgt) := by
  obtain ⟨l, s, rfl, hs⟩ := h
  obtain ⟨l', s', h', hs'⟩ := hf s hs
  unfold assignImpl
  simp only [h']
  exact ⟨_, _, rfl, hs'⟩

theorem Fine.branch {ds : List (Nat × Bool × Node)} {tgt body orelse : S → Res} {s : S}
    (h0 : ∀ s, FromDefs ds s.funcs → Fine ds (tgt s)) (h1 : ∀ s, FromDefs ds s.funcs → Fine ds (body s))
    (h2 : ∀ s, FromDefs ds s.funcs → Fine ds (orelse s)) (hs : FromDefs ds s.funcs) :
    Fine ds (branch tgt body orelse s) := by
  unfold Verif.Live.branch
  obtain ⟨l0, s0, e0, f0⟩ := h0 ⟨∅, s.funcs⟩ hs
  rw [e0]
  simp only
  obtain ⟨l1, s1, e1, f1⟩ := h1 s0 f0
  rw [e1]
  simp only
  obtain ⟨l2, s2, e2, f2⟩ := h2 ⟨∅, s1.funcs⟩ f1
  rw [e2]
  simp only
  exact ⟨_, _, rfl, f2⟩

theorem Fine.ok {ds : List (Nat × Bool × Node)} {l : List LRef} {s : S} (hs : FromDefs ds s.funcs) :
    Fine ds (.ok (l, s)) := ⟨l, s, rfl, hs⟩

/-- If the calls in the code succeed, so does the visit of the code. -/
theorem visit_fine {P : Par} {callF : Nat → Funcs → Except Err (List LRef)} {ds : List (Nat × Bool × Node)} :
    ∀ n : Node, (∀ d ∈ defsOf n, d ∈ ds) →
      (∀ f ∈ callsOf n, ∀ fs, FromDefs ds fs → f ∈ fs.map Prod.fst → ∃ l, callF f fs = .ok l) →
      (∀ c s, FromDefs ds s.funcs → Fine ds (visit P callF n c s)) ∧
      (∀ c s, FromDefs ds s.funcs → Fine ds (visitBase P callF n c s)) ∧
      (∀ s, FromDefs ds s.funcs → Fine ds (visitTarget P callF n s)) := by
  have two : ∀ {α : Type} {p : α → Prop} {a b : List α}, (∀ d ∈ a ++ b, p d) → (∀ d ∈ a, p d) ∧ (∀ d ∈ b, p d) :=
    fun h => ⟨fun d hd => h d (List.mem_append_left _ hd), fun d hd => h d (List.mem_append_right _ hd)⟩
  intro n
  induction n with
  | const | skip | brk | cont | del =>
    intro _ _
    refine ⟨fun c s hs => ?_, fun c s hs => ?_, fun s hs => ?_⟩
    · unfold visit; exact .ok hs
    · unfold visitBase; exact .ok hs
    · unfold visitTarget; exact .ok hs
  | imp x =>
    intro _ _
    refine ⟨fun c s hs => ?_, fun c s hs => ?_, fun s hs => ?_⟩
    · unfold visit; exact .assign (.ok hs) (fun s hs => .ok hs)
    · unfold visitBase; exact .ok hs
    · unfold visitTarget; exact .ok hs
  | name x =>
    intro _ _
    refine ⟨fun c s hs => ?_, fun c s hs => ?_, fun s hs => ?_⟩
    · unfold visit visitName
      split_ifs <;> exact .ok hs
    · unfold visitBase; exact .ok hs
    · unfold visitTarget; exact .ok hs
  | pair a b iha ihb =>
    intro hd hc
    have ha := iha (two hd).1 (two hc).1
    have hb := ihb (two hd).2 (two hc).2
    refine ⟨fun c s hs => ?_, fun c s hs => ?_, fun s hs => ?_⟩
    · unfold visit; exact (ha.1 c s hs).andThen (hb.1 c)
    · unfold visitBase; exact .ok hs
    · unfold visitTarget; exact (ha.2.2 s hs).andThen hb.2.2
  | cmp a b iha ihb | boolop a b iha ihb | seq a b iha ihb =>
    intro hd hc
    have ha := iha (two hd).1 (two hc).1
    have hb := ihb (two hd).2 (two hc).2
    refine ⟨fun c s hs => ?_, fun c s hs => ?_, fun s hs => ?_⟩
    · unfold visit; exact (ha.1 c s hs).andThen (hb.1 c)
    · unfold visitBase; exact .ok hs
    · unfold visitTarget; exact .ok hs
  | bin a b iha ihb =>
    intro hd hc
    have ha := iha (two hd).1 (two hc).1
    have hb := ihb (two hd).2 (two hc).2
    refine ⟨fun c s hs => ?_, fun c s hs => ?_, fun s hs => ?_⟩
    · unfold visit; exact (ha.1 _ s hs).andThen (hb.1 _)
    · unfold visitBase; exact .ok hs
    · unfold visitTarget; exact .ok hs
  | disp k e ih =>
    intro hd hc
    have h := ih hd hc
    refine ⟨fun c s hs => ?_, fun c s hs => ?_, fun s hs => ?_⟩
    · unfold visit; exact h.1 _ s hs
    · unfold visitBase; exact .ok hs
    · unfold visitTarget; exact h.2.2 s hs
  | star e ih =>
    intro hd hc
    have h := ih hd hc
    refine ⟨fun c s hs => ?_, fun c s hs => ?_, fun s hs => ?_⟩
    · unfold visit; exact h.1 _ s hs
    · unfold visitBase; exact .ok hs
    · unfold visitTarget; exact h.2.2 s hs
  | fstr e ih | rais e ih =>
    intro hd hc
    have h := ih hd hc
    refine ⟨fun c s hs => ?_, fun c s hs => ?_, fun s hs => ?_⟩
    · unfold visit; exact h.1 _ s hs
    · unfold visitBase; exact .ok hs
    · unfold visitTarget; exact .ok hs
  | lam d b ihd _ =>
    intro hd hc
    have h := ihd hd hc
    refine ⟨fun c s hs => ?_, fun c s hs => ?_, fun s hs => ?_⟩
    · unfold visit; exact h.1 _ s hs
    · unfold visitBase; exact .ok hs
    · unfold visitTarget; exact .ok hs
  | cond t a b iht iha ihb =>
    intro hd hc
    have ht := iht (two (two hd).1).1 (two (two hc).1).1
    have ha := iha (two (two hd).1).2 (two (two hc).1).2
    have hb := ihb (two hd).2 (two hc).2
    refine ⟨fun c s hs => ?_, fun c s hs => ?_, fun s hs => ?_⟩
    · unfold visit; exact ((ht.1 c s hs).andThen (ha.1 c)).andThen (hb.1 c)
    · unfold visitBase; exact .ok hs
    · unfold visitTarget; exact .ok hs
  | ite t a b iht iha ihb | whil t a b iht iha ihb =>
    intro hd hc
    have ht := iht (two (two hd).1).1 (two (two hc).1).1
    have ha := iha (two (two hd).1).2 (two (two hc).1).2
    have hb := ihb (two hd).2 (two hc).2
    refine ⟨fun c s hs => ?_, fun c s hs => ?_, fun s hs => ?_⟩
    · unfold visit
      exact (ht.1 c s hs).andThen (fun s hs => .branch (fun s hs => .ok hs) (ha.1 c) (hb.1 c) hs)
    · unfold visitBase; exact .ok hs
    · unfold visitTarget; exact .ok hs
  | attr e a ih =>
    intro hd hc
    have h := ih hd hc
    refine ⟨fun c s hs => ?_, fun c s hs => ?_, fun s hs => ?_⟩
    · unfold visit
      refine Fine.andThen ?_ (h.1 _)
      unfold report
      split_ifs <;> exact .ok hs
    · unfold visitBase; exact h.1 c s hs
    · unfold visitTarget; exact .ok hs
  | sub e i ihe ihi =>
    intro hd hc
    have he := ihe (two hd).1 (two hc).1
    have hi := ihi (two hd).2 (two hc).2
    refine ⟨fun c s hs => ?_, fun c s hs => ?_, fun s hs => ?_⟩
    · unfold visit
      by_cases hq : isQuoted P e = true
      · rw [if_pos hq]
        exact .ok hs
      · rw [if_neg hq]
        refine Fine.andThen (Fine.andThen ?_ (he.1 _)) (hi.1 _)
        unfold report
        split_ifs <;> exact .ok hs
    · unfold visitBase; exact he.1 c s hs
    · unfold visitTarget; exact hi.1 _ _ hs
  | call f a ihf iha =>
    intro hd hc
    have hf := ihf (two hd).2 (two (two hc).1).2
    have ha := iha (two hd).1 (two (two hc).1).1
    have hk := (two hc).2
    refine ⟨fun c s hs => ?_, fun c s hs => ?_, fun s hs => ?_⟩
    · unfold visit
      refine Fine.andThen (Fine.andThen (Fine.andThen (ha.1 _ s hs) (fun s hs => ?_)) (hf.1 _)) (fun s hs => ?_)
      · unfold report
        split_ifs <;> exact .ok hs
      · unfold callKnown
        split
        · rename_i x
          by_cases hx : x ∈ s.funcs.map Prod.fst
          · rw [if_pos hx]
            obtain ⟨l, hl⟩ := hk x (List.mem_singleton.2 rfl) s.funcs hs hx
            rw [hl]
            exact .ok hs
          · rw [if_neg hx]
            exact .ok hs
        · exact .ok hs
    · unfold visitBase; exact .ok hs
    · unfold visitTarget; exact .ok hs
  | comp elt x iter ifs ih1 ih2 ih3 =>
    intro hd hc
    have h1 := ih1 (two (two hd).1).1 (two (two hc).1).1
    have h2 := ih2 (two (two hd).1).2 (two (two hc).1).2
    have h3 := ih3 (two hd).2 (two hc).2
    refine ⟨fun c s hs => ?_, fun c s hs => ?_, fun s hs => ?_⟩
    · unfold visit killed
      obtain ⟨l, s', e, hs'⟩ := ((h1.1 c { s with dead := insert [nm x] s.dead } hs).andThen (h2.1 c)).andThen (h3.1 c)
      simp only [e]
      exact .ok hs'
    · unfold visitBase; exact .ok hs
    · unfold visitTarget; exact .ok hs
  | walrus x e ih =>
    intro hd hc
    have h := ih hd hc
    refine ⟨fun c s hs => ?_, fun c s hs => ?_, fun s hs => ?_⟩
    · unfold visit; exact .assign (h.1 c s hs) (fun s hs => .ok hs)
    · unfold visitBase; exact .ok hs
    · unfold visitTarget; exact .ok hs
  | assign t e iht ihe =>
    intro hd hc
    have he := ihe (two hd).1 (two hc).1
    have ht := iht (two hd).2 (two hc).2
    refine ⟨fun c s hs => ?_, fun c s hs => ?_, fun s hs => ?_⟩
    · unfold visit; exact .assign ((he.1 c s hs).andThen (ht.2.1 c)) ht.2.2
    · unfold visitBase; exact .ok hs
    · unfold visitTarget; exact .ok hs
  | ann t a e iht _ ihe =>
    intro hd hc
    have he := ihe (two hd).1 (two hc).1
    have ht := iht (two hd).2 (two hc).2
    refine ⟨fun c s hs => ?_, fun c s hs => ?_, fun s hs => ?_⟩
    · unfold visit; exact .assign ((he.1 c s hs).andThen (ht.2.1 c)) ht.2.2
    · unfold visitBase; exact .ok hs
    · unfold visitTarget; exact .ok hs
  | assign2 t u e iht ihu ihe =>
    intro hd hc
    have he := ihe (two (two hd).1).1 (two (two hc).1).1
    have ht := iht (two (two hd).1).2 (two (two hc).1).2
    have hu := ihu (two hd).2 (two hc).2
    refine ⟨fun c s hs => ?_, fun c s hs => ?_, fun s hs => ?_⟩
    · unfold visit
      exact .assign (((he.1 c s hs).andThen (ht.2.1 c)).andThen (hu.2.1 c)) (fun s hs => (ht.2.2 s hs).andThen hu.2.2)
    · unfold visitBase; exact .ok hs
    · unfold visitTarget; exact .ok hs
  | aug t e iht ihe =>
    intro hd hc
    have ht := iht (two hd).1 (two hc).1
    have he := ihe (two hd).2 (two hc).2
    refine ⟨fun c s hs => ?_, fun c s hs => ?_, fun s hs => ?_⟩
    · unfold visit; exact .assign ((ht.1 c s hs).andThen (he.1 c)) (fun s hs => .ok hs)
    · unfold visitBase; exact .ok hs
    · unfold visitTarget; exact .ok hs
  | annOnly t a iht _ =>
    intro hd hc
    have ht := iht hd hc
    refine ⟨fun c s hs => ?_, fun c s hs => ?_, fun s hs => ?_⟩
    · unfold visit; exact .assign (ht.2.1 c s hs) ht.2.2
    · unfold visitBase; exact .ok hs
    · unfold visitTarget; exact .ok hs
  | forr t it a b iht ihi iha ihb =>
    intro hd hc
    have hi := ihi (two (two (two hd).1).1).1 (two (two (two hc).1).1).1
    have ht := iht (two (two (two hd).1).1).2 (two (two (two hc).1).1).2
    have ha := iha (two (two hd).1).2 (two (two hc).1).2
    have hb := ihb (two hd).2 (two hc).2
    refine ⟨fun c s hs => ?_, fun c s hs => ?_, fun s hs => ?_⟩
    · unfold visit
      exact (hi.1 c s hs).andThen (fun s hs => .branch (ht.1 _) (ha.1 c) (hb.1 c) hs)
    · unfold visitBase; exact .ok hs
    · unfold visitTarget; exact .ok hs
  | withs sw e t a ihe iht iha =>
    intro hd hc
    have he := ihe (two (two hd).1).1 (two (two hc).1).1
    have ht := iht (two (two hd).1).2 (two (two hc).1).2
    have ha := iha (two hd).2 (two hc).2
    refine ⟨fun c s hs => ?_, fun c s hs => ?_, fun s hs => ?_⟩
    · unfold visit; exact ((he.1 c s hs).andThen (ht.1 _)).andThen (ha.1 c)
    · unfold visitBase; exact .ok hs
    · unfold visitTarget; exact .ok hs
  | tryy a h o f iha ihh iho ihf =>
    intro hd hc
    have ha := iha (two (two (two hd).1).1).1 (two (two (two hc).1).1).1
    have hh := ihh (two (two (two hd).1).1).2 (two (two (two hc).1).1).2
    have ho := iho (two (two hd).1).2 (two (two hc).1).2
    have hf := ihf (two hd).2 (two hc).2
    refine ⟨fun c s hs => ?_, fun c s hs => ?_, fun s hs => ?_⟩
    · unfold visit; exact (((ha.1 c s hs).andThen (hh.1 c)).andThen (ho.1 c)).andThen (hf.1 c)
    · unfold visitBase; exact .ok hs
    · unfold visitTarget; exact .ok hs
  | defn f ps kw d k e b ihd _ ihe _ =>
    intro hd hc
    have h1 := ihd (two (two hd).1).1 (two hc).1
    have h2 := ihe (two (two hd).1).2 (two hc).2
    have h3 := (two hd).2 _ List.mem_cons_self
    refine ⟨fun c s hs => ?_, fun c s hs => ?_, fun s hs => ?_⟩
    · unfold visit
      obtain ⟨l, s', e', hs'⟩ := (h1.1 c s hs).andThen (h2.1 c)
      rw [e']
      refine .ok (fun x hx => ?_)
      rcases List.mem_cons.1 hx with rfl | hx
      · exact h3
      · exact hs' x hx
    · unfold visitBase; exact .ok hs
    · unfold visitTarget; exact .ok hs
  | cls x b body ihb _ =>
    intro hd hc
    have h := ihb hd hc
    refine ⟨fun c s hs => ?_, fun c s hs => ?_, fun s hs => ?_⟩
    · unfold visit
      obtain ⟨l, s', e', hs'⟩ := h.1 c s hs
      rw [e']
      exact .ok hs'
    · unfold visitBase; exact .ok hs
    · unfold visitTarget; exact .ok hs

/-- The definitions inside a defined function are definitions of the code. -/
theorem defs_trans : ∀ (n : Node) (d : Nat × Bool × Node), d ∈ defsOf n → ∀ d' ∈ defsOf d.2.2, d' ∈ defsOf n := by
  intro n
  induction n with
  | defn f ps kw dflt k e b ihd _ ihe ihb =>
    intro d hd d' hd'
    unfold defsOf at hd ⊢
    simp only [List.mem_append, List.mem_cons] at hd ⊢
    rcases hd with (hd | hd) | rfl | hd
    · exact .inl (.inl (ihd d hd d' hd'))
    · exact .inl (.inr (ihe d hd d' hd'))
    · exact .inr (.inr hd')
    · exact .inr (.inr (ihb d hd d' hd'))
  | const | name | skip | brk | cont | del | imp => exact fun d hd => absurd hd List.not_mem_nil
  | disp _ _ ih | fstr _ ih | star _ ih | rais _ ih | attr _ _ ih | walrus _ _ ih => exact ih
  | lam _ _ ih _ | annOnly _ _ ih _ | cls _ _ _ ih _ => exact ih
  | pair _ _ ih1 ih2 | cmp _ _ ih1 ih2 | bin _ _ ih1 ih2 | boolop _ _ ih1 ih2 | seq _ _ ih1 ih2 | sub _ _ ih1 ih2
  | aug _ _ ih1 ih2 =>
    intro d hd d' hd'
    unfold defsOf at hd ⊢
    simp only [List.mem_append] at hd ⊢
    exact hd.imp (fun h => ih1 d h d' hd') (fun h => ih2 d h d' hd')
  | call _ _ ih1 ih2 | assign _ _ ih1 ih2 =>
    intro d hd d' hd'
    unfold defsOf at hd ⊢
    simp only [List.mem_append] at hd ⊢
    exact hd.imp (fun h => ih2 d h d' hd') (fun h => ih1 d h d' hd')
  | ann _ _ _ ih1 _ ih2 =>
    intro d hd d' hd'
    unfold defsOf at hd ⊢
    simp only [List.mem_append] at hd ⊢
    exact hd.imp (fun h => ih2 d h d' hd') (fun h => ih1 d h d' hd')
  | assign2 _ _ _ ih1 ih2 ih3 =>
    intro d hd d' hd'
    unfold defsOf at hd ⊢
    simp only [List.mem_append] at hd ⊢
    rcases hd with (h | h) | h
    · exact .inl (.inl (ih3 d h d' hd'))
    · exact .inl (.inr (ih1 d h d' hd'))
    · exact .inr (ih2 d h d' hd')
  | cond _ _ _ ih1 ih2 ih3 | ite _ _ _ ih1 ih2 ih3 | whil _ _ _ ih1 ih2 ih3 | comp _ _ _ _ ih1 ih2 ih3
  | withs _ _ _ _ ih1 ih2 ih3 =>
    intro d hd d' hd'
    unfold defsOf at hd ⊢
    simp only [List.mem_append] at hd ⊢
    rcases hd with (h | h) | h
    · exact .inl (.inl (ih1 d h d' hd'))
    · exact .inl (.inr (ih2 d h d' hd'))
    · exact .inr (ih3 d h d' hd')
  | forr _ _ _ _ ih1 ih2 ih3 ih4 =>
    intro d hd d' hd'
    unfold defsOf at hd ⊢
    simp only [List.mem_append] at hd ⊢
    rcases hd with ((h | h) | h) | h
    · exact .inl (.inl (.inl (ih2 d h d' hd')))
    · exact .inl (.inl (.inr (ih1 d h d' hd')))
    · exact .inl (.inr (ih3 d h d' hd'))
    · exact .inr (ih4 d h d' hd')
  | tryy _ _ _ _ ih1 ih2 ih3 ih4 =>
    intro d hd d' hd'
    unfold defsOf at hd ⊢
    simp only [List.mem_append] at hd ⊢
    rcases hd with ((h | h) | h) | h
    · exact .inl (.inl (.inl (ih1 d h d' hd')))
    · exact .inl (.inl (.inr (ih2 d h d' hd')))
    · exact .inl (.inr (ih3 d h d' hd'))
    · exact .inr (ih4 d h d' hd')

theorem callBody_fine {code : Node} {rank : Nat → Nat} (hr : Ranked rank code) (hk : NoKeywordOnly code) :
    ∀ (n : Nat) (P : Par) (f : Nat) (fs : Funcs), FromDefs (defsOf code) fs → f ∈ fs.map Prod.fst → rank f < n →
      ∃ l, callBody P n f fs = .ok l := by
  intro n
  induction n with
  | zero => exact fun _ _ _ _ _ h => absurd h (Nat.not_lt_zero _)
  | succ n ih =>
    intro P f fs hfs hf hn
    unfold callBody
    cases hfind : fs.find? (fun d => d.1 == f) with
    | none =>
      obtain ⟨d, hd, rfl⟩ := List.mem_map.1 hf
      have := List.find?_eq_none.1 hfind d hd
      simp at this
    | some d =>
      obtain ⟨g, ps, kw, body⟩ := d
      have hg : g = f := by
        have := List.find?_some hfind
        simpa using this
      subst hg
      have hmem := hfs _ (List.mem_of_find?_eq_some hfind)
      have hkw : kw = false := hk _ hmem
      subst hkw
      simp only
      rw [if_neg (by simp)]
      obtain ⟨l, s, hv, _⟩ := (visit_fine (P := { P with res := fun _ => none })
        (callF := callBody { P with res := fun _ => none } n) (ds := defsOf code) body
        (fun d hd => defs_trans code _ hmem d hd)
        (fun h hh fs' hfs' hm => ih _ h fs' hfs' hm (by
          have : rank h < rank g := hr _ hmem h hh
          omega))).1 {} ⟨(ps.map (fun p => [nm p])).toFinset, fs⟩ hfs
      rw [hv]
      exact ⟨l, rfl⟩

/-- C36. The analysis of code returns if no function defined in it is recursive or has keyword-only parameters. Missing: the
two cases left out, in which it does not. -/
theorem analysis_returns_partial {code : Node} {rank : Nat → Nat} (P : Par) (hr : Ranked rank code)
    (hk : NoKeywordOnly code) : ∃ n, ∀ m, n ≤ m → ∃ r, analyse P m code = .ok r := by
  refine ⟨((callsOf code).map rank).sum + 1, fun m hm => ?_⟩
  obtain ⟨l, s, hv, _⟩ := (visit_fine (P := P) (callF := callBody P m) (ds := defsOf code) code (fun _ h => h)
    (fun f hf fs hfs hmem => callBody_fine hr hk m P f fs hfs hmem (by
      have : rank f ≤ ((callsOf code).map rank).sum := List.single_le_sum (fun _ _ => Nat.zero_le _) _ (List.mem_map.2 ⟨f, hf, rfl⟩)
      omega))).1 {} ⟨∅, []⟩ (fun d hd => absurd hd List.not_mem_nil)
  unfold analyse
  rw [hv]
  exact ⟨_, rfl⟩

/-- C36. `def f(): f()` and `f()`: the analysis never returns (in Python, it ends with `RecursionError`). -/
theorem analysis_violated_recursion (P : Par) (n : Nat) :
    analyse P n (.seq (.defn 0 [] false .skip .skip .skip (.call (.name 0) .skip)) (.call (.name 0) .skip)) =
      .error .fuel := by
  have hbody : ∀ (m : Nat) (P : Par), callBody P m 0 [(0, [], false, .call (.name 0) .skip)] = .error .fuel := by
    intro m
    induction m with
    | zero => exact fun _ => rfl
    | succ m ih =>
      intro P
      unfold callBody
      have : ∀ d, visit { P with res := fun _ => none } (callBody { P with res := fun _ => none } m)
          (.call (.name 0) .skip) {} ⟨d, [(0, [], false, .call (.name 0) .skip)]⟩ = .error .fuel := by
        intro d
        simp [visit, visitName, report, binRoot, andThen, callKnown, ih]
      simp [this]
  have hd : ∀ d l, andThen (.ok (l, ⟨d, [(0, [], false, .call (.name 0) .skip)]⟩)) (fun s =>
      visit P (callBody P n) (.call (.name 0) .skip) {} s) = .error .fuel := by
    intro d l
    simp [visit, visitName, report, binRoot, andThen, callKnown, hbody]
  unfold analyse
  have e : visit P (callBody P n) (.seq (.defn 0 [] false .skip .skip .skip (.call (.name 0) .skip))
      (.call (.name 0) .skip)) {} ⟨∅, []⟩ = .error .fuel := by
    unfold visit
    exact hd _ _
  rw [e]

/-- C36. `def f(*, k=1): pass` and `f()`: the analysis fails (in Python, with `AttributeError`). -/
theorem analysis_violated_keyword_only (P : Par) (n : Nat) (r : List LRef × Finset Ref) :
    analyse P n (.seq (.defn 0 [1] true .skip (.const (.int 1)) .skip .skip) (.call (.name 0) .skip)) ≠ .ok r := by
  have hbody : ∀ (m : Nat) l, callBody P m 0 [(0, [1], true, .skip)] ≠ .ok l := by
    intro m l h
    cases m with
    | zero => cases h
    | succ m =>
      unfold callBody at h
      simp at h
  intro h
  obtain ⟨s, hv, _⟩ := analyse_ok (l := r.1) (d := r.2) h
  unfold visit at hv
  obtain ⟨l1, s1, l2, h1, h2, _⟩ := andThen_ok hv
  have e1 : s1 = ⟨{[nm 0]}, [(0, [1], true, .skip)]⟩ := by
    unfold visit at h1
    simp only [visit, andThen] at h1
    cases h1
    rfl
  subst e1
  unfold visit at h2
  obtain ⟨l3, s3, l4, h3, h4, _⟩ := andThen_ok h2
  have e3 : s3.funcs = [(0, [1], true, .skip)] := by
    obtain ⟨l5, s5, l6, h5, h6, _⟩ := andThen_ok h3
    obtain ⟨l7, s7, l8, h7, h8, _⟩ := andThen_ok h5
    have := report_state h8
    subst this
    have := pure_state .skip _ _ _ _ trivial h7
    subst this
    have := pure_state (.name 0) _ _ _ _ trivial h6
    subst this
    rfl
  unfold callKnown at h4
  simp only [e3] at h4
  cases hb : callBody P n 0 [(0, [1], true, .skip)] with
  | error e =>
    rw [hb] at h4
    simp at h4
  | ok l => exact hbody n l hb

/-- `def g(a): return h(a) + a`, `def h(a): return k`, `g(1)`, ranked by `g ↦ 2, h ↦ 1` -/
example : ∃ n, ∀ m, n ≤ m → ∃ r, analyse (P0 true) m (.seq (.defn 0 [5] false .skip .skip .skip
      (.bin (.call (.name 1) (.name 5)) (.name 5))) (.seq (.defn 1 [5] false .skip .skip .skip (.name 2))
      (.call (.name 0) (.const (.int 1))))) = .ok r := by
  refine analysis_returns_partial (rank := fun x => 2 - x) _ ?_ ?_
  · intro d hd g hg
    simp only [defsOf, List.nil_append, List.append_nil, List.cons_append, List.mem_cons, List.not_mem_nil, or_false] at hd
    rcases hd with rfl | rfl
    · simp [callsOf] at hg
      subst hg
      decide
    · simp [callsOf] at hg
  · intro d hd
    simp only [defsOf, List.nil_append, List.append_nil, List.cons_append, List.mem_cons, List.not_mem_nil, or_false] at hd
    rcases hd with rfl | rfl <;> rfl

end Verif.Live
