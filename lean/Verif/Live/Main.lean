import Verif.Live.Sound

/-! # Live-reference analysis: the induction over the syntax -/

namespace Verif.Live
open Verif

variable {P : Par} {callF : Nat → Funcs → Except Err (List LRef)}
variable {p q : Core} {L L' l l1 l2 l' : List LRef} {W W' : Nat → Prop} {D D1 D2 : Finset Ref} {R R' : Nat → Prop}

theorem rep_sub {x : Nat} (h : ∀ r, r ∈ l → r ∈ l') (hr : ReportedLive l x) : ReportedLive l' x := by
  obtain ⟨r, h1, h2⟩ := hr
  exact ⟨r, h _ h1, h2⟩

theorem filt_kn {x : Nat} (hK : K L D W) (h : ∀ r, r ∈ l → r ∈ l') (hr : ReportedLive (L ++ l) x) :
    Kn (L ++ l'.filter (fun r => r.1 ∉ D)) W x := by
  obtain ⟨r, h1, h2⟩ := hr
  rcases List.mem_append.1 h1 with h3 | h3
  · exact .inr (ReportedLive.left ⟨r, h3, h2⟩)
  · by_cases hd : r ∈ D
    · exact (hK.kn hd h2).imp id ReportedLive.left
    · exact .inr (ReportedLive.right ⟨r, List.mem_filter.2 ⟨h _ h3, by simpa using hd⟩, h2⟩)

theorem good_false {Q : Nat → Prop} (h : Good p (fun x => Q x ∨ False)) : Good p Q := h.mono (fun _ h => h.resolve_right id)

theorem good_tryc {h : Core} {Q : Nat → Prop} (hp : Good p Q) (hh : Good h Q) (hq : Good q Q) : Good (.tryc p h q) Q := by
  intro t o hr x hx
  cases hr with
  | stop => exact absurd hx not_readFirst_nil
  | tryOk h1 h2 => exact (readFirst_append.1 hx).elim (hp _ _ h1 x) (fun h => hq _ _ h2 x h.2)
  | tryExc h1 h2 => exact (readFirst_append.1 hx).elim (hp _ _ h1 x) (fun h => hh _ _ h2 x h.2)
  | tryStop h1 _ => exact hp _ _ h1 x hx

theorem good_fin {Q : Nat → Prop} (hp : Good p Q) (hq : Good q Q) : Good (.fin p q) Q := by
  intro t o hr x hx
  cases hr with
  | stop => exact absurd hx not_readFirst_nil
  | fin h1 h2 => exact (readFirst_append.1 hx).elim (hp _ _ h1 x) (fun h => hq _ _ h2 x h.2)
  | finStop h1 h2 _ => exact (readFirst_append.1 hx).elim (hp _ _ h1 x) (fun h => hq _ _ h2 x h.2)

theorem good_without {Q : Nat → Prop} {x : Nat} (h : Good p (fun y => y = x ∨ Q y)) (hx : Ev.rd x ∉ evs p) : Good p Q := by
  intro t o hr y hy
  rcases h t o hr y hy with rfl | h
  · exact absurd (runs_evs hr _ (readFirst_mem hy)) hx
  · exact h

/-- The claim for targets: the visit of the base and of the target make up for the store. -/
def ClaimT (P : Par) (callF : Nat → Funcs → Except Err (List LRef)) (n : Node) : Prop :=
  ∀ (L : List LRef) (W : Nat → Prop) (s1 s2 s3 : S) (l1 lb lt : List LRef) (lits : Finset Ref),
    visitBase P callF n {} s1 = .ok (lb, s2) → visitTarget P callF n s2 = .ok (lt, s3) → K L s1.dead W →
    (∀ c ∈ lits, ∃ a, rootOf c = some a ∧ n = .name a) →
    Step (store n) L W (lb ++ lt)
      (s2.dead ∪ ((s3.dead ∪ lits) \ s2.dead).filter (fun r => r ∉ (l1 ++ lb).map Prod.fst)) (fun _ => False)

theorem claimT_pat {n : Node} (hp : Pat n) : ClaimT P callF n := by
  intro L W s1 s2 s3 l1 lb lt lits h1 h2 hK hl
  rw [pat_base hp] at h1
  rw [pat_target n _ hp] at h2
  cases h1
  cases h2
  refine pat_step hp hK (fun c hc => ?_)
  simp only [Finset.mem_union, Finset.mem_filter, Finset.mem_sdiff] at hc
  rcases hc with hc | ⟨⟨(hc | hc) | hc, _⟩, _⟩
  · exact .inl hc
  · exact .inl hc
  · exact .inr (.inl hc)
  · obtain ⟨a, ha, rfl⟩ := hl c hc
    exact .inr (.inr ⟨a, ha, by simp [patRefs]⟩)

/-- The variable at the root of a chain is known once the chain has been visited. -/
theorem root_kn {e : Node} {x : Nat} (h : Step (sem e) L W l D (fun _ => False)) (hx : rootName e = some x) :
    Kn (L ++ l) W x := by
  obtain ⟨t, o, h1, h2⟩ := root_run hx
  exact (h.1 t o h1 x h2).resolve_right id

theorem claimT_attr {e : Node} {a : Nat} (hc : Claim P callF e) (hb : Base P e) (hr : (rootName e).isSome = true) :
    ClaimT P callF (.attr e a) := by
  intro L W s1 s2 s3 l1 lb lt lits h1 h2 hK hl
  unfold visitBase at h1
  unfold visitTarget at h2
  cases h2
  have hS := hc L W s1 s2 lb h1 hK
  obtain ⟨x, hx⟩ := Option.isSome_iff_exists.1 hr
  have hkn := root_kn hS hx
  obtain ⟨b, r, h4, h5⟩ := chain_root P.res hb hx
  have hch : chainOf P.res (.attr e a) = b :: (r ++ [⟨.str a, false, false⟩]) := by
    unfold chainOf chain?
    rw [h4]
    rfl
  unfold store
  rw [List.append_nil]
  refine ⟨hS.1, fun t ht c hcD y hy => ?_⟩
  simp only [Finset.mem_union, Finset.mem_filter, Finset.mem_sdiff, Finset.mem_insert] at hcD
  rcases hcD with hcD | ⟨⟨(hcD | hcD) | hcD, _⟩, _⟩
  · exact hS.2 t ht c hcD y hy
  · subst hcD
    rw [hch, rootOf_cons, h5] at hy
    cases hy
    rcases hkn with hk | hk
    · exact .inl (.inl hk)
    · refine .inr ⟨?_, hk⟩
      rw [hch]
      simp
  · exact hS.2 t ht c hcD y hy
  · obtain ⟨_, _, h⟩ := hl c hcD
    cases h

theorem claimT_sub {e i : Node} (hc : Claim P callF e) (hi : Claim P callF i) (hb : Base P e)
    (hr : (rootName e).isSome = true) (hp : Pure i) : ClaimT P callF (.sub e i) := by
  intro L W s1 s2 s3 l1 lb lt lits h1 h2 hK hl
  unfold visitBase at h1
  unfold visitTarget at h2
  have hS := hc L W s1 s2 lb h1 hK
  obtain ⟨x, hx⟩ := Option.isSome_iff_exists.1 hr
  have hkn := root_kn hS hx
  obtain ⟨b, r, h4, h5⟩ := chain_root P.res hb hx
  have hch : chainOf P.res (.sub e i) = b :: (r ++ keyAtoms P.res i) := by
    unfold chainOf chain?
    rw [h4]
    rfl
  have hroot : rootOf (chainOf P.res (.sub e i)) = some x := by rw [hch, rootOf_cons, h5]
  have hdead : s3.dead = insert (chainOf P.res (.sub e i)) s2.dead := pure_dead i _ _ _ _ hp h2
  unfold store
  refine hS.seq (fun W' hW hK' => ?_)
  have hkn' : Kn (L ++ lb) W' x := hkn.imp (hW x) id
  have hKi : K (L ++ lb) (insert (chainOf P.res (.sub e i)) s2.dead) (fun y => W' y ∨ y = x) := by
    intro c hcD y hy
    rcases Finset.mem_insert.1 hcD with rfl | hcD
    · rw [hroot] at hy
      cases hy
      exact .inl (.inr rfl)
    · exact (hK' c hcD y hy).imp .inl id
  have hSi := hi _ _ _ _ _ h2 hKi
  refine ⟨hSi.1.mono ?_, ?_⟩
  · rintro y (((hy | rfl) | hy) | hy)
    · exact .inl (.inl hy)
    · exact .inl (hkn'.imp id ReportedLive.left)
    · exact .inl (.inr hy)
    · exact hy.elim
  · intro t ht c hcD y hy
    simp only [Finset.mem_union, Finset.mem_filter, Finset.mem_sdiff, hdead, Finset.mem_insert] at hcD
    rcases hcD with hcD | ⟨⟨(hcD | hcD) | hcD, _⟩, hn⟩
    · exact (hK' c hcD y hy).imp .inl (fun h => ⟨h.1, h.2.left⟩)
    · subst hcD
      rw [hroot] at hy
      cases hy
      by_cases hone : chainOf P.res (.sub e i) = [nm x]
      · have h6 : chain? P.res e = some [nm x] := by
          rw [hch] at hone
          simp only [List.cons.injEq, List.append_eq_nil_iff] at hone
          rw [h4, hone.1, hone.2.1]
        have hpure : ∀ f a, e = .call f a → Pure a := by
          rintro f a rfl
          unfold Base at hb
          exact hb.2.2.2
        rcases base_self hb hr hpure h6 h1 with h7 | h7
        · rcases hK _ h7 x (rootOf_nm x) with h8 | h8
          · exact .inl (.inl (hW x h8))
          · exact absurd rfl h8.1
        · rw [hone] at hn
          rw [List.map_append] at hn
          exact absurd (List.mem_append_right _ h7) hn
      · rcases hkn' with h | h
        · exact .inl (.inl h)
        · exact .inr ⟨hone, h.left⟩
    · exact (hK' c hcD y hy).imp .inl (fun h => ⟨h.1, h.2.left⟩)
    · obtain ⟨_, _, h⟩ := hl c hcD
      cases h

theorem lits_root {t e : Node} : ∀ c ∈ literalElts t e, ∃ a, rootOf c = some a ∧ t = .name a := by
  intro c hc
  unfold literalElts at hc
  split at hc
  · rename_i x n _
    obtain ⟨i, _, rfl⟩ := Finset.mem_image.1 hc
    exact ⟨x, rfl, rfl⟩
  · exact absurd hc (Finset.notMem_empty _)

theorem assign_step {t e : Node} {may : Bool} {s s' : S} (hno : ∀ a b, P.noop a b = false) (he : Claim P callF e)
    (ht : ClaimT P callF t) (h : assignImpl P may (literalElts t e)
      (andThen (visit P callF e {} s) (visitBase P callF t {})) (visitTarget P callF t) = .ok (l, s'))
    (hK : K L s.dead W) : Step (.seq (sem e) (store t)) L W l s'.dead (fun _ => False) := by
  obtain ⟨l1, s1, l2, s2, h1, h2, rfl, hd⟩ := assign_ok hno h
  obtain ⟨l3, s3, l4, h3, h4, rfl⟩ := andThen_ok h1
  rw [hd]
  have hS : Step (.seq (sem e) (store t)) L W (l3 ++ (l4 ++ l2)) _ _ :=
    (he L W _ _ _ h3 hK).seq (fun W' _ hK' => ht (L ++ l3) W' _ _ _ l3 _ _ (literalElts t e) h4 h2 hK' lits_root)
  refine hS.mono (fun x hx => rep_sub (fun r => ?_) hx) (fun _ h => h.elim)
  simp only [List.mem_append]
  tauto

theorem branch_K {D1 D2 : Finset Ref} {t : List Ev} (hK : K L D W)
    (h : K (L ++ l1) D1 (fun x => W x ∨ Ev.wr x ∈ t) ∨ K (L ++ l1) D2 (fun x => W x ∨ Ev.wr x ∈ t))
    (hl : ∀ r, r ∈ l1 → r ∈ l') :
    K (L ++ l'.filter (fun r => r.1 ∉ D)) (D ∪ (D1 ∩ D2)) (fun x => W x ∨ Ev.wr x ∈ t) := by
  intro c hc a ha
  rcases Finset.mem_union.1 hc with hc | hc
  · exact (hK c hc a ha).imp .inl (fun h => ⟨h.1, h.2.left⟩)
  · obtain ⟨hc1, hc2⟩ := Finset.mem_inter.1 hc
    have hor : (W a ∨ Ev.wr a ∈ t) ∨ (c ≠ [nm a] ∧ ReportedLive (L ++ l1) a) := h.elim (fun h => h c hc1 a ha) (fun h => h c hc2 a ha)
    rcases hor with hor | ⟨h1, h2⟩
    · exact .inl hor
    · rcases filt_kn hK hl h2 with h3 | h3
      · exact .inl (.inl h3)
      · exact .inr ⟨h1, h3⟩

/-- Only the part of the statement that concerns the state after a loop or branch. -/
theorem K.mono_wr {t u : List Ev} (h : K L D (fun x => W x ∨ Ev.wr x ∈ u)) (hu : ∀ e, e ∈ u → e ∈ t) :
    K L D (fun x => W x ∨ Ev.wr x ∈ t) := h.wider (fun _ h => h.imp id (hu _))

theorem claim_ite {a b : Node} (ha : Claim P callF a) (hb : Claim P callF b) {s s' : S}
    (h : branch (fun s => .ok ([], s)) (visit P callF a {}) (visit P callF b {}) s = .ok (l, s')) (hK : K L s.dead W) :
    Step (.alt (sem a) (sem b)) L W l s'.dead (fun _ => False) := by
  obtain ⟨l0, s0, l1, s1, l2, s2, h0, h1, h2, rfl, rfl⟩ := branch_ok h
  cases h0
  have hA := ha L W _ _ _ h1 K.empty
  have hB := hb L W _ _ _ h2 K.empty
  have i1 : ∀ r, r ∈ l1 → r ∈ l1 ++ l2 := fun r => List.mem_append_left _
  have i2 : ∀ r, r ∈ l2 → r ∈ l1 ++ l2 := fun r => List.mem_append_right _
  refine ⟨good_alt (hA.1.mono (fun x hx => .inl ?_)) (hB.1.mono (fun x hx => .inl ?_)), fun t ht => ?_⟩
  · exact (hx.resolve_right id).elim .inl (filt_kn hK i1)
  · exact (hx.resolve_right id).elim .inl (filt_kn hK i2)
  · cases ht with
    | left ht => exact branch_K hK (.inl (hA.2 t ht)) i1
    | right ht => exact branch_K hK (.inr (hB.2 t ht)) i2

/-- Loops. `pre` is the part of the round before the body. -/
theorem claim_loop {b : Node} {round : Core} {s s1 s2 : S} (hb : Claim P callF b)
    (hround : Good round (Kn (L ++ l1) W)) (h2 : visit P callF b {} ⟨∅, s1.funcs⟩ = .ok (l2, s2)) (hK : K L s.dead W)
    (hbrk : brks round = false ∨ b = .skip) :
    Step (.loop round (sem b)) L W ((l1 ++ l2).filter (fun r => r.1 ∉ s.dead)) (s.dead ∪ (s1.dead ∩ s2.dead))
      (fun _ => False) := by
  have hB := hb L W _ _ _ h2 K.empty
  have i1 : ∀ r, r ∈ l1 → r ∈ l1 ++ l2 := fun r => List.mem_append_left _
  have i2 : ∀ r, r ∈ l2 → r ∈ l1 ++ l2 := fun r => List.mem_append_right _
  refine ⟨good_loop (hround.mono (fun x hx => .inl ?_)) (hB.1.mono (fun x hx => .inl ?_)), fun t ht => ?_⟩
  · exact hx.elim .inl (filt_kn hK i1)
  · exact (hx.resolve_right id).elim .inl (filt_kn hK i2)
  · rcases hbrk with hbrk | rfl
    · rcases loop_norm ht with ⟨u, v, rfl, hv⟩ | hbr
      · refine branch_K hK (.inr ((hB.2 v hv).mono_wr (fun e he => List.mem_append_right _ he))) i2
      · rw [hbrk] at hbr
        cases hbr
    · unfold visit at h2
      cases h2
      refine branch_K (l1 := l1) hK (.inr K.empty) i1

theorem kn_app {x : Nat} (h : Kn L W x) : Kn (L ++ l) W x := h.imp id ReportedLive.left

/-- A step whose list is cut differently. -/
theorem Step.cut (h : Step p L W l D R) (e : L ++ l = L' ++ l') : Step p L' W l' D R :=
  h.mono (fun x hx => by rw [← e]; exact hx) (fun _ h => .inr h)

theorem claim_attr {e : Node} {a : Nat} (he : ClaimB P callF e) (hb : Base P e) : Claim P callF (.attr e a) := by
  intro L W s s' l h hK
  unfold visit at h
  obtain ⟨l1, s1, l2, h1, h2, rfl⟩ := andThen_ok h
  have hs := report_state h1
  subst hs
  unfold sem
  refine (he (L ++ l1) W _ _ _ h2 hK.left).mono (fun x hx => rep_assoc.1 hx) (fun x hx => .inl ?_)
  have := report_kn (e := .attr e a) (by unfold Base; exact hb) hx h1 hK
  rw [← List.append_assoc]
  exact kn_app this

theorem claimB_attr {e : Node} {a : Nat} (he : ClaimB P callF e) : ClaimB P callF (.attr e a) := by
  intro L W s s' l h hK
  unfold visit at h
  obtain ⟨l1, s1, l2, h1, h2, rfl⟩ := andThen_ok h
  have hs := report_state h1
  have hl := report_inside h1
  subst hs hl
  unfold sem
  exact he L W _ _ _ h2 hK

theorem claim_sub {e i : Node} (he : ClaimB P callF e) (hi : Claim P callF i) (hb : Base P (.sub e i)) :
    Claim P callF (.sub e i) := by
  intro L W s s' l h hK
  have hb' := hb
  unfold Base at hb'
  unfold visit at h
  rw [hb'.2.1, if_neg (by simp)] at h
  obtain ⟨l1, s1, l2, h1, h2, rfl⟩ := andThen_ok h
  obtain ⟨l3, s3, l4, h3, h4, rfl⟩ := andThen_ok h1
  have hs := report_state h3
  subst hs
  unfold sem
  have h5 : Step (sem e) L W (l3 ++ l4) s1.dead (fun _ => False) := by
    refine (he (L ++ l3) W _ _ _ h4 hK.left).mono (fun x hx => rep_assoc.1 hx) (fun x hx => .inl ?_)
    have := report_kn hb (show rootName (.sub e i) = some x from hx) h3 hK
    rw [← List.append_assoc]
    exact kn_app this
  exact h5.seq (fun W' _ hK' => hi _ W' _ _ _ h2 hK')

theorem claimB_sub {e i : Node} (he : ClaimB P callF e) (hi : Claim P callF i) (hq : isQuoted P e = false) :
    ClaimB P callF (.sub e i) := by
  intro L W s s' l h hK
  unfold visit at h
  rw [hq, if_neg (by simp)] at h
  obtain ⟨l1, s1, l2, h1, h2, rfl⟩ := andThen_ok h
  obtain ⟨l3, s3, l4, h3, h4, rfl⟩ := andThen_ok h1
  have hs := report_state h3
  have hl := report_inside h3
  subst hs hl
  unfold sem
  exact (he L W _ _ _ h4 hK).seq (fun W' _ hK' => (hi _ W' _ _ _ h2 hK').weaken)

/-- The visits of a call, up to the report. -/
theorem call_step {f a : Node} (hf : ClaimB P callF f) (ha : Claim P callF a) (hp : Pure a) {c : Bool} {s s' : S}
    (h : andThen (andThen (andThen (visit P callF a {} s) (report P ⟨false, c⟩ (.call f a)))
      (visit P callF f ⟨false, true⟩)) (callKnown callF f) = .ok (l, s')) (hK : K L s.dead W) :
    Step (sem (.call f a)) L W l s'.dead (fun x => rootName (.call f a) = some x) ∧
      (c = false → Base P (.call f a) → ∀ x, rootName (.call f a) = some x → Kn (L ++ l) W x) := by
  obtain ⟨l1, s1, l2, h1, h2, rfl⟩ := andThen_ok h
  obtain ⟨l3, s3, l4, h3, h4, rfl⟩ := andThen_ok h1
  obtain ⟨l5, s5, l6, h5, h6, rfl⟩ := andThen_ok h3
  have hs := report_state h6
  have hs' := callKnown_state h2
  subst hs hs'
  have hd := pure_dead a _ _ _ _ hp h5
  have hK5 : K (L ++ l5) s3.dead W := by
    rw [hd]
    exact hK.left
  constructor
  · unfold sem
    have hF : Step (sem f) L W (l5 ++ l6 ++ l4) s'.dead (fun x => rootName (.call f a) = some x) :=
      (hf (L ++ (l5 ++ l6)) W _ _ _ h4 (by rw [← List.append_assoc]; exact hK5.left)).cut (by simp)
    refine ⟨good_seq' (hF.1.mono (fun x hx => hx.imp (fun h => ?_) id))
      ((ha L W _ _ _ h5 hK).1.mono (fun x hx => .inl ?_)), fun t ht => ?_⟩
    · rw [← List.append_assoc]
      exact kn_app h
    · refine (hx.resolve_right id).imp id (rep_sub (fun r => ?_))
      clear * -
      simp only [List.mem_append]
      tauto
    · obtain ⟨u, v, rfl, hu, hv⟩ := seq_norm ht
      refine (hF.2 u hu).mono (fun x hx => ?_) (fun x hx => hx.imp id (List.mem_append_left _))
      rw [← List.append_assoc]
      exact hx.left
  · intro hc hb x hx
    subst hc
    refine (report_kn hb hx h6 hK5).imp id (rep_sub (fun r => ?_))
    simp only [List.mem_append]
    tauto

theorem claim_call {f a : Node} (hf : ClaimB P callF f) (ha : Claim P callF a) (hb : Base P (.call f a)) :
    Claim P callF (.call f a) := by
  intro L W s s' l h hK
  have hb' := hb
  unfold Base at hb'
  unfold visit at h
  obtain ⟨h1, h2⟩ := call_step hf ha hb'.2.2.2 h hK
  exact h1.mono (fun _ h => h) (fun x hx => .inl (h2 rfl hb x hx))

theorem claimB_call {f a : Node} (hf : ClaimB P callF f) (ha : Claim P callF a) (hp : Pure a) :
    ClaimB P callF (.call f a) := by
  intro L W s s' l h hK
  unfold visit at h
  exact (call_step hf ha hp h hK).1

theorem claim_comp {elt iter ifs : Node} {x : Nat} (h1 : Claim P callF elt) (h2 : Claim P callF iter)
    (h3 : Claim P callF ifs) (p1 : Pure elt) (p2 : Pure iter) (p3 : Pure ifs) (hx : Ev.rd x ∉ evs (sem iter)) :
    Claim P callF (.comp elt x iter ifs) := by
  intro L W s s' l h hK
  have hp : Pure (.comp elt x iter ifs) := ⟨p1, p2, p3⟩
  have hd := pure_dead _ _ _ _ _ hp h
  unfold visit at h
  obtain ⟨s1, h4, rfl⟩ := killed_ok h
  obtain ⟨l2, s2, l3, h5, h6, rfl⟩ := andThen_ok h4
  obtain ⟨l4, s4, l5, h7, h8, rfl⟩ := andThen_ok h5
  have d4 := pure_dead _ _ _ _ _ p1 h7
  have d2 := pure_dead _ _ _ _ _ p2 h8
  have hK0 : K L (insert [nm x] s.dead) (fun y => W y ∨ y = x) := by
    intro c hc a ha
    rcases Finset.mem_insert.1 hc with rfl | hc
    · rw [rootOf_nm] at ha
      cases ha
      exact .inl (.inr rfl)
    · exact (hK c hc a ha).imp .inl id
  have g1 := (h1 L _ _ _ _ h7 hK0).1
  have g2 := (h2 (L ++ l4) _ _ _ _ h8 (by rw [d4]; exact hK0.left)).1
  have g3 := (h3 (L ++ (l4 ++ l5)) _ _ _ _ h6 (by rw [d2, d4]; exact hK0.left)).1
  have conv : ∀ {m : List LRef} (y : Nat), (∀ r, r ∈ m → r ∈ L ++ (l4 ++ l5 ++ l3)) →
      (Kn m (fun y => W y ∨ y = x) y ∨ False) → y = x ∨ (Kn (L ++ (l4 ++ l5 ++ l3)) W y ∨ False) := by
    rintro m y hm (((h | h) | h) | h)
    · exact .inr (.inl (.inl h))
    · exact .inl h
    · exact .inr (.inl (.inr (rep_sub hm h)))
    · exact h.elim
  refine ⟨?_, fun t _ => ?_⟩
  · unfold sem
    refine good_seq' (good_without (g2.mono (fun y hy => conv y ?_ hy)) hx)
      (good_mask (good_loop (good_seq' (g3.mono (fun y hy => conv y ?_ hy)) (good_alt good_nil (g1.mono (fun y hy => conv y ?_ hy))))
        good_nil))
    all_goals
      intro r
      clear * -
      simp only [List.mem_append]
      tauto
  · rw [hd]
    exact hK.mono (fun _ h => h.left) (fun _ h => .inl h)

theorem forr_brks {t s : Node} (hp : Pat t) : brks (.seq (store t) (.uncont (sem s))) = brks (sem s) := by
  show (brks (store t) || brks (sem s)) = _
  rw [(pat_quiet t hp).2, Bool.false_or]

/-- The three claims, for code of the fragment. -/
theorem claims (hno : ∀ a b, P.noop a b = false) : ∀ n : Node, (Plain P n → Claim P callF n) ∧
    (Base P n → ClaimB P callF n) ∧ (Tgt P n → ClaimT P callF n) := by
  intro n
  induction n with
  | const k =>
    refine ⟨fun _ => ?_, fun _ => ?_, fun h => by unfold Tgt at h; exact h.elim⟩
    all_goals
      intro L W s s' l h hK
      unfold visit at h
      cases h
      unfold sem
      exact Step.nil hK
  | name x =>
    refine ⟨fun _ => ?_, fun _ => ?_, fun _ => claimT_pat trivial⟩
    · intro L W s s' l h hK
      unfold visit visitName at h
      rw [if_neg (by simp), if_neg (by simp)] at h
      unfold sem
      by_cases hd : [nm x] ∈ s.dead
      · have hx : W x := (hK _ hd x (rootOf_nm x)).resolve_right (fun h => h.1 rfl)
        have hs : s' = s := by
          split_ifs at h <;> cases h <;> rfl
        subst hs
        exact ⟨good_rd (.inl (.inl hx)), fun _ _ => hK.mono (fun _ h => h.left) (fun _ h => .inl h)⟩
      · rw [if_neg (fun hc => hd hc.1)] at h
        cases h
        refine ⟨good_rd (.inl (.inr (ReportedLive.right ⟨[nm x], ?_, rfl⟩))),
          fun _ _ => hK.mono (fun _ h => h.left) (fun _ h => .inl h)⟩
        simp [hd]
    · intro L W s s' l h hK
      unfold visit visitName at h
      rw [if_neg (by simp), if_pos (by simp)] at h
      cases h
      unfold sem
      exact ⟨good_rd (.inr rfl), fun _ _ => hK.mono (fun _ h => h.left) (fun _ h => .inl h)⟩
  | pair a b iha ihb =>
    refine ⟨fun hp => ?_, fun h => by unfold Base at h; exact h.elim, fun h => by unfold Tgt at h; exact h.elim⟩
    intro L W s s' l h hK
    unfold Plain at hp
    unfold visit at h
    exact claim_two (by conv_lhs => unfold sem) (iha.1 hp.1) (ihb.1 hp.2) h hK
  | cmp a b iha ihb =>
    refine ⟨fun hp => ?_, fun h => by unfold Base at h; exact h.elim, fun h => by unfold Tgt at h; exact h.elim⟩
    intro L W s s' l h hK
    unfold Plain at hp
    unfold visit at h
    exact claim_two (by conv_lhs => unfold sem) (iha.1 hp.1) (ihb.1 hp.2) h hK
  | seq a b iha ihb =>
    refine ⟨fun hp => ?_, fun h => by unfold Base at h; exact h.elim, fun h => by unfold Tgt at h; exact h.elim⟩
    intro L W s s' l h hK
    unfold Plain at hp
    unfold visit at h
    exact claim_two (by conv_lhs => unfold sem) (iha.1 hp.1) (ihb.1 hp.2) h hK
  | bin a b iha ihb =>
    refine ⟨fun hp => ?_, fun hp => ?_, fun h => by unfold Tgt at h; exact h.elim⟩
    · intro L W s s' l h hK
      unfold Plain at hp
      unfold visit at h
      exact claim_two (by conv_lhs => unfold sem) (iha.1 hp.1) (ihb.1 hp.2) h hK
    · intro L W s s' l h hK
      unfold Base at hp
      unfold visit at h
      exact (claim_two (n := .bin a b) (by conv_lhs => unfold sem) (iha.1 hp.1) (ihb.1 hp.2) h hK).weaken
  | disp k e ih =>
    refine ⟨fun hp => ?_, fun hp => ?_, fun hp => ?_⟩
    · intro L W s s' l h hK
      unfold Plain at hp
      unfold visit at h
      unfold sem
      exact ih.1 hp L W s s' l h hK
    · intro L W s s' l h hK
      unfold Base at hp
      unfold visit at h
      unfold sem
      exact (ih.1 hp L W s s' l h hK).weaken
    · unfold Tgt at hp
      exact claimT_pat hp
  | fstr e ih =>
    refine ⟨fun hp => ?_, fun h => by unfold Base at h; exact h.elim, fun h => by unfold Tgt at h; exact h.elim⟩
    intro L W s s' l h hK
    unfold Plain at hp
    unfold visit at h
    unfold sem
    exact ih.1 hp L W s s' l h hK
  | star e ih =>
    refine ⟨fun hp => ?_, fun h => by unfold Base at h; exact h.elim, fun h => by unfold Tgt at h; exact h.elim⟩
    intro L W s s' l h hK
    unfold Plain at hp
    unfold visit at h
    unfold sem
    exact ih.1 hp L W s s' l h hK
  | rais e ih =>
    refine ⟨fun hp => ?_, fun h => by unfold Base at h; exact h.elim, fun h => by unfold Tgt at h; exact h.elim⟩
    intro L W s s' l h hK
    unfold Plain at hp
    unfold visit at h
    unfold sem
    refine ⟨good_seq' (ih.1 hp L W s s' l h hK).1 (good_quiet (fun x => by simp [evs])), fun t ht => ?_⟩
    obtain ⟨_, _, _, _, h⟩ := seq_norm ht
    cases h
  | cond c a b ihc iha ihb =>
    refine ⟨fun hp => ?_, fun h => by unfold Base at h; exact h.elim, fun h => by unfold Tgt at h; exact h.elim⟩
    intro L W s s' l h hK
    unfold Plain at hp
    obtain ⟨hc, ha, hb, pa, pb⟩ := hp
    unfold visit at h
    obtain ⟨l1, s1, l2, h1, h2, rfl⟩ := andThen_ok h
    obtain ⟨l3, s3, l4, h3, h4, rfl⟩ := andThen_ok h1
    have d1 := pure_dead _ _ _ _ _ pa h4
    have d2 := pure_dead _ _ _ _ _ pb h2
    unfold sem
    rw [List.append_assoc]
    refine (ihc.1 hc L W _ _ _ h3 hK).seq (fun W' _ hK' => Step.alt ?_ ?_)
    · refine step_imp ((iha.1 ha (L ++ l3) W' _ _ _ h4 hK').mono (l' := l4 ++ l2) (fun x hx => ?_) (fun _ h => h.elim)) d2
      exact rep_assoc.1 hx.left
    · exact (ihb.1 hb (L ++ l3 ++ l4) W' _ _ _ h2 (by rw [d1]; exact hK'.left)).cut (by simp)
  | boolop a b iha ihb =>
    refine ⟨fun hp => ?_, fun h => by unfold Base at h; exact h.elim, fun h => by unfold Tgt at h; exact h.elim⟩
    intro L W s s' l h hK
    unfold Plain at hp
    obtain ⟨ha, hb, pb⟩ := hp
    unfold visit at h
    obtain ⟨l1, s1, l2, h1, h2, rfl⟩ := andThen_ok h
    have d2 := pure_dead _ _ _ _ _ pb h2
    unfold sem
    refine (iha.1 ha L W _ _ _ h1 hK).seq (fun W' _ hK' => Step.alt (Step.nil ?_) (ihb.1 hb _ W' _ _ _ h2 hK'))
    rw [d2]
    exact hK'
  | attr e a ih =>
    refine ⟨fun hp => ?_, fun hp => ?_, fun hp => ?_⟩
    · unfold Plain at hp
      exact claim_attr (ih.2.1 hp) hp
    · unfold Base at hp
      exact claimB_attr (ih.2.1 hp)
    · unfold Tgt at hp
      exact claimT_attr (ih.1 hp.2.2) hp.1 hp.2.1
  | sub e i ihe ihi =>
    refine ⟨fun hp => ?_, fun hp => ?_, fun hp => ?_⟩
    · unfold Plain at hp
      exact claim_sub (ihe.2.1 hp.1) (ihi.1 hp.2.2) (by unfold Base; exact hp)
    · unfold Base at hp
      exact claimB_sub (ihe.2.1 hp.1) (ihi.1 hp.2.2) hp.2.1
    · unfold Tgt at hp
      exact claimT_sub (ihe.1 hp.2.2.1) (ihi.1 hp.2.2.2.1) hp.1 hp.2.1 hp.2.2.2.2
  | call f a ihf iha =>
    refine ⟨fun hp => ?_, fun hp => ?_, fun h => by unfold Tgt at h; exact h.elim⟩
    · unfold Plain at hp
      exact claim_call (ihf.2.1 hp.1) (iha.1 hp.2.2.1) (by unfold Base; exact hp)
    · unfold Base at hp
      exact claimB_call (ihf.2.1 hp.1) (iha.1 hp.2.2.1) hp.2.2.2
  | lam d b _ _ =>
    refine ⟨fun hp => ?_, fun h => by unfold Base at h; exact h.elim, fun h => by unfold Tgt at h; exact h.elim⟩
    intro L W s s' l h hK
    unfold Plain at hp
    subst hp
    unfold visit at h
    unfold visit at h
    cases h
    unfold sem
    unfold sem
    exact Step.nil hK
  | comp elt x iter ifs ih1 ih2 ih3 =>
    refine ⟨fun hp => ?_, fun h => by unfold Base at h; exact h.elim, fun h => by unfold Tgt at h; exact h.elim⟩
    unfold Plain at hp
    obtain ⟨h1, h2, h3, p1, p2, p3, hx⟩ := hp
    exact claim_comp (ih1.1 h1) (ih2.1 h2) (ih3.1 h3) p1 p2 p3 hx
  | walrus x e ih =>
    refine ⟨fun hp => ?_, fun h => by unfold Base at h; exact h.elim, fun h => by unfold Tgt at h; exact h.elim⟩
    intro L W s s' l h hK
    unfold Plain at hp
    unfold visit at h
    have h' : assignImpl P (simpleValue e) (literalElts (.name x) e)
        (andThen (visit P callF e {} s) (visitBase P callF (.name x) {})) (visitTarget P callF (.name x)) = .ok (l, s') := by
      rw [← h]
      congr 1
      · unfold andThen
        cases visit P callF e {} s with
        | error e => rfl
        | ok p =>
          simp only [visitBase, List.append_nil]
    have := assign_step hno (ih.1 hp) (claimT_pat (n := .name x) trivial) h' hK
    unfold sem
    unfold store at this
    exact this
  | skip =>
    refine ⟨fun _ => ?_, fun h => by unfold Base at h; exact h.elim, fun h => by unfold Tgt at h; exact h.elim⟩
    intro L W s s' l h hK
    unfold visit at h
    cases h
    unfold sem
    exact Step.nil hK
  | assign t e iht ihe =>
    refine ⟨fun hp => ?_, fun h => by unfold Base at h; exact h.elim, fun h => by unfold Tgt at h; exact h.elim⟩
    intro L W s s' l h hK
    unfold Plain at hp
    unfold visit at h
    unfold sem
    exact assign_step hno (ihe.1 hp.1) (iht.2.2 hp.2) h hK
  | assign2 t u e iht ihu ihe =>
    refine ⟨fun hp => ?_, fun h => by unfold Base at h; exact h.elim, fun h => by unfold Tgt at h; exact h.elim⟩
    intro L W s s' l h hK
    unfold Plain at hp
    obtain ⟨he, pt, pu⟩ := hp
    unfold visit at h
    obtain ⟨l1, s1, l2, s2, h1, h2, rfl, hd⟩ := assign_ok hno h
    obtain ⟨l3, s3, l4, h3, h4, rfl⟩ := andThen_ok h1
    obtain ⟨l5, s5, l6, h5, h6, rfl⟩ := andThen_ok h3
    rw [pat_base pt] at h6
    cases h6
    rw [pat_base pu] at h4
    cases h4
    unfold andThen at h2
    rw [pat_target t _ pt] at h2
    simp only at h2
    rw [pat_target u _ pu] at h2
    cases h2
    unfold sem
    simp only [List.append_nil, List.nil_append] at hd ⊢
    refine ((ihe.1 he L W _ _ _ h5 hK).seq (l2 := []) (fun W' _ hK' => ?_)).cut (by simp)
    refine ((pat_step (D := s1.dead) (D' := s1.dead ∪ patRefs t) (l := []) pt hK' (fun c hc => ?_)).seq (l2 := [])
      (fun W'' _ hK'' => pat_step (D := s1.dead ∪ patRefs t) pu hK'' (fun c hc => ?_))).cut (by simp)
    · exact (Finset.mem_union.1 hc).imp id .inl
    · rw [hd] at hc
      simp only [Finset.mem_union, Finset.mem_filter, Finset.mem_sdiff, Finset.notMem_empty] at hc ⊢
      clear * - hc
      tauto
  | aug t e iht ihe =>
    refine ⟨fun hp => ?_, fun h => by unfold Base at h; exact h.elim, fun h => by unfold Tgt at h; exact h.elim⟩
    intro L W s s' l h hK
    unfold Plain at hp
    unfold visit at h
    obtain ⟨l1, s1, l2, s2, h1, h2, rfl, hd⟩ := assign_ok hno h
    cases h2
    obtain ⟨l3, s3, l4, h3, h4, rfl⟩ := andThen_ok h1
    have hd' : s'.dead = s1.dead := by
      rw [hd]
      ext c
      simp
    rw [hd']
    unfold sem
    refine (iht.1 hp.1 L W _ _ _ h3 hK).seq (fun W' _ hK' => ?_)
    refine ((ihe.1 hp.2 (L ++ l3) W' _ _ _ h4 hK').seq (l2 := []) (fun W'' _ hK'' => ?_)).cut (by simp)
    unfold augStore
    split
    · exact ⟨good_wr, fun _ _ => hK''.mono (fun _ h => h.left) (fun _ h => .inl h)⟩
    · exact Step.nil hK''
  | ann t a e iht _ ihe =>
    refine ⟨fun hp => ?_, fun h => by unfold Base at h; exact h.elim, fun h => by unfold Tgt at h; exact h.elim⟩
    intro L W s s' l h hK
    unfold Plain at hp
    unfold visit at h
    unfold sem
    have h1 := assign_step hno (ihe.1 hp.1) (iht.2.2 hp.2.1) h hK
    have h2 : Step (.seq (.seq (sem e) (store t)) (sem a)) L W l s'.dead (fun _ => False) := by
      refine (h1.seq (l2 := []) (fun W' _ hK' => ?_)).cut (by simp)
      exact ⟨good_quiet hp.2.2, fun _ _ => hK'.mono (fun _ h => h.left) (fun _ h => .inl h)⟩
    refine ⟨fun u o hr x hx => ?_, fun u hr => ?_⟩
    · cases hr with
      | stop => exact absurd hx not_readFirst_nil
      | seq r1 r2 =>
        cases r2 with
        | stop => exact h2.1 _ _ (.seqStop (.seq r1 (.stop _)) (by simp)) x hx
        | seq r2 r3 =>
          rw [← List.append_assoc] at hx
          exact h2.1 _ _ (.seq (.seq r1 r2) r3) x hx
        | seqStop r2 hn => exact h2.1 _ _ (.seqStop (.seq r1 r2) hn) x hx
      | seqStop r1 hn => exact h2.1 _ _ (.seqStop (.seqStop r1 hn) hn) x hx
    · obtain ⟨u1, u2, rfl, r1, r2⟩ := seq_norm hr
      obtain ⟨u2, u3, rfl, r2, r3⟩ := seq_norm r2
      rw [← List.append_assoc]
      exact h2.2 _ (.seq (.seq r1 r2) r3)
  | annOnly t a _ _ =>
    exact ⟨fun h => by unfold Plain at h; exact h.elim, fun h => by unfold Base at h; exact h.elim,
      fun h => by unfold Tgt at h; exact h.elim⟩
  | imp x =>
    refine ⟨fun hp => ?_, fun h => by unfold Base at h; exact h.elim, fun h => by unfold Tgt at h; exact h.elim⟩
    intro L W s s' l h hK
    unfold visit at h
    obtain ⟨l1, s1, l2, s2, h1, h2, rfl, hd⟩ := assign_ok hno h
    cases h1
    cases h2
    have : Step (store (.name x)) L W ([] ++ []) s'.dead (fun _ => False) := by
      refine pat_step (D := s.dead) (t := .name x) trivial hK (fun c hc => ?_)
      rw [hd] at hc
      simp only [Finset.mem_union, Finset.mem_filter, Finset.mem_sdiff, Finset.notMem_empty, Finset.mem_insert,
        patRefs, Finset.mem_singleton] at hc ⊢
      clear * - hc
      tauto
    unfold store at this
    unfold sem
    exact this
  | ite c a b ihc iha ihb =>
    refine ⟨fun hp => ?_, fun h => by unfold Base at h; exact h.elim, fun h => by unfold Tgt at h; exact h.elim⟩
    intro L W s s' l h hK
    unfold Plain at hp
    unfold visit at h
    obtain ⟨l1, s1, l2, h1, h2, rfl⟩ := andThen_ok h
    unfold sem
    exact (ihc.1 hp.1 L W _ _ _ h1 hK).seq (fun W' _ hK' => claim_ite (iha.1 hp.2.1) (ihb.1 hp.2.2) h2 hK')
  | whil c a b ihc iha ihb =>
    refine ⟨fun hp => ?_, fun h => by unfold Base at h; exact h.elim, fun h => by unfold Tgt at h; exact h.elim⟩
    intro L W s s' l h hK
    unfold Plain at hp
    obtain ⟨hc, ha, hb, hbrk⟩ := hp
    unfold visit at h
    obtain ⟨l1, s1, l2, h1, h2, rfl⟩ := andThen_ok h
    obtain ⟨l0, s0, l3, s3, l4, s4, h0, h3, h4, rfl, rfl⟩ := branch_ok h2
    cases h0
    unfold sem
    have hC := ihc.1 hc L W _ _ _ h1 hK
    refine hC.seq (fun W' hW hK' => ?_)
    refine claim_loop (ihb.1 hb) (good_seq' (good_uncont (good_false (iha.1 ha (L ++ l1) W' _ _ _ h3 K.empty).1)) ?_) h4
      hK' ?_
    · exact (good_false hC.1).mono (fun x hx => kn_app (hx.imp (hW x) id))
    · refine hbrk.imp (fun h => ?_) id
      show (brks (sem a) || brks (sem c)) = false
      rw [h.1, h.2]
      rfl
  | forr t it a b _ ihi iha ihb =>
    refine ⟨fun hp => ?_, fun h => by unfold Base at h; exact h.elim, fun h => by unfold Tgt at h; exact h.elim⟩
    intro L W s s' l h hK
    unfold Plain at hp
    obtain ⟨pt, hi, ha, hb, hbrk⟩ := hp
    unfold visit at h
    obtain ⟨l1, s1, l2, h1, h2, rfl⟩ := andThen_ok h
    obtain ⟨l0, s0, l3, s3, l4, s4, h0, h3, h4, rfl, rfl⟩ := branch_ok h2
    rw [pat_visit t _ _ pt] at h0
    cases h0
    unfold sem
    refine (ihi.1 hi L W _ _ _ h1 hK).seq (fun W' hW hK' => ?_)
    refine claim_loop (ihb.1 hb) (good_seq (good_quiet (pat_quiet t pt).1) (fun u hu => good_uncont ?_)) h4 hK' ?_
    · have hKp : K (L ++ l1) (∅ ∪ patRefs t) (fun x => W' x ∨ Ev.wr x ∈ u) := by
        intro c hc y hy
        rcases Finset.mem_union.1 hc with hc | hc
        · exact absurd hc (Finset.notMem_empty _)
        · exact .inl (.inr (pat_writes t u pt hu c hc y hy))
      refine (iha.1 ha (L ++ l1) _ _ _ _ h3 hKp).1.mono ?_
      rintro x (((hx | hx) | hx) | hx)
      · exact .inr (.inl hx)
      · exact .inl hx
      · exact .inr (.inr hx)
      · exact hx.elim
    · exact hbrk.imp (fun h => by rw [forr_brks pt]; exact h) id
  | withs sw e t a ihe _ iha =>
    refine ⟨fun hp => ?_, fun h => by unfold Base at h; exact h.elim, fun h => by unfold Tgt at h; exact h.elim⟩
    intro L W s s' l h hK
    unfold Plain at hp
    obtain ⟨rfl, he, pt, ha⟩ := hp
    unfold visit at h
    obtain ⟨l1, s1, l2, h1, h2, rfl⟩ := andThen_ok h
    obtain ⟨l3, s3, l4, h3, h4, rfl⟩ := andThen_ok h1
    unfold sem
    rw [if_neg (by simp), List.append_assoc]
    refine (ihe.1 he L W _ _ _ h3 hK).seq (fun W' hW hK' => ?_)
    refine Step.seq (D1 := s1.dead) ?_ (fun W'' _ hK'' => iha.1 ha _ W'' _ _ _ h2 hK'')
    rcases pt with pt | rfl
    · rw [pat_visit t _ _ pt] at h4
      cases h4
      exact pat_step pt hK' (fun c hc => (Finset.mem_union.1 hc).imp id .inl)
    · unfold visit at h4
      cases h4
      unfold store
      exact Step.nil hK'
  | tryy a h' o f iha ihh iho ihf =>
    refine ⟨fun hp => ?_, fun h => by unfold Base at h; exact h.elim, fun h => by unfold Tgt at h; exact h.elim⟩
    intro L W s s' l h hK
    unfold Plain at hp
    obtain ⟨pa, ph, po, pf, qa, qh, qo⟩ := hp
    unfold visit at h
    obtain ⟨l1, s1, l2, h1, h2, rfl⟩ := andThen_ok h
    obtain ⟨l3, s3, l4, h3, h4, rfl⟩ := andThen_ok h1
    obtain ⟨l5, s5, l6, h5, h6, rfl⟩ := andThen_ok h3
    have d5 := pure_dead _ _ _ _ _ qa h5
    have d3 := pure_dead _ _ _ _ _ qh h6
    have d1 := pure_dead _ _ _ _ _ qo h4
    have gA := iha.1 pa L W _ _ _ h5 hK
    have gH := ihh.1 ph (L ++ l5) W _ _ _ h6 (by rw [d5]; exact hK.left)
    have gO := iho.1 po (L ++ (l5 ++ l6)) W _ _ _ h4 (by rw [d3, d5]; exact hK.left)
    have gF := ihf.1 pf (L ++ (l5 ++ l6 ++ l4)) W _ _ _ h2 (by rw [d1, d3, d5]; exact hK.left)
    unfold sem
    refine ⟨good_fin (good_tryc (gA.1.mono (fun x hx => ?_)) (gH.1.mono (fun x hx => ?_)) (gO.1.mono (fun x hx => ?_)))
      (gF.1.mono (fun x hx => ?_)), fun t ht => ?_⟩
    · refine hx.imp (fun hx => hx.imp id (rep_sub (fun r => ?_))) id
      clear * -
      simp only [List.mem_append]
      tauto
    · refine hx.imp (fun hx => hx.imp id (rep_sub (fun r => ?_))) id
      clear * -
      simp only [List.mem_append]
      tauto
    · refine hx.imp (fun hx => hx.imp id (rep_sub (fun r => ?_))) id
      clear * -
      simp only [List.mem_append]
      tauto
    · refine hx.imp (fun hx => hx.imp id (rep_sub (fun r => ?_))) id
      clear * -
      simp only [List.mem_append]
      tauto
    · rw [← List.append_assoc]
      cases ht with
      | fin r1 r2 => exact (gF.2 _ r2).mono_wr (fun e he => List.mem_append_right _ he)
      | finStop _ _ hn => exact absurd rfl hn
  | defn f ps kw dflt kwd deco body ihd _ ihe _ =>
    refine ⟨fun hp => ?_, fun h => by unfold Base at h; exact h.elim, fun h => by unfold Tgt at h; exact h.elim⟩
    intro L W s s' l h hK
    unfold Plain at hp
    obtain ⟨pd, pe, qd, qe, hk⟩ := hp
    unfold visit at h
    cases hr : andThen (visit P callF dflt {} s) (visit P callF deco {}) with
    | error e =>
      rw [hr] at h
      cases h
    | ok p =>
      obtain ⟨l0, s1⟩ := p
      rw [hr] at h
      cases h
      obtain ⟨l1, s2, l2, h1, h2, rfl⟩ := andThen_ok hr
      have d2 := pure_dead _ _ _ _ _ qd h1
      have d1 := pure_dead _ _ _ _ _ qe h2
      have g1 := ihd.1 pd L W _ _ _ h1 hK
      have g2 := ihe.1 pe (L ++ l1) W _ _ _ h2 (by rw [d2]; exact hK.left)
      unfold sem
      refine ⟨good_seq' (g2.1.mono (fun x hx => ?_)) (good_seq' (g1.1.mono (fun x hx => ?_))
        (good_seq' (good_quiet hk) good_wr)), fun t ht c hc y hy => ?_⟩
      · refine hx.imp (fun hx => hx.imp id (rep_sub (fun r => ?_))) id
        clear * -
        simp only [List.mem_append]
        tauto
      · refine hx.imp (fun hx => hx.imp id (rep_sub (fun r => ?_))) id
        clear * -
        simp only [List.mem_append]
        tauto
      · obtain ⟨u1, u2, rfl, _, r2⟩ := seq_norm ht
        obtain ⟨u3, u4, rfl, _, r4⟩ := seq_norm r2
        obtain ⟨u5, u6, rfl, _, r6⟩ := seq_norm r4
        cases r6
        rcases Finset.mem_insert.1 hc with rfl | hc
        · rw [rootOf_nm] at hy
          cases hy
          exact .inl (.inr (by simp))
        · rw [d1, d2] at hc
          exact (hK c hc y hy).imp .inl (fun h => ⟨h.1, h.2.left⟩)
  | cls x bases body ihb _ =>
    refine ⟨fun hp => ?_, fun h => by unfold Base at h; exact h.elim, fun h => by unfold Tgt at h; exact h.elim⟩
    intro L W s s' l h hK
    unfold Plain at hp
    unfold visit at h
    cases hr : visit P callF bases {} s with
    | error e =>
      rw [hr] at h
      cases h
    | ok p =>
      obtain ⟨l0, s1⟩ := p
      rw [hr] at h
      cases h
      unfold sem
      refine ((ihb.1 hp.1 L W _ _ _ hr hK).seq (l2 := []) (fun W' _ hK' => ?_)).cut (by simp)
      refine ⟨good_seq' (good_quiet hp.2) good_wr, fun t ht c hc y hy => ?_⟩
      obtain ⟨u1, u2, rfl, _, r2⟩ := seq_norm ht
      cases r2
      rcases Finset.mem_insert.1 hc with rfl | hc
      · rw [rootOf_nm] at hy
        cases hy
        exact .inl (.inr (by simp))
      · exact (hK' c hc y hy).imp .inl (fun h => ⟨h.1, h.2.left⟩)
  | del t _ =>
    exact ⟨fun h => by unfold Plain at h; exact h.elim, fun h => by unfold Base at h; exact h.elim,
      fun h => by unfold Tgt at h; exact h.elim⟩
  | brk =>
    refine ⟨fun hp => ?_, fun h => by unfold Base at h; exact h.elim, fun h => by unfold Tgt at h; exact h.elim⟩
    intro L W s s' l h hK
    unfold sem
    exact ⟨good_quiet (fun x => by simp [evs]), fun t ht => by cases ht⟩
  | cont =>
    refine ⟨fun hp => ?_, fun h => by unfold Base at h; exact h.elim, fun h => by unfold Tgt at h; exact h.elim⟩
    intro L W s s' l h hK
    unfold sem
    exact ⟨good_quiet (fun x => by simp [evs]), fun t ht => by cases ht⟩

end Verif.Live
