import Verif.Bind.Props

/-! # C101: which reads are recorded for a statement -/

namespace Verif.Bind

variable {X N : Type}

/-- The expression reads no variable. -/
def Still (e : E X N) : Prop := ∀ x, ¬ Reads e x

/-- Statements that read no variable: for bodies that are visited although they belong to other statements. -/
def Idle : S X N → Prop
  | .done => True
  | .seq a b => Idle a ∧ Idle b
  | .expr e => Still e
  | .imp _ => True
  | .other => True
  | _ => False

/-- Handlers each of which names a single variable, or reads nothing. -/
def Handlers : S X N → Prop
  | .done => True
  | .seq a b => Handlers a ∧ Handlers b
  | .handler e _ _ => (∃ x, e = .var x) ∨ Still e
  | _ => False

/-- Cases of a `match`. -/
def Cases : S X N → Prop
  | .done => True
  | .seq a b => Cases a ∧ Cases b
  | .case p _ g _ => ¬ Lambdas p ∧ ¬ Lambdas g
  | _ => False

/-- Cases of a `match` with idle bodies. -/
def IdleCases : S X N → Prop
  | .done => True
  | .seq a b => IdleCases a ∧ IdleCases b
  | .case _ _ _ b => Idle b
  | _ => False

/-- Handlers, whose bodies do not matter. -/
def OnlyHandlers : S X N → Prop
  | .done => True
  | .seq a b => OnlyHandlers a ∧ OnlyHandlers b
  | .handler _ _ _ => True
  | _ => False

/-- Statements of which no read is missed. -/
def Attentive : S X N → Prop
  | .assign _ v => ¬ Lambdas v
  | .annAssign _ ann (some v) => Still ann ∧ ¬ Lambdas v
  | .annAssign _ ann none => Still ann
  | .augAssign _ v => ¬ Lambdas v
  | .loop _ i _ _ => ¬ Lambdas i
  | .asyncLoop _ i _ _ => ¬ Lambdas i
  | .cond c b o => ¬ Walrus (.cond c b o) ∧ ¬ Lambdas c
  | .while c b o => ¬ Walrus (.while c b o) ∧ ¬ Lambdas c
  | .with items _ => ∀ e t, (e, t) ∈ items → t ≠ none ∧ ¬ Lambdas e
  | .asyncWith items _ => ∀ e t, (e, t) ∈ items → t ≠ none ∧ ¬ Lambdas e
  | .funDef _ d ann decs _ => Still ann ∧ ¬ Lambdas d ∧ ¬ Lambdas decs
  | .classDef _ bases kws decs _ => Still kws ∧ ¬ Lambdas bases ∧ ¬ Lambdas decs
  | .try b hs o f => ¬ Walrus (.try b hs o f) ∧ Handlers hs
  | .match e cs => ¬ Walrus (.match e cs) ∧ ¬ Lambdas e ∧ Cases cs
  | .expr e => No e ∧ ¬ Lambdas e
  | .handler _ _ _ => False
  | .case _ _ _ _ => False
  | _ => True

/-- No assignment expression is in the body of a lambda. -/
def Outside (e : E X N) : Prop := ∀ n x v, Occurs e n x v → Within e n x v

/-- Statements for which nothing is recorded as read that is not. -/
def Reserved : S X N → Prop
  | .annAssign _ _ (some v) => Outside v
  | .augAssign _ v => Outside v
  | .cond c _ _ => Outside c
  | .while c b o => Outside c ∧ Idle b ∧ Idle o ∧ ¬ Walrus b ∧ ¬ Walrus o
  | .asyncWith _ b => Idle b ∧ ¬ Walrus b
  | .funDef _ d _ decs _ => Outside d ∧ Outside decs
  | .classDef _ bases _ decs _ => Outside bases ∧ Outside decs
  | .try b hs o f => ¬ Walrus (.try b hs o f) ∧ Idle b ∧ Idle o ∧ Idle f ∧ OnlyHandlers hs
  | .match e cs => ¬ Walrus (.match e cs) ∧ IdleCases cs
  | .expr e => Outside e
  | .del ts => No (inner ts)
  | .done => False
  | .seq _ _ => False
  | .handler _ _ _ => False
  | .case _ _ _ _ => False
  | _ => True

/-! ## Expressions -/

theorem reads_of_vars {e : E X N} {x : X} (h : x ∈ varsE e) : Reads e x := by
  induction e with
  | nil => simp [varsE] at h
  | pair a b iha ihb =>
    rcases List.mem_append.1 h with h | h
    · exact .left (iha h)
    · exact .right (ihb h)
  | var y => simp only [varsE, List.mem_singleton] at h; subst h; exact .var
  | node e ih => exact .node (ih h)
  | named n y v ih =>
    rcases List.mem_cons.1 h with rfl | h
    · exact .target
    · exact .value (ih h)
  | lam d b => simp [varsE] at h

theorem vars_of_reads {e : E X N} {x : X} (h : Reads e x) (hl : ¬ Lambdas e) : x ∈ varsE e := by
  induction h with
  | var => simp [varsE]
  | target => simp [varsE]
  | value _ ih => exact List.mem_cons_of_mem _ (ih fun h => hl (.value h))
  | left _ ih => exact List.mem_append_left _ (ih fun h => hl (.left h))
  | right _ ih => exact List.mem_append_right _ (ih fun h => hl (.right h))
  | node _ ih => exact ih fun h => hl (.node h)
  | defaults h _ => exact absurd (.here h) hl

theorem Still.vars {e : E X N} (h : Still e) : varsE e = [] :=
  List.eq_nil_iff_forall_not_mem.2 fun x hx => h x (reads_of_vars hx)

theorem reads_of_within {e : E X N} {n : N} {y : X} {v : E X N} (h : Within e n y v) {x : X} (hx : Reads v x) : Reads e x := by
  induction h with
  | here => exact .value hx
  | inside _ ih => exact .value (ih hx)
  | left _ ih => exact .left (ih hx)
  | right _ ih => exact .right (ih hx)
  | node _ ih => exact .node (ih hx)
  | defaults _ ih => exact .defaults (ih hx)

/-- What is read through the edges of an expression. -/
theorem reads_of_edges {e : E X N} (h : Outside e) {x : X} (hx : x ∈ (edgesE e).flatMap varsEdge) : Reads e x := by
  obtain ⟨d, hd, hx⟩ := List.mem_flatMap.1 hx
  obtain ⟨n, y, v, ho, rfl⟩ := mem_edgesE.1 hd
  exact reads_of_within (h n y v ho) (reads_of_vars hx)

theorem Idle.vars {s : S X N} (h : Idle s) : varsS s = [] := by
  induction s with
  | done => rfl
  | seq a b iha ihb => simp only [varsS, iha h.1, ihb h.2, List.append_nil]
  | expr e => exact Still.vars h
  | imp as => rfl
  | other => rfl
  | _ => exact h.elim

theorem Idle.edges {s : S X N} (h : Idle s) (hw : ¬ Walrus s) : (edgesS s).flatMap varsEdge = [] := by
  induction s with
  | done => rfl
  | seq a b iha ihb =>
    rw [edgesS, List.flatMap_append, iha h.1 (fun hh => hw (.child .seqL hh)), ihb h.2 (fun hh => hw (.child .seqR hh)), List.append_nil]
  | expr e =>
    have hn : No e := (no_of_not_walrus hw).1
    rw [edgesS, hn.edgesE]; rfl
  | imp as =>
    rw [edgesS, List.flatMap_map, List.flatMap_eq_nil_iff]
    intro a _; rfl
  | other => rfl
  | _ => exact h.elim

theorem looked_old {s : S X N} (hc : containsLval s = true)
    (h1 : ∀ ts v, s ≠ .assign ts v) (h2 : ∀ t i b o, s ≠ .loop t i b o) (h3 : ∀ t i b o, s ≠ .asyncLoop t i b o) (x : X) :
    x ∈ looked s ↔ x ∈ (edgesS s).flatMap varsEdge := by
  unfold looked
  rw [if_pos hc]
  cases s with
  | assign ts v => exact absurd rfl (h1 ts v)
  | loop t i b o => exact absurd rfl (h2 t i b o)
  | asyncLoop t i b o => exact absurd rfl (h3 t i b o)
  | _ => simp only [List.mem_flatMap, List.mem_reverse]

theorem looked_else {s : S X N} (hc : containsLval s = false) (h1 : ∀ ts, s ≠ .del ts) : looked s = varsS s := by
  unfold looked
  rw [if_neg (by simp [hc])]
  cases s with
  | del ts => exact absurd rfl (h1 ts)
  | _ => rfl

theorem vars_edgesI {items : List (E X N × Option (T X N))} {x : X} :
    x ∈ (edgesI items).flatMap varsEdge ↔ ∃ e t, (e, some t) ∈ items ∧ x ∈ varsE e := by
  induction items with
  | nil => simp [edgesI]
  | cons p l ih =>
    obtain ⟨e, _ | t⟩ := p
    · rw [edgesI, ih]; simp
    · rw [edgesI, List.flatMap_cons, List.mem_append, ih]
      constructor
      · rintro (h | ⟨e', t', hm, h⟩)
        · exact ⟨e, t, List.mem_cons_self, h⟩
        · exact ⟨e', t', List.mem_cons_of_mem _ hm, h⟩
      · rintro ⟨e', t', hm, h⟩
        rcases List.mem_cons.1 hm with hm | hm
        · cases hm; exact .inl h
        · exact .inr ⟨e', t', hm, h⟩

theorem reads_contexts {items : List (E X N × Option (T X N))} {x : X} : Reads (contexts items) x ↔ ∃ e t, (e, t) ∈ items ∧ Reads e x := by
  induction items with
  | nil =>
    constructor
    · intro h; cases h
    · rintro ⟨e, t, hm, _⟩; cases hm
  | cons p l ih =>
    obtain ⟨e, t⟩ := p
    constructor
    · intro h
      cases h with
      | left h => exact ⟨e, t, List.mem_cons_self, h⟩
      | right h =>
        obtain ⟨e', t', hm, h'⟩ := ih.1 h
        exact ⟨e', t', List.mem_cons_of_mem _ hm, h'⟩
    · rintro ⟨e', t', hm, h⟩
      rcases List.mem_cons.1 hm with hm | hm
      · cases hm; exact .left h
      · exact .right (ih.2 ⟨e', t', hm, h⟩)

theorem vars_heads {hs : S X N} (h : Handlers hs) {x : X} (hr : Reads (heads hs) x) : x ∈ varsS hs := by
  induction hs with
  | done => cases hr
  | seq a b iha ihb =>
    cases hr with
    | left hr => exact List.mem_append_left _ (iha h.1 hr)
    | right hr => exact List.mem_append_right _ (ihb h.2 hr)
  | handler e y b _ =>
    rcases h with ⟨z, rfl⟩ | h
    · cases hr; simp [varsS, varsTop]
    · exact absurd hr (h x)
  | _ => exact h.elim

theorem vars_cases {cs : S X N} (h : Cases cs) {x : X} (hr : Reads (heads cs) x) : x ∈ varsS cs := by
  induction cs with
  | done => cases hr
  | seq a b iha ihb =>
    cases hr with
    | left hr => exact List.mem_append_left _ (iha h.1 hr)
    | right hr => exact List.mem_append_right _ (ihb h.2 hr)
  | case p xs g b _ =>
    cases hr with
    | left hr => exact List.mem_append_left _ (List.mem_append_left _ (vars_of_reads hr h.1))
    | right hr => exact List.mem_append_left _ (List.mem_append_right _ (vars_of_reads hr h.2))
  | _ => exact h.elim

theorem heads_of_handlers {hs : S X N} (h : OnlyHandlers hs) {x : X} (hr : x ∈ varsS hs) : Reads (heads hs) x := by
  induction hs with
  | done => simp [varsS] at hr
  | seq a b iha ihb =>
    rcases List.mem_append.1 hr with hr | hr
    · exact .left (iha h.1 hr)
    · exact .right (ihb h.2 hr)
  | handler e y b _ =>
    cases e with
    | var z => simp only [varsS, varsTop, List.mem_singleton] at hr; subst hr; exact .var
    | _ => simp [varsS, varsTop] at hr
  | _ => exact h.elim

theorem heads_of_cases {cs : S X N} (h : IdleCases cs) {x : X} (hr : x ∈ varsS cs) : Reads (heads cs) x := by
  induction cs with
  | done => simp [varsS] at hr
  | seq a b iha ihb =>
    rcases List.mem_append.1 hr with hr | hr
    · exact .left (iha h.1 hr)
    · exact .right (ihb h.2 hr)
  | case p xs g b _ =>
    rw [varsS, Idle.vars h, List.append_nil] at hr
    rcases List.mem_append.1 hr with hr | hr
    · exact .left (reads_of_vars hr)
    · exact .right (reads_of_vars hr)
  | _ => exact h.elim

/-- **C101** Every variable that a statement reads, apart from reads in its targets and in the statements of its body, is recorded as used. `Attentive` excludes
the statements for which this is false: see `Verif.Bind.Witness`. -/
theorem reads_recorded_partial {s : S X N} (h : Attentive s) {x : X} (hr : Reads (rhs s) x) : x ∈ looked s := by
  cases s with
  | done => cases hr
  | seq a b => cases hr
  | imp as => cases hr
  | del ts => cases hr
  | other => cases hr
  | handler e y b => exact h.elim
  | case p xs g b => exact h.elim
  | assign ts v => exact vars_of_reads hr h
  | loop t i b o => exact vars_of_reads hr h
  | asyncLoop t i b o => exact vars_of_reads hr h
  | annAssign t ann v =>
    cases v with
    | none => exact absurd hr (h x)
    | some v =>
      rw [looked_old rfl (fun _ _ h => by cases h) (fun _ _ _ _ h => by cases h) (fun _ _ _ _ h => by cases h)]
      cases hr with
      | left hr => exact absurd hr (h.1 x)
      | right hr => exact List.mem_append_left _ (vars_of_reads hr h.2)
  | augAssign t v =>
    rw [looked_old rfl (fun _ _ h => by cases h) (fun _ _ _ _ h => by cases h) (fun _ _ _ _ h => by cases h)]
    exact List.mem_append_left _ (vars_of_reads hr h)
  | cond c b o =>
    rw [looked_else (s := .cond c b o) (hasS_false h.1) (fun _ h => by cases h)]
    exact vars_of_reads hr h.2
  | «while» c b o =>
    rw [looked_else (s := .while c b o) (hasS_false h.1) (fun _ h => by cases h)]
    exact List.mem_append_left _ (List.mem_append_left _ (vars_of_reads hr h.2))
  | «with» items b =>
    rw [looked_old rfl (fun _ _ h => by cases h) (fun _ _ _ _ h => by cases h) (fun _ _ _ _ h => by cases h), edgesS, vars_edgesI]
    obtain ⟨e, t, hm, hr⟩ := reads_contexts.1 hr
    obtain ⟨ht, hl⟩ := h e t hm
    obtain ⟨t, rfl⟩ := Option.ne_none_iff_exists'.1 ht
    exact ⟨e, t, hm, vars_of_reads hr hl⟩
  | asyncWith items b =>
    rw [looked_old rfl (fun _ _ h => by cases h) (fun _ _ _ _ h => by cases h) (fun _ _ _ _ h => by cases h), edgesS, List.flatMap_append, List.mem_append,
      vars_edgesI]
    obtain ⟨e, t, hm, hr⟩ := reads_contexts.1 hr
    obtain ⟨ht, hl⟩ := h e t hm
    obtain ⟨t, rfl⟩ := Option.ne_none_iff_exists'.1 ht
    exact .inl ⟨e, t, hm, vars_of_reads hr hl⟩
  | funDef y d ann decs b =>
    rw [looked_old rfl (fun _ _ h => by cases h) (fun _ _ _ _ h => by cases h) (fun _ _ _ _ h => by cases h)]
    refine List.mem_append_left _ ?_
    cases hr with
    | left hr => exact List.mem_append_left _ (vars_of_reads hr h.2.1)
    | right hr =>
      cases hr with
      | left hr => exact absurd hr (h.1 x)
      | right hr => exact List.mem_append_right _ (vars_of_reads hr h.2.2)
  | classDef y bases kws decs b =>
    rw [looked_old rfl (fun _ _ h => by cases h) (fun _ _ _ _ h => by cases h) (fun _ _ _ _ h => by cases h)]
    refine List.mem_append_left _ ?_
    cases hr with
    | left hr => exact List.mem_append_left _ (vars_of_reads hr h.2.1)
    | right hr =>
      cases hr with
      | left hr => exact absurd hr (h.1 x)
      | right hr => exact List.mem_append_right _ (vars_of_reads hr h.2.2)
  | «try» b hs o f =>
    rw [looked_else (s := .try b hs o f) (hasS_false h.1) (fun _ h => by cases h)]
    exact List.mem_append_left _ (List.mem_append_left _ (List.mem_append_right _ (vars_heads h.2 hr)))
  | «match» e cs =>
    rw [looked_else (s := .match e cs) (hasS_false h.1) (fun _ h => by cases h)]
    cases hr with
    | left hr => exact List.mem_append_left _ (vars_of_reads hr h.2.1)
    | right hr => exact List.mem_append_right _ (vars_cases h.2.2 hr)
  | expr e =>
    have hc : containsLval (.expr e : S X N) = false := by
      rw [show containsLval (.expr e : S X N) = hasE e from rfl]
      cases hh : hasE e with
      | false => rfl
      | true =>
        obtain ⟨n, y, v, ho⟩ := hasE_iff.1 hh
        exact absurd ho (h.1 n y v)
    rw [looked_else hc (fun _ h => by cases h)]
    exact vars_of_reads hr h.2

/-- **C101** Nothing else is recorded as used. `Reserved` excludes the statements for which this is false: see `Verif.Bind.Witness`. -/
theorem only_reads_recorded_partial {s : S X N} (h : Reserved s) {x : X} (hx : x ∈ looked s) : Reads (rhs s) x := by
  cases s with
  | done => exact h.elim
  | seq a b => exact h.elim
  | handler e y b => exact h.elim
  | case p xs g b => exact h.elim
  | other => simp [looked, containsLval, hasS, varsS] at hx
  | imp as =>
    rw [looked_old rfl (fun _ _ h => by cases h) (fun _ _ _ _ h => by cases h) (fun _ _ _ _ h => by cases h),
      Idle.edges (s := .imp as) trivial (fun hw => by have := hw.has; simp [hasS] at this)] at hx
    cases hx
  | del ts =>
    have hc : containsLval (.del ts : S X N) = false := by
      rw [show containsLval (.del ts : S X N) = hasT ts from rfl, hasT_eq]
      cases hh : hasE (inner ts) with
      | false => rfl
      | true =>
        obtain ⟨n, y, v, ho⟩ := hasE_iff.1 hh
        exact absurd ho (h n y v)
    rw [looked, hc] at hx
    cases hx
  | assign ts v => exact reads_of_vars hx
  | loop t i b o => exact reads_of_vars hx
  | asyncLoop t i b o => exact reads_of_vars hx
  | annAssign t ann v =>
    rw [looked_old rfl (fun _ _ h => by cases h) (fun _ _ _ _ h => by cases h) (fun _ _ _ _ h => by cases h)] at hx
    cases v with
    | none => simp [edgesS, varsEdge] at hx
    | some v =>
      rw [edgesS, List.flatMap_cons, List.mem_append] at hx
      rcases hx with hx | hx
      · exact .right (reads_of_vars hx)
      · exact .right (reads_of_edges h hx)
  | augAssign t v =>
    rw [looked_old rfl (fun _ _ h => by cases h) (fun _ _ _ _ h => by cases h) (fun _ _ _ _ h => by cases h), edgesS, List.flatMap_cons,
      List.mem_append] at hx
    rcases hx with hx | hx
    · exact reads_of_vars hx
    · exact reads_of_edges h hx
  | cond c b o =>
    cases hc : containsLval (.cond c b o : S X N) with
    | true =>
      rw [looked_old hc (fun _ _ h => by cases h) (fun _ _ _ _ h => by cases h) (fun _ _ _ _ h => by cases h)] at hx
      exact reads_of_edges h hx
    | false =>
      rw [looked_else hc (fun _ h => by cases h)] at hx
      exact reads_of_vars hx
  | «while» c b o =>
    obtain ⟨h1, h2, h3, h4, h5⟩ := h
    cases hc : containsLval (.while c b o : S X N) with
    | true =>
      rw [looked_old hc (fun _ _ h => by cases h) (fun _ _ _ _ h => by cases h) (fun _ _ _ _ h => by cases h), edgesS, List.flatMap_append,
        List.flatMap_append, h2.edges h4, h3.edges h5, List.append_nil, List.append_nil] at hx
      exact reads_of_edges h1 hx
    | false =>
      rw [looked_else hc (fun _ h => by cases h), varsS, h2.vars, h3.vars, List.append_nil, List.append_nil] at hx
      exact reads_of_vars hx
  | «with» items b =>
    rw [looked_old rfl (fun _ _ h => by cases h) (fun _ _ _ _ h => by cases h) (fun _ _ _ _ h => by cases h), edgesS, vars_edgesI] at hx
    obtain ⟨e, t, hm, hx⟩ := hx
    exact reads_contexts.2 ⟨e, _, hm, reads_of_vars hx⟩
  | asyncWith items b =>
    rw [looked_old rfl (fun _ _ h => by cases h) (fun _ _ _ _ h => by cases h) (fun _ _ _ _ h => by cases h), edgesS, List.flatMap_append,
      h.1.edges h.2, List.append_nil, vars_edgesI] at hx
    obtain ⟨e, t, hm, hx⟩ := hx
    exact reads_contexts.2 ⟨e, _, hm, reads_of_vars hx⟩
  | funDef y d ann decs b =>
    rw [looked_old rfl (fun _ _ h => by cases h) (fun _ _ _ _ h => by cases h) (fun _ _ _ _ h => by cases h), edgesS, List.flatMap_cons,
      List.flatMap_append, List.mem_append, List.mem_append] at hx
    rcases hx with hx | hx | hx
    · rcases List.mem_append.1 hx with hx | hx
      · exact .left (reads_of_vars hx)
      · exact .right (.right (reads_of_vars hx))
    · exact .left (reads_of_edges h.1 hx)
    · exact .right (.right (reads_of_edges h.2 hx))
  | classDef y bases kws decs b =>
    rw [looked_old rfl (fun _ _ h => by cases h) (fun _ _ _ _ h => by cases h) (fun _ _ _ _ h => by cases h), edgesS, List.flatMap_cons,
      List.flatMap_append, List.mem_append, List.mem_append] at hx
    rcases hx with hx | hx | hx
    · rcases List.mem_append.1 hx with hx | hx
      · exact .left (reads_of_vars hx)
      · exact .right (.right (reads_of_vars hx))
    · exact .left (reads_of_edges h.1 hx)
    · exact .right (.right (reads_of_edges h.2 hx))
  | «try» b hs o f =>
    obtain ⟨h1, h2, h3, h4, h5⟩ := h
    rw [looked_else (s := .try b hs o f) (hasS_false h1) (fun _ h => by cases h), varsS, h2.vars, h3.vars, h4.vars, List.append_nil, List.append_nil, List.nil_append] at hx
    exact heads_of_handlers h5 hx
  | «match» e cs =>
    obtain ⟨h1, h2⟩ := h
    rw [looked_else (s := .match e cs) (hasS_false h1) (fun _ h => by cases h), varsS, List.mem_append] at hx
    rcases hx with hx | hx
    · exact .left (reads_of_vars hx)
    · exact .right (heads_of_cases h2 hx)
  | expr e =>
    cases hc : containsLval (.expr e : S X N) with
    | true =>
      rw [looked_old hc (fun _ _ h => by cases h) (fun _ _ _ _ h => by cases h) (fun _ _ _ _ h => by cases h)] at hx
      exact reads_of_edges h hx
    | false =>
      rw [looked_else hc (fun _ h => by cases h)] at hx
      exact reads_of_vars hx

end Verif.Bind
