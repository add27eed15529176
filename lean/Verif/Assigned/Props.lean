import Verif.Assigned.Lemmas

/-!
# C166 and C167: the variables a text is found to assign, and links after edits
-/

namespace Verif.Assigned

/-- Exactly these variables are found to be assigned, in both ways of analysing texts. -/
theorem found_iff (keep : Bool) (s : Stmt) (x : Nat) : x ∈ found keep s ↔ Recognised s x := by
  have h := visit_tot keep s x ⟨[], [], []⟩
  unfold Tot at h
  simp only [List.not_mem_nil, or_self, false_or] at h
  rw [← h]
  simp only [found, analyse, List.mem_append, or_comm]

theorem alone_occurs (e : Expr) (x : Nat) (h : Alone e x) : Occurs e x := by
  induction e with
  | nil => cases h
  | name y => exact h
  | chain y => cases h
  | walrus y e ih => exact .inr (ih h)
  | lam d _ => cases h
  | both a b iha ihb => exact h.imp iha ihb

theorem writesE_occurs (e : Expr) (x : Nat) (h : WritesE e x) : Occurs e x := by
  induction e with
  | nil => cases h
  | name y => cases h
  | chain y => cases h
  | walrus y e ih => exact h.imp id ih
  | lam d ih => exact ih h
  | both a b iha ihb => exact h.imp iha ihb

theorem recE_occurs (e : Expr) (x : Nat) (h : RecE e x) : Occurs e x := by
  induction e with
  | nil => cases h
  | name y => cases h
  | chain y => cases h
  | walrus y e ih =>
    rcases h with h | h
    · exact .inl h.1
    · exact .inr (ih h)
  | lam d _ => exact h
  | both a b iha ihb => exact h.imp iha ihb

theorem recB_occurs (e : Expr) (x : Nat) (h : RecB e x) : Occurs e x := by
  induction e with
  | nil => cases h
  | name y => cases h
  | chain y => cases h
  | walrus y e ih => exact h.imp id ih
  | lam d _ => exact h
  | both a b iha ihb => exact h.imp iha ihb

theorem ordE_iff (e : Expr) (x : Nat) (h : OrdE e x) : RecE e x ↔ WritesE e x := by
  induction e with
  | nil => exact Iff.rfl
  | name y => exact Iff.rfl
  | chain y => exact Iff.rfl
  | walrus y e ih =>
    simp only [RecE, WritesE, ih h.2]
    constructor
    · rintro (q | q)
      · exact .inl q.1
      · exact .inr q
    · rintro (q | q)
      · exact .inl ⟨q, h.1 q⟩
      · exact .inr q
  | lam d _ =>
    exact ⟨fun q => absurd q h, fun q => absurd (writesE_occurs d x q) h⟩
  | both a b iha ihb => simp only [RecE, WritesE, iha h.1, ihb h.2]

theorem ordT_iff (t : Target) (x : Nat) (h : OrdT t x) :
    (RecT t x ↔ WritesT t x) ∧ (RecFor t x ↔ WritesT t x) ∧ ¬ InBase RecE t x ∧
      ¬ InBase Alone t x := by
  induction t with
  | name y => exact ⟨Iff.rfl, Iff.rfl, id, id⟩
  | attr b a lost =>
    refine ⟨⟨fun q => absurd q.2 (h.2 q.1), fun q => absurd (writesE_occurs b x q) h.1⟩,
      ⟨fun q => absurd q h.1, fun q => absurd (writesE_occurs b x q) h.1⟩,
      fun q => h.1 (recE_occurs b x q), fun q => h.1 (alone_occurs b x q)⟩
  | sub b i =>
    have hw : ¬ (WritesE b x ∨ WritesE i x) := fun q => q.elim (fun q => h.1 (writesE_occurs b x q))
      fun q => h.2 (writesE_occurs i x q)
    refine ⟨⟨fun q => absurd (recE_occurs i x q) h.2, fun q => absurd q hw⟩,
      ⟨fun q => (q.elim h.1 h.2).elim, fun q => absurd q hw⟩,
      fun q => h.1 (recE_occurs b x q), fun q => h.1 (alone_occurs b x q)⟩
  | two t u iht ihu =>
    obtain ⟨a1, a2, _, _⟩ := iht h.1
    obtain ⟨b1, b2, _, _⟩ := ihu h.2
    exact ⟨by simp only [RecT, WritesT, a1, b1], by simp only [RecFor, WritesT, a2, b2], id, id⟩

theorem ordA_iff (ts : List Target) (e : Expr) (x : Nat) (he : OrdE e x) (ht : ∀ t ∈ ts, OrdT t x)
    (ha : (∃ t ∈ ts, WritesT t x) → ¬ Alone e x) :
    RecA ts e x ↔ WritesE e x ∨ ∃ t ∈ ts, WritesT t x := by
  unfold RecA
  rw [ordE_iff e x he]
  constructor
  · rintro (q | ⟨t, h, q⟩ | ⟨⟨t, h, q⟩, _⟩)
    · exact .inl q
    · exact absurd q (ordT_iff t x (ht t h)).2.2.1
    · exact .inr ⟨t, h, (ordT_iff t x (ht t h)).1.1 q⟩
  · rintro (q | ⟨t, h, q⟩)
    · exact .inl q
    · exact .inr (.inr ⟨⟨t, h, (ordT_iff t x (ht t h)).1.2 q⟩, ha ⟨t, h, q⟩,
        fun u hu => (ordT_iff u x (ht u hu)).2.2.2⟩)

theorem ordinary_iff (s : Stmt) (x : Nat) (h : Ordinary s x) : Recognised s x ↔ Writes s x := by
  induction s with
  | skip => exact Iff.rfl
  | seq a b iha ihb => simp only [Recognised, Writes, iha h.1, ihb h.2]
  | expr e => exact ordE_iff e x h
  | assign ts e => exact ordA_iff ts e x h.1 h.2.1 h.2.2
  | aug t e =>
    simp only [Recognised, Writes, ordE_iff e x h.1]
    have hk : RecAug t x ↔ WritesT t x := by
      have ht := h.2.1
      cases t with
      | name y => exact Iff.rfl
      | attr b a lost =>
        exact ⟨fun q => absurd (recB_occurs b x q) ht.1, fun q => absurd (writesE_occurs b x q) ht.1⟩
      | sub b i =>
        constructor
        · rintro (q | q | q)
          · exact absurd (recB_occurs b x q) ht.1
          · exact absurd (alone_occurs i x q) ht.2
          · exact absurd (recE_occurs i x q) ht.2
        · rintro (q | q)
          · exact absurd (writesE_occurs b x q) ht.1
          · exact absurd (writesE_occurs i x q) ht.2
      | two u v => exact absurd rfl (h.2.2 u v)
    rw [hk]
  | ann t e =>
    have k := ordA_iff [t] e x h.1 (by simpa using h.2.1) (by simpa using h.2.2)
    simpa [Recognised, Writes] using k
  | annOnly t =>
    have k := ordA_iff [t] .nil x trivial (by simpa using h.1) (by simp [Alone])
    have k' : Recognised (.annOnly t) x ↔ WritesT t x := by
      simpa [Recognised, WritesE] using k
    rw [k']
    cases t with
    | name y => exact ⟨fun q => absurd (congrArg Target.name (show x = y from q)).symm h.2.1, False.elim⟩
    | attr b a lost => exact Iff.rfl
    | sub b i => exact Iff.rfl
    | two u v => exact absurd rfl (h.2.2 u v)
  | imp ns =>
    simp only [Recognised, Writes]
    constructor
    · exact fun q => ⟨_, q, rfl⟩
    · rintro ⟨n, hn, q⟩
      cases n with
      | plain y => rw [show x = y from q]; exact hn
      | dotted a => rw [show x = a from q] at h; exact absurd hn h.1
      | star xs => exact absurd q (h.2 xs hn)
  | ite e a b iha ihb => simp only [Recognised, Writes, ordE_iff e x h.1, iha h.2.1, ihb h.2.2]
  | whil e a b iha ihb => simp only [Recognised, Writes, ordE_iff e x h.1, iha h.2.1, ihb h.2.2]
  | forr t e a b iha ihb =>
    simp only [Recognised, Writes, ordE_iff e x h.1, (ordT_iff t x h.2.1).2.1, iha h.2.2.1,
      ihb h.2.2.2]
  | withs e t a iha =>
    have k : (∃ u, t = some u ∧ RecFor u x) ↔ ∃ u, t = some u ∧ WritesT u x :=
      ⟨fun ⟨u, hu, q⟩ => ⟨u, hu, (ordT_iff u x (h.2.1 u hu)).2.1.1 q⟩,
       fun ⟨u, hu, q⟩ => ⟨u, hu, (ordT_iff u x (h.2.1 u hu)).2.1.2 q⟩⟩
    simp only [Recognised, Writes, ordE_iff e x h.1, k, iha h.2.2]
  | tryy a c o f iha ihc iho ihf =>
    simp only [Recognised, Writes, iha h.1, ihc h.2.1, iho h.2.2.1, ihf h.2.2.2]
  | defn f e => simp only [Recognised, Writes, ordE_iff e x h]
  | cls y e => simp only [Recognised, Writes, ordE_iff e x h]
  | del y => exact Iff.rfl

/-- The claim for texts without the forms that the analysis gets wrong. -/
theorem found_partial (keep : Bool) (s : Stmt) (x : Nat) (h : Ordinary s x) :
    x ∈ found keep s ↔ Writes s x := (found_iff keep s x).trans (ordinary_iff s x h)

/-- `x = …` with `x` alone in the value, as in `df = clean(df)`, is never found. -/
theorem own_value_missed (keep : Bool) (x : Nat) (e : Expr) (ha : Alone e x) (hr : ¬ RecE e x) :
    x ∉ found keep (.assign [.name x] e) ∧ Writes (.assign [.name x] e) x := by
  constructor
  · rw [found_iff]
    rintro (q | ⟨t, ht, q⟩ | ⟨_, q, _⟩)
    · exact hr q
    · rw [List.mem_singleton] at ht; subst ht; exact q
    · exact q ha
  · exact .inr ⟨_, List.mem_singleton.2 rfl, rfl⟩

/-- `import x.y` and the names of `from m import *` are never found. -/
theorem imports_missed (keep : Bool) (ns : List Alias) (n : Alias) (x : Nat) (hn : n ∈ ns)
    (hb : Binds n x) (hp : Alias.plain x ∉ ns) :
    x ∉ found keep (.imp ns) ∧ Writes (.imp ns) x := by
  refine ⟨fun q => hp ((found_iff keep (.imp ns) x).1 q), ⟨n, hn, hb⟩⟩

/-- `d[k] += …`: the variables in the index are found, though only the element of `d` changes. -/
theorem index_found (keep : Bool) (b i e : Expr) (x : Nat) (hi : Alone i x)
    (hb : ¬ WritesE b x) (hi' : ¬ WritesE i x) (he : ¬ WritesE e x) :
    x ∈ found keep (.aug (.sub b i) e) ∧ ¬ Writes (.aug (.sub b i) e) x := by
  refine ⟨(found_iff keep _ x).2 (.inl (.inr (.inl hi))), ?_⟩
  rintro ((q | q) | q)
  · exact hb q
  · exact hi' q
  · exact he q

/-- `x: T` without a value is found. -/
theorem annotation_found (keep : Bool) (x : Nat) :
    x ∈ found keep (.annOnly (.name x)) ∧ ¬ Writes (.annOnly (.name x)) x := by
  refine ⟨(found_iff keep _ x).2 (.inr (.inr ⟨⟨.name x, List.mem_singleton.2 rfl, rfl⟩, id, ?_⟩)), id⟩
  intro t ht q
  rw [List.mem_singleton] at ht
  subst ht
  exact q

/-- Variables in the defaults of a lambda are found. -/
theorem default_found (keep : Bool) (d : Expr) (x : Nat) (hd : Occurs d x) (hw : ¬ WritesE d x) :
    x ∈ found keep (.expr (.lam d)) ∧ ¬ Writes (.expr (.lam d)) x :=
  ⟨(found_iff keep _ x).2 hd, hw⟩

/-- `for d[k] in …` and `for o.a in …`: the variables in the target are found. -/
theorem loop_target_found (keep : Bool) (t : Target) (e : Expr) (a b : Stmt) (x : Nat)
    (ht : (∃ o n l, t = .attr o n l ∧ Occurs o x) ∨ ∃ o i, t = .sub o i ∧ (Occurs o x ∨ Occurs i x))
    (hw : ¬ WritesT t x) (he : ¬ WritesE e x) (ha : ¬ Writes a x) (hb : ¬ Writes b x) :
    x ∈ found keep (.forr t e a b) ∧ ¬ Writes (.forr t e a b) x := by
  refine ⟨(found_iff keep _ x).2 (.inr (.inl ?_)), ?_⟩
  · rcases ht with ⟨o, n, l, rfl, q⟩ | ⟨o, i, rfl, q⟩
    · exact q
    · exact q
  · rintro (q | q | q | q)
    · exact he q
    · exact hw q
    · exact ha q
    · exact hb q

/-- `(p if c else q).x = …`: the name of the attribute is found as a variable. -/
theorem attribute_found (keep : Bool) (b e : Expr) (x : Nat) (hb : ¬ Occurs b x) (he : ¬ Occurs e x) :
    x ∈ found keep (.assign [.attr b x true] e) ∧ ¬ Writes (.assign [.attr b x true] e) x := by
  refine ⟨(found_iff keep _ x).2 (.inr (.inr ⟨⟨_, List.mem_singleton.2 rfl, rfl, rfl⟩,
    fun q => he (alone_occurs e x q), ?_⟩)), ?_⟩
  · intro t ht q
    rw [List.mem_singleton] at ht
    subst ht
    exact hb (alone_occurs b x q)
  · rintro (q | ⟨t, ht, q⟩)
    · exact he (writesE_occurs e x q)
    · rw [List.mem_singleton] at ht
      subst ht
      exact hb (writesE_occurs b x q)

/-- The full claim does not hold. -/
theorem found_claim_false : ¬ FoundClaim := fun h =>
  (annotation_found false 0).2 ((h false _ 0).1 (annotation_found false 0).1)

theorem isStatic_iff (w : Write) : isStatic w.outer w.stmt w.var = true ↔ Plainly w := by
  obtain ⟨x, s, o⟩ := w
  have d1 : ∀ ts e, x ∈ (analyse false (.assign ts e)).1 ↔ RecA ts e x := by
    intro ts e
    have h := assign_iff false ts e x ⟨[], [], []⟩
    simp only [List.not_mem_nil, false_or] at h
    exact h
  have d2 : ∀ f e, x ∈ (analyse false (.defn f e)).1 ↔ x = f ∨ RecE e x := by
    intro f e
    have h := eval_dead false e x ⟨[], [], []⟩
    simp only [List.not_mem_nil, false_or] at h
    simp only [analyse, visit, List.mem_cons, h]
  have d3 : ∀ f e, x ∈ (analyse false (.cls f e)).1 ↔ x = f ∨ RecE e x := by
    intro f e
    have h := eval_dead false e x ⟨[], [], []⟩
    simp only [List.not_mem_nil, false_or] at h
    simp only [analyse, visit, List.mem_cons, h]
  have d4 : ∀ ns y, Alias.plain y ∈ ns → y ∈ (analyse false (.imp ns)).1 := by
    intro ns y hy
    simp only [analyse, visit, mem_finish, importNames_iff]
    exact .inr ⟨hy, List.not_mem_nil⟩
  unfold isStatic Plainly
  cases s with
  | assign ts e => simp only [Bool.and_eq_true, List.contains_iff_mem, d1]
  | defn f e => simp only [Bool.and_eq_true, List.contains_iff_mem, d2]
  | cls f e => simp only [Bool.and_eq_true, List.contains_iff_mem, d3]
  | imp ns =>
    simp only [Bool.and_eq_true, List.all_eq_true]
    refine and_congr_right fun _ => ⟨fun h n hn => ?_, fun h n hn => ?_⟩
    · have := h n hn
      cases n with
      | plain y => exact ⟨y, rfl⟩
      | dotted a => cases this
      | star xs => cases this
    · obtain ⟨y, rfl⟩ := h n hn
      simpa using d4 ns y hn
  | _ => simp

theorem fold_kinds (x : Nat) (run : List Write) : ∀ k : Kinds, (k.static = true → k.dynamic = false) →
    ((run.foldl (write x) k).static = true ↔
      (k.static = true ∨ Makes run x) ∧ k.dynamic = false ∧ ∀ w ∈ run, w.var = x → Plainly w) := by
  induction run with
  | nil =>
    intro k hk
    simp only [List.foldl_nil, Makes, List.not_mem_nil, false_and, exists_false, or_false,
      false_implies, implies_true, and_true]
    exact ⟨fun h => ⟨h, hk h⟩, fun h => h.1⟩
  | cons w run ih =>
    intro k hk
    rw [List.foldl_cons]
    by_cases hv : w.var = x
    · subst hv
      by_cases hs : (isStatic w.outer w.stmt w.var && !k.dynamic) = true
      · have e : write w.var k w = { k with static := true } := by
          unfold write; rw [if_pos rfl, if_pos hs]
        rw [Bool.and_eq_true, isStatic_iff, Bool.not_eq_true'] at hs
        rw [e, ih { k with static := true } (fun _ => hs.2)]
        constructor
        · rintro ⟨_, h2, h3⟩
          refine ⟨.inr ⟨w, List.mem_cons_self, rfl⟩, h2, fun v hv q => ?_⟩
          rcases List.mem_cons.1 hv with rfl | hv
          · exact hs.1
          · exact h3 v hv q
        · rintro ⟨_, h2, h3⟩
          exact ⟨.inl rfl, h2, fun v hv => h3 v (List.mem_cons_of_mem _ hv)⟩
      · have e : write w.var k w = ⟨false, true⟩ := by
          unfold write; rw [if_pos rfl, if_neg hs]
        rw [e, ih ⟨false, true⟩ (fun h => by cases h)]
        constructor
        · rintro ⟨_, h2, _⟩
          cases h2
        · rintro ⟨_, h2, h3⟩
          refine absurd ?_ hs
          rw [Bool.and_eq_true, isStatic_iff, h2]
          exact ⟨h3 w List.mem_cons_self rfl, rfl⟩
    · have e : write x k w = k := by unfold write; rw [if_neg hv]
      rw [e, ih k hk]
      have m : Makes (w :: run) x ↔ Makes run x := by
        unfold Makes
        constructor
        · rintro ⟨v, h, q⟩
          rcases List.mem_cons.1 h with rfl | h
          · exact absurd q hv
          · exact ⟨v, h, q⟩
        · rintro ⟨v, h, q⟩
          exact ⟨v, List.mem_cons_of_mem _ h, q⟩
      rw [m]
      refine and_congr_right fun _ => and_congr_right fun _ => ⟨fun h v hm q => ?_, fun h v hm => ?_⟩
      · rcases List.mem_cons.1 hm with rfl | hm
        · exact absurd q hv
        · exact h v hm q
      · exact h v (List.mem_cons_of_mem _ hm)

/-- A variable counts as assigned by the text of the cell exactly if the run assigned it, by plain
statements only. -/
theorem statically_iff (x : Nat) (run : List Write) :
    statically x run = true ↔ Makes run x ∧ ∀ w ∈ run, w.var = x → Plainly w := by
  have h := fold_kinds x run ⟨false, false⟩ (fun h => by cases h)
  simpa [statically] using h

/-- When a link is shown after an edit. -/
theorem shown_iff (keep : Bool) (run : List Write) (text : Stmt) (x : Nat) (hm : Makes run x) :
    shown keep run text x = true ↔ Recognised text x ∨ ∃ w ∈ run, w.var = x ∧ ¬ Plainly w := by
  have hs := statically_iff x run
  have hf := found_iff keep text x
  unfold shown
  rw [← hf]
  by_cases hp : ∀ w ∈ run, w.var = x → Plainly w
  · have e : statically x run = true := hs.2 ⟨hm, hp⟩
    rw [e]
    simp only [Bool.true_and, Bool.not_not, List.contains_iff_mem]
    exact ⟨.inl, fun q => q.elim id fun ⟨w, hw, hv, q⟩ => absurd (hp w hw hv) q⟩
  · have e : statically x run = false := by
      rw [Bool.eq_false_iff]
      exact fun q => hp (hs.1 q).2
    rw [e]
    refine ⟨fun _ => .inr ?_, fun _ => by simp⟩
    refine Classical.byContradiction fun hn => hp fun w hw hv => ?_
    exact Classical.byContradiction fun hq => hn ⟨w, hw, hv, hq⟩

/-- The claim, if the run assigned the variable by plain statements only and the new text has none of
the forms that the analysis gets wrong. -/
theorem link_partial (keep : Bool) (run : List Write) (text : Stmt) (x : Nat) (hm : Makes run x)
    (hp : ∀ w ∈ run, w.var = x → Plainly w) (ho : Ordinary text x) :
    shown keep run text x = true ↔ Writes text x := by
  rw [shown_iff keep run text x hm, ordinary_iff text x ho]
  exact ⟨fun q => q.elim id fun ⟨w, hw, hv, q⟩ => absurd (hp w hw hv) q, .inl⟩

/-- A link because of a variable assigned in another way stays after every edit. -/
theorem link_stays (keep : Bool) (run : List Write) (text : Stmt) (x : Nat) (w : Write) (hw : w ∈ run)
    (hv : w.var = x) (hp : ¬ Plainly w) : shown keep run text x = true :=
  (shown_iff keep run text x ⟨w, hw, hv⟩).2 (.inr ⟨w, hw, hv, hp⟩)

/-- So it is with loops, `with`, augmented and annotated assignments, and everything inside other
statements. -/
theorem other_forms_stay (keep : Bool) (run : List Write) (text : Stmt) (x : Nat) (w : Write)
    (hw : w ∈ run) (hv : w.var = x)
    (hf : w.outer = false ∨ (∃ t e, w.stmt = .aug t e) ∨ (∃ t e, w.stmt = .ann t e) ∨
      (∃ t e a b, w.stmt = .forr t e a b) ∨ (∃ e t a, w.stmt = .withs e t a) ∨
      ∃ ns a, w.stmt = .imp ns ∧ Alias.dotted a ∈ ns) : shown keep run text x = true := by
  refine link_stays keep run text x w hw hv fun hp => ?_
  obtain ⟨ho, hp⟩ := hp
  rcases hf with q | ⟨t, e, q⟩ | ⟨t, e, q⟩ | ⟨t, e, a, b, q⟩ | ⟨e, t, a, q⟩ | ⟨ns, a, q, ha⟩
  · rw [q] at ho; cases ho
  · rw [q] at hp; exact hp
  · rw [q] at hp; exact hp
  · rw [q] at hp; exact hp
  · rw [q] at hp; exact hp
  · rw [q] at hp
    obtain ⟨y, hy⟩ := hp _ ha
    cases hy

/-- If the assignment is edited so that the old value is used, as in `df = clean(df)`, the link goes,
though the text still assigns the variable. -/
theorem link_goes (keep : Bool) (run : List Write) (x : Nat) (e : Expr) (hm : Makes run x)
    (hp : ∀ w ∈ run, w.var = x → Plainly w) (ha : Alone e x) (hr : ¬ RecE e x) :
    shown keep run (.assign [.name x] e) x = false ∧ Writes (.assign [.name x] e) x := by
  obtain ⟨h1, h2⟩ := own_value_missed keep x e ha hr
  refine ⟨?_, h2⟩
  rw [Bool.eq_false_iff]
  intro q
  rcases (shown_iff keep run _ x hm).1 q with q | ⟨w, hw, hv, q⟩
  · exact h1 ((found_iff keep _ x).2 q)
  · exact q (hp w hw hv)

/-- The full claim does not hold. -/
theorem link_claim_false : ¬ LinkClaim := fun h => by
  have k := h false [⟨0, .aug (.name 0) .nil, true⟩] .skip 0 ⟨_, List.mem_singleton.2 rfl, rfl⟩
    (by intro w hw; rw [List.mem_singleton] at hw; subst hw; exact .inl rfl)
  exact k.1 rfl

end Verif.Assigned
