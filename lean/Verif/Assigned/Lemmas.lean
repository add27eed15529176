import Verif.Assigned.Spec

/-!
# What the analysis finds, form by form
-/

namespace Verif.Assigned

theorem mem_kill (e : Expr) (x : Nat) : x ∈ kill e ↔ Occurs e x := by
  induction e with
  | nil => simp [kill, Occurs]
  | name y => simp [kill, Occurs]
  | chain y => simp [kill, Occurs]
  | walrus y e ih => simp [kill, Occurs, ih]
  | lam d ih => simp [kill, Occurs, ih]
  | both a b iha ihb => simp [kill, Occurs, iha, ihb]

theorem mem_finish (dead seen new : List Nat) (x : Nat) :
    x ∈ finish dead seen new ↔ x ∈ dead ∨ (x ∈ new ∧ x ∉ seen) := by
  unfold finish
  simp only [List.mem_append, List.mem_filter, decide_eq_true_eq]
  constructor
  · rintro (h | ⟨h, _, h'⟩)
    · exact .inl h
    · exact .inr ⟨h, h'⟩
  · rintro (h | ⟨h, h'⟩)
    · exact .inl h
    · by_cases hd : x ∈ dead
      · exact .inl hd
      · exact .inr ⟨h, hd, h'⟩

/-- What a visit of an expression does for one variable. -/
theorem visitE_iff (keep : Bool) (e : Expr) (x : Nat) : ∀ dead,
    (x ∈ (visitE keep e dead).2 ↔ x ∈ dead ∨ RecE e x) ∧
    (x ∈ (visitE keep e dead).1 → Alone e x) ∧
    (Alone e x → x ∉ (visitE keep e dead).2 → x ∈ (visitE keep e dead).1) := by
  induction e with
  | nil => intro dead; simp [visitE, RecE, Alone]
  | name y =>
    intro dead
    refine ⟨by simp [visitE, RecE], ?_, ?_⟩
    · intro h
      simp only [visitE] at h
      by_cases hd : y ∈ dead ∧ keep = false
      · rw [if_pos hd] at h; cases h
      · rw [if_neg hd] at h; simpa [Alone] using h
    · intro h h'
      simp only [Alone] at h
      subst h
      simp only [visitE] at h' ⊢
      rw [if_neg (fun hd => h' hd.1)]
      simp
  | chain y => intro dead; simp [visitE, RecE, Alone]
  | walrus y e ih =>
    intro dead
    obtain ⟨h1, h2, h3⟩ := ih dead
    have key : x ∈ (visitE keep (.walrus y e) dead).2 ↔ x ∈ dead ∨ RecE (.walrus y e) x := by
      simp only [visitE, mem_finish, h1, RecE, List.mem_singleton]
      constructor
      · rintro ((h | h) | ⟨h, h'⟩)
        · exact .inl h
        · exact .inr (.inr h)
        · by_cases hd : x ∈ (visitE keep e dead).2
          · rcases h1.1 hd with q | q
            · exact .inl q
            · exact .inr (.inr q)
          · exact .inr (.inl ⟨h, fun q => h' (h3 q hd)⟩)
      · rintro (h | ⟨h, h'⟩ | h)
        · exact .inl (.inl h)
        · exact .inr ⟨h, fun q => h' (h2 q)⟩
        · exact .inl (.inr h)
    refine ⟨key, fun h => h2 h, fun h h' => h3 h fun q => h' ?_⟩
    simp only [visitE, mem_finish]
    exact .inl q
  | lam d _ => intro dead; simp [visitE, RecE, Alone, mem_kill]
  | both a b iha ihb =>
    intro dead
    obtain ⟨a1, a2, a3⟩ := iha dead
    obtain ⟨b1, b2, b3⟩ := ihb (visitE keep a dead).2
    refine ⟨?_, ?_, ?_⟩
    · simp only [visitE, b1, a1, RecE, or_assoc]
    · intro h
      simp only [visitE, List.mem_append] at h
      exact h.imp a2 b2
    · intro h h'
      simp only [visitE, List.mem_append] at h' ⊢
      rcases h with h | h
      · exact .inl (a3 h fun q => h' (b1.2 (.inl q)))
      · exact .inr (b3 h h')

theorem target_iff (keep : Bool) (t : Target) (x : Nat) : ∀ dead,
    x ∈ (target keep t dead).2 ↔ x ∈ dead ∨ RecT t x := by
  induction t with
  | name y => intro dead; simp [target, RecT, or_comm]
  | attr b a lost => intro dead; cases lost <;> simp [target, RecT, or_comm]
  | sub b i => intro dead; exact (visitE_iff keep i x dead).1
  | two t u iht ihu => intro dead; simp only [target, ihu, iht, RecT, or_assoc]

theorem targets_iff (keep : Bool) (ts : List Target) (x : Nat) : ∀ dead,
    x ∈ (targets keep ts dead).2 ↔ x ∈ dead ∨ ∃ t ∈ ts, RecT t x := by
  induction ts with
  | nil => intro dead; simp [targets]
  | cons t ts ih => intro dead; simp [targets, ih, target_iff, or_assoc]

theorem bases_rec (ts : List Target) (x : Nat) :
    RecE (bases ts) x ↔ ∃ t ∈ ts, InBase RecE t x := by
  induction ts with
  | nil => simp [bases, RecE]
  | cons t ts ih => cases t <;> simp [bases, base, RecE, ih, InBase]

theorem bases_alone (ts : List Target) (x : Nat) :
    Alone (bases ts) x ↔ ∃ t ∈ ts, InBase Alone t x := by
  induction ts with
  | nil => simp [bases, Alone]
  | cons t ts ih => cases t <;> simp [bases, base, Alone, ih, InBase]

theorem assign_iff (keep : Bool) (ts : List Target) (e : Expr) (x : Nat) (s : S) :
    x ∈ (assign keep ts e s).dead ↔ x ∈ s.dead ∨ RecA ts e x := by
  obtain ⟨h1, h2, h3⟩ := visitE_iff keep (.both e (bases ts)) x s.dead
  have e1 : RecE (.both e (bases ts)) x ↔ RecE e x ∨ ∃ t ∈ ts, InBase RecE t x := by
    rw [RecE, bases_rec]
  have e2 : Alone (.both e (bases ts)) x ↔ Alone e x ∨ ∃ t ∈ ts, InBase Alone t x := by
    rw [Alone, bases_alone]
  rw [e1] at h1
  rw [e2] at h2 h3
  simp only [assign, mem_finish, targets_iff]
  unfold RecA
  constructor
  · rintro (h | ⟨h, h'⟩)
    · rcases h1.1 h with q | q | q
      · exact .inl q
      · exact .inr (.inl q)
      · exact .inr (.inr (.inl q))
    · by_cases hd : x ∈ (visitE keep (.both e (bases ts)) s.dead).2
      · rcases h1.1 hd with q | q | q
        · exact .inl q
        · exact .inr (.inl q)
        · exact .inr (.inr (.inl q))
      · refine .inr (.inr (.inr ⟨h.resolve_left hd, ?_, ?_⟩))
        · exact fun q => h' (h3 (.inl q) hd)
        · exact fun t ht q => h' (h3 (.inr ⟨t, ht, q⟩) hd)
  · rintro (h | h | h | ⟨h, h', h''⟩)
    · exact .inl (h1.2 (.inl h))
    · exact .inl (h1.2 (.inr (.inl h)))
    · exact .inl (h1.2 (.inr (.inr h)))
    · refine .inr ⟨.inr h, fun q => ?_⟩
      rcases h2 q with q | ⟨t, ht, q⟩
      · exact h' q
      · exact h'' t ht q

theorem chained_alone (b : Expr) (x : Nat) : ¬ Alone (chained b) x := by
  induction b with
  | nil => simp [chained, Alone]
  | name y => simp [chained, Alone]
  | chain y => simp [chained, Alone]
  | walrus y e ih => simpa [chained, Alone] using ih
  | lam d _ => simp [chained, Alone]
  | both a b iha ihb => simp [chained, Alone, iha, ihb]

theorem chained_rec (b : Expr) (x : Nat) : RecE (chained b) x ↔ RecB b x := by
  induction b with
  | nil => simp [chained, RecE, RecB]
  | name y => simp [chained, RecE, RecB]
  | chain y => simp [chained, RecE, RecB]
  | walrus y e ih => simp [chained, RecE, RecB, ih, chained_alone]
  | lam d _ => simp [chained, RecE, RecB]
  | both a b iha ihb => simp [chained, RecE, RecB, iha, ihb]

theorem load_iff (t : Target) (x : Nat) : RecAug t x ↔ Alone (load t) x ∨ RecE (load t) x := by
  cases t with
  | name y => simp [RecAug, load, Alone, RecE]
  | attr b a lost => simp [RecAug, load, chained_alone, chained_rec]
  | sub b i =>
    simp only [RecAug, load, Alone, RecE, chained_rec]
    constructor
    · rintro (h | h | h)
      · exact .inr (.inl h)
      · exact .inl (.inr h)
      · exact .inr (.inr h)
    · rintro ((h | h) | h | h)
      · exact absurd h (chained_alone b x)
      · exact .inr (.inl h)
      · exact .inl h
      · exact .inr (.inr h)
  | two t u => simp [RecAug, load, Alone, RecE]

theorem killT_iff (t : Target) (x : Nat) : x ∈ killT t ↔ RecFor t x := by
  induction t with
  | name y => simp [killT, RecFor]
  | attr b a lost => simp [killT, RecFor, mem_kill]
  | sub b i => simp [killT, RecFor, mem_kill]
  | two t u iht ihu => simp [killT, RecFor, iht, ihu]

theorem importNames_iff (ns : List Alias) (x : Nat) : x ∈ importNames ns ↔ Alias.plain x ∈ ns := by
  induction ns with
  | nil => simp [importNames]
  | cons n ns ih => cases n <;> simp [importNames, ih]

/-- The variable is taken to be assigned. -/
def Tot (x : Nat) (s : S) : Prop := x ∈ s.dead ∨ x ∈ s.modified

theorem eval_tot (keep : Bool) (e : Expr) (x : Nat) (s : S) :
    Tot x (eval keep e s) ↔ Tot x s ∨ RecE e x := by
  unfold Tot eval
  dsimp only
  rw [(visitE_iff keep e x s.dead).1]
  constructor
  · rintro ((h | h) | h)
    · exact .inl (.inl h)
    · exact .inr h
    · exact .inl (.inr h)
  · rintro ((h | h) | h)
    · exact .inl (.inl h)
    · exact .inr h
    · exact .inl (.inr h)

theorem eval_dead (keep : Bool) (e : Expr) (x : Nat) (s : S) :
    x ∈ (eval keep e s).dead ↔ x ∈ s.dead ∨ RecE e x := (visitE_iff keep e x s.dead).1

theorem assign_tot (keep : Bool) (ts : List Target) (e : Expr) (x : Nat) (s : S) :
    Tot x (assign keep ts e s) ↔ Tot x s ∨ RecA ts e x := by
  have h := assign_iff keep ts e x s
  have hm : (assign keep ts e s).modified = s.modified := rfl
  unfold Tot
  rw [h, hm]
  constructor
  · rintro ((h | h) | h)
    · exact .inl (.inl h)
    · exact .inr h
    · exact .inl (.inr h)
  · rintro ((h | h) | h)
    · exact .inl (.inl h)
    · exact .inr h
    · exact .inl (.inr h)

theorem augment_tot (keep : Bool) (t : Target) (e : Expr) (x : Nat) (s : S) :
    Tot x (augment keep t e s) ↔ Tot x s ∨ RecAug t x ∨ RecE e x := by
  obtain ⟨h1, h2, h3⟩ := visitE_iff keep (load t) x s.dead
  obtain ⟨q1, _, _⟩ := visitE_iff keep e x (visitE keep (load t) s.dead).2
  unfold Tot augment
  dsimp only
  rw [q1, h1, List.mem_append, load_iff]
  constructor
  · rintro (((h | h) | h) | h | h)
    · exact .inl (.inl h)
    · exact .inr (.inl (.inr h))
    · exact .inr (.inr h)
    · exact .inl (.inr h)
    · exact .inr (.inl (.inl (h2 h)))
  · rintro ((h | h) | (h | h) | h)
    · exact .inl (.inl (.inl h))
    · exact .inr (.inl h)
    · by_cases hd : x ∈ (visitE keep (load t) s.dead).2
      · exact .inl (.inl (h1.1 hd))
      · exact .inr (.inr (h3 h hd))
    · exact .inl (.inl (.inr h))
    · exact .inl (.inr h)

theorem join_tot (x : Nat) (s a b : S) (d : Prop) (ra rb : Prop)
    (ha : Tot x a ↔ x ∈ s.modified ∨ d ∨ ra) (hb : Tot x b ↔ x ∈ a.modified ∨ rb) :
    Tot x (join s a b) ↔ Tot x s ∨ d ∨ ra ∨ rb := by
  unfold Tot at ha hb ⊢
  simp only [join, List.mem_append, List.mem_filter, decide_eq_true_eq]
  constructor
  · rintro ((h | ⟨h, _⟩) | (h | h) | h)
    · exact .inl (.inl h)
    · rcases ha.1 (.inl h) with q | q | q
      · exact .inl (.inr q)
      · exact .inr (.inl q)
      · exact .inr (.inr (.inl q))
    · rcases hb.1 (.inr h) with q | q
      · rcases ha.1 (.inr q) with q | q | q
        · exact .inl (.inr q)
        · exact .inr (.inl q)
        · exact .inr (.inr (.inl q))
      · exact .inr (.inr (.inr q))
    · rcases ha.1 (.inl h) with q | q | q
      · exact .inl (.inr q)
      · exact .inr (.inl q)
      · exact .inr (.inr (.inl q))
    · rcases hb.1 (.inl h) with q | q
      · rcases ha.1 (.inr q) with q | q | q
        · exact .inl (.inr q)
        · exact .inr (.inl q)
        · exact .inr (.inr (.inl q))
      · exact .inr (.inr (.inr q))
  · have mv : ∀ (q : x ∈ a.dead ∨ x ∈ a.modified), (x ∈ s.dead ∨ x ∈ a.dead ∧ x ∈ b.dead) ∨
        (x ∈ b.modified ∨ x ∈ a.dead) ∨ x ∈ b.dead := by
      rintro (q | q)
      · exact .inr (.inl (.inr q))
      · rcases hb.2 (.inl q) with q | q
        · exact .inr (.inr q)
        · exact .inr (.inl (.inl q))
    rintro ((h | h) | h | h | h)
    · exact .inl (.inl h)
    · exact mv (ha.2 (.inl h))
    · exact mv (ha.2 (.inr (.inl h)))
    · exact mv (ha.2 (.inr (.inr h)))
    · rcases hb.2 (.inr h) with q | q
      · exact .inr (.inr q)
      · exact .inr (.inl (.inl q))

theorem visit_tot (keep : Bool) (t : Stmt) (x : Nat) : ∀ s,
    Tot x (visit keep t s) ↔ Tot x s ∨ Recognised t x := by
  induction t with
  | skip => intro s; simp [visit, Recognised]
  | seq a b iha ihb => intro s; simp only [visit, ihb, iha, Recognised, or_assoc]
  | expr e => intro s; exact eval_tot keep e x s
  | assign ts e => intro s; exact assign_tot keep ts e x s
  | aug t e => intro s; exact augment_tot keep t e x s
  | ann t e => intro s; exact assign_tot keep [t] e x s
  | annOnly t => intro s; exact assign_tot keep [t] .nil x s
  | imp ns =>
    intro s
    simp only [visit, Recognised, Tot, mem_finish, importNames_iff]
    constructor
    · rintro ((h | ⟨h, _⟩) | h)
      · exact .inl (.inl h)
      · exact .inr h
      · exact .inl (.inr h)
    · rintro ((h | h) | h)
      · exact .inl (.inl h)
      · exact .inr h
      · exact .inl (.inr ⟨h, by simp⟩)
  | ite e a b iha ihb =>
    intro s
    simp only [visit, Recognised]
    rw [join_tot x _ _ _ False (Recognised a x) (Recognised b x), eval_tot]
    · simp [or_assoc]
    · rw [iha]; simp [Tot]
    · rw [ihb]; simp [Tot]
  | whil e a b iha ihb =>
    intro s
    simp only [visit, Recognised]
    rw [join_tot x _ _ _ False (Recognised a x) (Recognised b x), eval_tot]
    · simp [or_assoc]
    · rw [iha]; simp [Tot]
    · rw [ihb]; simp [Tot]
  | forr t e a b iha ihb =>
    intro s
    simp only [visit, Recognised]
    rw [join_tot x _ _ _ (RecFor t x) (Recognised a x) (Recognised b x), eval_tot]
    · simp [or_assoc]
    · rw [iha]; simp only [Tot, killT_iff]
      constructor
      · rintro ((h | h) | h)
        · exact .inr (.inl h)
        · exact .inl h
        · exact .inr (.inr h)
      · rintro (h | h | h)
        · exact .inl (.inr h)
        · exact .inl (.inl h)
        · exact .inr h
    · rw [ihb]; simp [Tot]
  | withs e t a iha =>
    intro s
    simp only [visit, Recognised, iha]
    have h := eval_tot keep e x s
    unfold Tot at h ⊢
    have ht : x ∈ (t.map killT).getD [] ↔ ∃ u, t = some u ∧ RecFor u x := by
      cases t with
      | none => simp
      | some u => simp [killT_iff]
    simp only [List.mem_append, ht]
    constructor
    · rintro (((q | q) | q) | q)
      · exact (h.1 (.inl q)).imp id .inl
      · exact .inr (.inr (.inl q))
      · exact (h.1 (.inr q)).imp id .inl
      · exact .inr (.inr (.inr q))
    · rintro (q | q | q | q)
      · exact (h.2 (.inl q)).elim (fun q => .inl (.inl (.inl q))) fun q => .inl (.inr q)
      · exact (h.2 (.inr q)).elim (fun q => .inl (.inl (.inl q))) fun q => .inl (.inr q)
      · exact .inl (.inl (.inr q))
      · exact .inr q
  | tryy a h o f iha ihh iho ihf =>
    intro s; simp only [visit, ihf, iho, ihh, iha, Recognised, or_assoc]
  | defn f e =>
    intro s
    have h := eval_tot keep e x s
    unfold Tot at h ⊢
    simp only [visit, Recognised, List.mem_cons]
    rw [or_assoc, h, or_left_comm]
  | cls y e =>
    intro s
    have h := eval_tot keep e x s
    unfold Tot at h ⊢
    simp only [visit, Recognised, List.mem_cons]
    rw [or_assoc, h, or_left_comm]
  | del y => intro s; simp [visit, Recognised]

end Verif.Assigned
