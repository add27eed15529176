import Mathlib.Data.List.Induction
import Verif.React.Spec

/-! # Lemmas about marked assignments and reads -/

namespace Verif.React

open Verif.Assoc Verif.Ref Spec

variable {K : Type} [DecidableEq K]

set_option linter.unusedSectionVars false

/-! ## The symbols of a target -/

/-- The place of a symbol in a chain. -/
def At (before : Path K) (t : List (K × Marks)) (q : Path K) (mk : Marks) (post : List (K × Marks)) : Prop :=
  ∃ pre k, t = pre ++ (k, mk) :: post ∧ q = before ++ names pre ++ [k]

theorem at_nil {before q : Path K} {mk : Marks} {post : List (K × Marks)} : ¬ At before [] q mk post := by
  rintro ⟨pre, k, h, -⟩
  cases pre <;> simp at h

theorem at_cons {before q : Path K} {k : K} {m mk : Marks} {rest post : List (K × Marks)} :
    At before ((k, m) :: rest) q mk post ↔ (q = before ++ [k] ∧ mk = m ∧ post = rest) ∨ At (before ++ [k]) rest q mk post := by
  constructor
  · rintro ⟨pre, k', h, hq⟩
    cases pre with
    | nil =>
      simp only [List.nil_append, List.cons.injEq, Prod.mk.injEq] at h
      obtain ⟨⟨rfl, rfl⟩, rfl⟩ := h
      exact .inl ⟨by simpa [names] using hq, rfl, rfl⟩
    | cons e pre =>
      simp only [List.cons_append, List.cons.injEq] at h
      obtain ⟨rfl, rfl⟩ := h
      exact .inr ⟨pre, k', rfl, by simpa [names] using hq⟩
  · rintro (⟨rfl, rfl, rfl⟩ | ⟨pre, k', rfl, rfl⟩)
    · exact ⟨[], k, rfl, by simp [names]⟩
    · exact ⟨(k, m) :: pre, k', rfl, by simp [names]⟩

/-- The mark counts. -/
def lit (m : Marks) : Bool := m.reactive || m.cascading

/-- The loop, from the right. -/
def markR (s : St K) (before : Path K) : List (K × Marks) → St K × Vars
  | [] => (s, {})
  | (k, m) :: rest => mark (markR s (before ++ [k]) rest).1 (markR s (before ++ [k]) rest).2 (before ++ [k]) m

theorem markAll_eq (s : St K) (before : Path K) (t : List (K × Marks)) :
    markAll (s, {}) (symbols before t).reverse = markR s before t := by
  unfold markAll
  rw [List.foldl_reverse]
  induction t generalizing before with
  | nil => rfl
  | cons e t ih =>
    obtain ⟨k, m⟩ := e
    simp only [symbols, List.foldr_cons, markR, ih]

theorem store_eq (prev : Nat) (s : St K) (a : Store K) : store prev s a = (markR (update s prev a) [] a.target).1 := by
  unfold store
  rw [markAll_eq]

/-! ## What the loop does -/

section mark
variable (s : St K) (v : Vars) (p : Path K) (m : Marks)

theorem mark_fixed : (mark s v p m).1.ctr = s.ctr ∧ (mark s v p m).1.own = s.own ∧ (mark s v p m).1.below = s.below ∧
    (mark s v p m).1.done = s.done ∧ (mark s v p m).1.now = s.now ∧ (mark s v p m).1.minCasc = s.minCasc := by
  obtain ⟨r, c, b⟩ := m
  obtain ⟨vr, vb⟩ := v
  cases r <;> cases c <;> cases b <;> cases vr <;> cases vb <;> simp [mark, bump] <;> split <;> simp

theorem mark_blockingVar : (mark s v p m).2.blocking = (v.blocking || m.blocking) := rfl

theorem mark_reactiveVar : (mark s v p m).2.reactive = (v.reactive || (lit m && !(v.blocking || m.blocking))) := by
  obtain ⟨r, c, b⟩ := m
  obtain ⟨vr, vb⟩ := v
  cases r <;> cases c <;> cases b <;> cases vr <;> cases vb <;> rfl

theorem mark_updDeepLast (q : Path K) : (mark s v p m).1.updDeepLast q =
    (s.updDeepLast q || (decide (q = p) && (m.reactive && !m.cascading && !(v.blocking || m.blocking)))) := by
  obtain ⟨r, c, b⟩ := m
  obtain ⟨vr, vb⟩ := v
  by_cases hq : q = p <;> cases r <;> cases c <;> cases b <;> cases vr <;> cases vb <;> simp [mark, bump, hq] <;> split <;> simp

theorem mark_updDeep (q : Path K) : (mark s v p m).1.updDeep q =
    (s.updDeep q || (decide (q = p) && (m.cascading && !(v.blocking || m.blocking)))) := by
  obtain ⟨r, c, b⟩ := m
  obtain ⟨vr, vb⟩ := v
  by_cases hq : q = p <;> cases r <;> cases c <;> cases b <;> cases vr <;> cases vb <;> simp [mark, bump, hq] <;> split <;> simp

theorem mark_updLast (q : Path K) : (mark s v p m).1.updLast q =
    (s.updLast q || (decide (q = p) && (!m.cascading && (v.reactive || lit m) && !(v.blocking || m.blocking)))) := by
  obtain ⟨r, c, b⟩ := m
  obtain ⟨vr, vb⟩ := v
  by_cases hq : q = p <;> cases r <;> cases c <;> cases b <;> cases vr <;> cases vb <;> simp [mark, bump, lit, hq] <;> split <;> simp

theorem mark_upd (q : Path K) : (mark s v p m).1.upd q =
    (s.upd q || (decide (q = p) && (m.cascading && !(v.blocking || m.blocking)))) := by
  obtain ⟨r, c, b⟩ := m
  obtain ⟨vr, vb⟩ := v
  by_cases hq : q = p <;> cases r <;> cases c <;> cases b <;> cases vr <;> cases vb <;> simp [mark, bump, hq] <;> split <;> simp

theorem mark_blocked (q : Path K) : (mark s v p m).1.blocked q =
    if (v.blocking || m.blocking) = true ∧ s.done p = false ∧ q = p then s.ctr else s.blocked q := by
  obtain ⟨r, c, b⟩ := m
  obtain ⟨vr, vb⟩ := v
  by_cases hq : q = p <;> cases hd : s.done p <;> cases r <;> cases c <;> cases b <;> cases vr <;> cases vb <;> simp [mark, bump, hq, hd]

theorem mark_casc : (mark s v p m).1.casc =
    if (m.cascading && !(v.blocking || m.blocking)) = true then set s.casc p (max ((get s.casc p).getD 0) s.ctr) else s.casc := by
  obtain ⟨r, c, b⟩ := m
  obtain ⟨vr, vb⟩ := v
  cases r <;> cases c <;> cases b <;> cases vr <;> cases vb <;> simp [mark, bump] <;> split <;> simp

end mark

theorem open_cons {e : K × Marks} {l : List (K × Marks)} : Open (e :: l) ↔ e.2.blocking = false ∧ Open l := by
  simp [Open]

theorem open_append {l l' : List (K × Marks)} : Open (l ++ l') ↔ Open l ∧ Open l' := by
  constructor
  · intro h
    exact ⟨fun e he => h e (List.mem_append_left _ he), fun e he => h e (List.mem_append_right _ he)⟩
  · rintro ⟨h1, h2⟩ e he
    rcases List.mem_append.mp he with he | he
    · exact h1 e he
    · exact h2 e he

section markR
variable (s : St K)

theorem markR_fixed (t : List (K × Marks)) : ∀ before : Path K,
    (markR s before t).1.ctr = s.ctr ∧ (markR s before t).1.own = s.own ∧ (markR s before t).1.below = s.below ∧
    (markR s before t).1.done = s.done ∧ (markR s before t).1.now = s.now ∧ (markR s before t).1.minCasc = s.minCasc := by
  induction t with
  | nil => intro before; simp [markR]
  | cons e t ih =>
    intro before
    obtain ⟨k, m⟩ := e
    obtain ⟨h1, h2, h3, h4, h5, h6⟩ := ih (before ++ [k])
    obtain ⟨g1, g2, g3, g4, g5, g6⟩ := mark_fixed (markR s (before ++ [k]) t).1 (markR s (before ++ [k]) t).2 (before ++ [k]) m
    simp only [markR]
    exact ⟨g1.trans h1, g2.trans h2, g3.trans h3, g4.trans h4, g5.trans h5, g6.trans h6⟩

theorem markR_blockingVar (t : List (K × Marks)) : ∀ before : Path K, (markR s before t).2.blocking = false ↔ Open t := by
  induction t with
  | nil => intro before; simp [markR, Open]
  | cons e t ih =>
    intro before
    obtain ⟨k, m⟩ := e
    simp only [markR, mark_blockingVar, open_cons, Bool.or_eq_false_iff, ih]
    tauto

theorem markR_reactiveVar (t : List (K × Marks)) : ∀ before : Path K,
    (markR s before t).2.reactive = true ↔ ∃ q mk post, At before t q mk post ∧ lit mk = true ∧ mk.blocking = false ∧ Open post := by
  induction t with
  | nil => intro before; simp [markR, at_nil]
  | cons e t ih =>
    intro before
    obtain ⟨k, m⟩ := e
    simp only [markR, mark_reactiveVar, Bool.or_eq_true, ih, Bool.and_eq_true, Bool.not_eq_true', Bool.or_eq_false_iff, markR_blockingVar, at_cons]
    constructor
    · rintro (⟨q, mk, post, h⟩ | ⟨h1, h2, h3⟩)
      · exact ⟨q, mk, post, .inr h.1, h.2⟩
      · exact ⟨_, m, t, .inl ⟨rfl, rfl, rfl⟩, h1, h3, h2⟩
    · rintro ⟨q, mk, post, h | h, h'⟩
      · obtain ⟨rfl, rfl, rfl⟩ := h
        exact .inr ⟨h'.1, h'.2.2, h'.2.1⟩
      · exact .inl ⟨q, mk, post, h, h'⟩

theorem markR_updDeepLast (t : List (K × Marks)) (q : Path K) : ∀ before : Path K,
    (markR s before t).1.updDeepLast q = true ↔ s.updDeepLast q = true ∨
      ∃ mk post, At before t q mk post ∧ mk.reactive = true ∧ mk.cascading = false ∧ mk.blocking = false ∧ Open post := by
  induction t with
  | nil => intro before; simp [markR, at_nil]
  | cons e t ih =>
    intro before
    obtain ⟨k, m⟩ := e
    simp only [markR, mark_updDeepLast, Bool.or_eq_true, ih, Bool.and_eq_true, Bool.not_eq_true', Bool.or_eq_false_iff, markR_blockingVar, at_cons,
      decide_eq_true_eq]
    constructor
    · rintro ((h | ⟨mk, post, h⟩) | ⟨h0, h1, h2, h3⟩)
      · exact .inl h
      · exact .inr ⟨mk, post, .inr h.1, h.2⟩
      · exact .inr ⟨m, t, .inl ⟨h0, rfl, rfl⟩, h1.1, h1.2, h3, h2⟩
    · rintro (h | ⟨mk, post, h | h, h'⟩)
      · exact .inl (.inl h)
      · obtain ⟨rfl, rfl, rfl⟩ := h
        exact .inr ⟨rfl, ⟨h'.1, h'.2.1⟩, h'.2.2.2, h'.2.2.1⟩
      · exact .inl (.inr ⟨mk, post, h, h'⟩)

theorem markR_updDeep (t : List (K × Marks)) (q : Path K) : ∀ before : Path K,
    (markR s before t).1.updDeep q = true ↔ s.updDeep q = true ∨
      ∃ mk post, At before t q mk post ∧ mk.cascading = true ∧ mk.blocking = false ∧ Open post := by
  induction t with
  | nil => intro before; simp [markR, at_nil]
  | cons e t ih =>
    intro before
    obtain ⟨k, m⟩ := e
    simp only [markR, mark_updDeep, Bool.or_eq_true, ih, Bool.and_eq_true, Bool.not_eq_true', Bool.or_eq_false_iff, markR_blockingVar, at_cons,
      decide_eq_true_eq]
    constructor
    · rintro ((h | ⟨mk, post, h⟩) | ⟨h0, h1, h2, h3⟩)
      · exact .inl h
      · exact .inr ⟨mk, post, .inr h.1, h.2⟩
      · exact .inr ⟨m, t, .inl ⟨h0, rfl, rfl⟩, h1, h3, h2⟩
    · rintro (h | ⟨mk, post, h | h, h'⟩)
      · exact .inl (.inl h)
      · obtain ⟨rfl, rfl, rfl⟩ := h
        exact .inr ⟨rfl, h'.1, h'.2.2, h'.2.1⟩
      · exact .inl (.inr ⟨mk, post, h, h'⟩)

theorem markR_upd (t : List (K × Marks)) (q : Path K) : ∀ before : Path K,
    (markR s before t).1.upd q = true ↔ s.upd q = true ∨
      ∃ mk post, At before t q mk post ∧ mk.cascading = true ∧ mk.blocking = false ∧ Open post := by
  induction t with
  | nil => intro before; simp [markR, at_nil]
  | cons e t ih =>
    intro before
    obtain ⟨k, m⟩ := e
    simp only [markR, mark_upd, Bool.or_eq_true, ih, Bool.and_eq_true, Bool.not_eq_true', Bool.or_eq_false_iff, markR_blockingVar, at_cons,
      decide_eq_true_eq]
    constructor
    · rintro ((h | ⟨mk, post, h⟩) | ⟨h0, h1, h2, h3⟩)
      · exact .inl h
      · exact .inr ⟨mk, post, .inr h.1, h.2⟩
      · exact .inr ⟨m, t, .inl ⟨h0, rfl, rfl⟩, h1, h3, h2⟩
    · rintro (h | ⟨mk, post, h | h, h'⟩)
      · exact .inl (.inl h)
      · obtain ⟨rfl, rfl, rfl⟩ := h
        exact .inr ⟨rfl, h'.1, h'.2.2, h'.2.1⟩
      · exact .inl (.inr ⟨mk, post, h, h'⟩)

/-- A mark that counts, here or to the right. -/
def LitFrom (mk : Marks) (post : List (K × Marks)) : Prop :=
  lit mk = true ∨ ∃ e ∈ post, lit e.2 = true

theorem litFrom_iff {before : Path K} {m : Marks} {t : List (K × Marks)} (ho : Open t) :
    (∃ q mk post, At before t q mk post ∧ lit mk = true ∧ mk.blocking = false ∧ Open post) ∨ lit m = true ↔ LitFrom m t := by
  constructor
  · rintro (⟨q, mk, post, ⟨pre, k, rfl, -⟩, h, -⟩ | h)
    · exact .inr ⟨(k, mk), by simp, h⟩
    · exact .inl h
  · rintro (h | ⟨e, he, h⟩)
    · exact .inr h
    · obtain ⟨pre, post, rfl⟩ := List.append_of_mem he
      obtain ⟨-, ho⟩ := open_append.mp ho
      obtain ⟨h1, h2⟩ := open_cons.mp ho
      exact .inl ⟨_, e.2, post, ⟨pre, e.1, rfl, rfl⟩, h, h1, h2⟩

theorem markR_updLast (t : List (K × Marks)) (q : Path K) : ∀ before : Path K,
    (markR s before t).1.updLast q = true ↔ s.updLast q = true ∨
      ∃ mk post, At before t q mk post ∧ mk.cascading = false ∧ LitFrom mk post ∧ mk.blocking = false ∧ Open post := by
  induction t with
  | nil => intro before; simp [markR, at_nil]
  | cons e t ih =>
    intro before
    obtain ⟨k, m⟩ := e
    simp only [markR, mark_updLast, Bool.or_eq_true, ih, Bool.and_eq_true, Bool.not_eq_true', Bool.or_eq_false_iff, markR_blockingVar,
      markR_reactiveVar, at_cons, decide_eq_true_eq]
    constructor
    · rintro ((h | ⟨mk, post, h⟩) | ⟨h0, ⟨h1, h1'⟩, h2, h3⟩)
      · exact .inl h
      · exact .inr ⟨mk, post, .inr h.1, h.2⟩
      · exact .inr ⟨m, t, .inl ⟨h0, rfl, rfl⟩, h1, (litFrom_iff h2).mp h1', h3, h2⟩
    · rintro (h | ⟨mk, post, h | h, h'⟩)
      · exact .inl (.inl h)
      · obtain ⟨rfl, rfl, rfl⟩ := h
        exact .inr ⟨rfl, ⟨h'.1, (litFrom_iff h'.2.2.2).mpr h'.2.1⟩, h'.2.2.2, h'.2.2.1⟩
      · exact .inl (.inr ⟨mk, post, h, h'⟩)

theorem markR_blocked_open (t : List (K × Marks)) (ho : Open t) : ∀ before : Path K, (markR s before t).1.blocked = s.blocked := by
  induction t with
  | nil => intro before; rfl
  | cons e t ih =>
    intro before
    obtain ⟨k, m⟩ := e
    obtain ⟨h1, h2⟩ := open_cons.mp ho
    funext q
    have hv : (markR s (before ++ [k]) t).2.blocking = false := (markR_blockingVar s t _).mpr h2
    simp only [markR, mark_blocked]
    rw [if_neg (by rw [hv]; simpa using fun h => absurd h (by simp [show m.blocking = false from h1])), ih h2]

theorem markR_blocked_le (t : List (K × Marks)) (h : ∀ q, s.blocked q ≤ s.ctr) : ∀ (before q : Path K), (markR s before t).1.blocked q ≤ s.ctr := by
  induction t with
  | nil => intro before; exact h
  | cons e t ih =>
    intro before q
    obtain ⟨k, m⟩ := e
    simp only [markR, mark_blocked]
    split
    · exact Nat.le_of_eq (markR_fixed s t _).1
    · exact ih _ q

theorem markR_blocked_root {k : K} {m : Marks} {t : List (K × Marks)} (hb : ¬ Open ((k, m) :: t)) (hd : s.done [k] = false) :
    (markR s [] ((k, m) :: t)).1.blocked [k] = s.ctr := by
  obtain ⟨h1, -, -, h4, -⟩ := markR_fixed s t ([] ++ [k])
  have hv : ((markR s ([] ++ [k]) t).2.blocking || m.blocking) = true := by
    rw [open_cons] at hb
    by_cases hm : m.blocking = true
    · simp [hm]
    · have : ¬ Open t := fun h => hb ⟨by simpa using hm, h⟩
      rw [← markR_blockingVar s t ([] ++ [k])] at this
      simpa [hm] using this
  simp only [markR, mark_blocked]
  rw [if_pos ⟨hv, by rw [h4]; exact hd, rfl⟩, h1]

end markR

/-! ## Cascading numbers -/

theorem foldl_max_gt {α : Type} (f : α → Nat) (l : List α) (m c : Nat) : l.foldl (fun m e => max m (f e)) m > c ↔ m > c ∨ ∃ e ∈ l, f e > c := by
  induction l generalizing m with
  | nil => simp
  | cons e l ih =>
    rw [List.foldl_cons, ih]
    simp only [List.mem_cons, exists_eq_or_imp, ← or_assoc]
    have : max m (f e) > c ↔ m > c ∨ f e > c := by omega
    rw [this]

theorem cascNum_gt (s : St K) (p : Path K) (c : Nat) : cascNum s p > c ↔ ∃ e ∈ s.casc, e.1.head? = p.head? ∧ e.2 > c := by
  unfold cascNum
  rw [foldl_max_gt]
  simp only [List.mem_filter, decide_eq_true_eq]
  constructor
  · rintro (h | ⟨e, ⟨h1, h2⟩, h3⟩)
    · exact absurd h (Nat.not_lt_zero _)
    · exact ⟨e, h1, h2, h3⟩
  · rintro ⟨e, h1, h2, h3⟩; exact .inr ⟨e, ⟨h1, h2⟩, h3⟩

theorem mem_set {l : List (Path K × Nat)} {p : Path K} {n : Nat} {e : Path K × Nat} (h : e ∈ set l p n) : e = (p, n) ∨ e ∈ l := by
  induction l with
  | nil => simp only [Assoc.set, List.mem_singleton] at h; exact .inl h
  | cons x l ih =>
    obtain ⟨k, v⟩ := x
    simp only [Assoc.set] at h
    split at h
    next hk =>
      rcases List.mem_cons.mp h with h | h
      · exact .inl (hk ▸ h)
      · exact .inr (List.mem_cons_of_mem _ h)
    · rcases List.mem_cons.mp h with h | h
      · exact .inr (h ▸ List.mem_cons_self)
      · rcases ih h with h | h
        · exact .inl h
        · exact .inr (List.mem_cons_of_mem _ h)

/-- All numbers are of executions so far. -/
structure Bounded (s : St K) : Prop where
  own : ∀ p, s.own p ≤ s.ctr
  below : ∀ p, s.below p ≤ s.ctr
  blocked : ∀ p, s.blocked p ≤ s.ctr
  casc : ∀ e ∈ s.casc, e.2 ≤ s.ctr
  minCasc : s.minCasc ≤ s.ctr

theorem bump_casc_le {s : St K} (h : ∀ e ∈ s.casc, e.2 ≤ s.ctr) (p : Path K) : ∀ e ∈ (bump s p).casc, e.2 ≤ s.ctr := by
  intro e he
  rcases mem_set he with rfl | he
  · show max _ _ ≤ _
    cases hg : get s.casc p with
    | none => simp
    | some n => have := h _ (mem_of_get hg); simp only [Option.getD_some]; omega
  · exact h e he

theorem markR_casc_le {s : St K} (h : ∀ e ∈ s.casc, e.2 ≤ s.ctr) (t : List (K × Marks)) :
    ∀ before : Path K, ∀ e ∈ (markR s before t).1.casc, e.2 ≤ s.ctr := by
  induction t with
  | nil => intro before; exact h
  | cons x t ih =>
    intro before e he
    obtain ⟨k, m⟩ := x
    simp only [markR, mark_casc] at he
    have hc := (markR_fixed s t (before ++ [k])).1
    split at he
    · have := bump_casc_le (s := (markR s (before ++ [k]) t).1) (by rw [hc]; exact ih _) (before ++ [k]) e he
      rwa [hc] at this
    · exact ih _ e he

/-! ## The fields after an assignment -/

theorem clear_fixed (s : St K) (a : Store K) : (clear s a).ctr = s.ctr ∧ (clear s a).own = s.own ∧ (clear s a).below = s.below ∧
    (clear s a).done = s.done ∧ (clear s a).now = s.now ∧ (clear s a).minCasc = s.minCasc ∧ (clear s a).blocked = s.blocked ∧
    (clear s a).updLast = s.updLast ∧ (clear s a).updDeepLast = s.updDeepLast := by
  unfold clear; split <;> simp [forget]

/-- The number is raised. -/
def hot (s : St K) (prev : Nat) (a : Store K) : Bool := a.rval || (a.deps.filter (· ≠ a.path)).any (cascAt (clear s a) prev)

theorem update_eq (s : St K) (prev : Nat) (a : Store K) :
    update s prev a = touch (if hot s prev a then bump (clear s a) a.path else clear s a) a.path := rfl

theorem update_fixed (s : St K) (prev : Nat) (a : Store K) : (update s prev a).ctr = s.ctr ∧
    (∀ p, (update s prev a).own p = if a.path <+: p then s.ctr else s.own p) ∧
    (∀ p, (update s prev a).below p = if p <+: a.path ∧ p ≠ a.path then s.ctr else s.below p) ∧
    (update s prev a).done = s.done ∧ (update s prev a).minCasc = s.minCasc ∧ (update s prev a).blocked = s.blocked ∧
    (update s prev a).updLast = s.updLast ∧ (update s prev a).updDeepLast = s.updDeepLast ∧
    (update s prev a).upd = (clear s a).upd ∧ (update s prev a).updDeep = (clear s a).updDeep ∧
    (update s prev a).casc = if hot s prev a then (bump (clear s a) a.path).casc else (clear s a).casc := by
  obtain ⟨h1, h2, h3, h4, h5, h6, h7, h8, h9⟩ := clear_fixed s a
  rw [update_eq]
  cases hot s prev a <;> simp [touch, bump, h1, h2, h3, h4, h5, h6, h7, h8, h9]

theorem clear_casc_le {s : St K} (h : ∀ e ∈ s.casc, e.2 ≤ s.ctr) (a : Store K) : ∀ e ∈ (clear s a).casc, e.2 ≤ s.ctr := by
  unfold clear
  split
  · intro e he
    rcases mem_set he with rfl | he
    · exact Nat.zero_le _
    · exact h e he
  · exact h

theorem update_casc_le {s : St K} (h : ∀ e ∈ s.casc, e.2 ≤ s.ctr) (prev : Nat) (a : Store K) : ∀ e ∈ (update s prev a).casc, e.2 ≤ s.ctr := by
  have hc := (clear_fixed s a).1
  rw [(update_fixed s prev a).2.2.2.2.2.2.2.2.2.2]
  split
  · have := bump_casc_le (s := clear s a) (by rw [hc]; exact clear_casc_le h a) a.path
    rwa [hc] at this
  · exact clear_casc_le h a

/-- What an assignment does to the timestamps and the like. -/
theorem store_fixed (s : St K) (prev : Nat) (a : Store K) : (store prev s a).ctr = s.ctr ∧
    (∀ p, (store prev s a).own p = if a.path <+: p then s.ctr else s.own p) ∧
    (∀ p, (store prev s a).below p = if p <+: a.path ∧ p ≠ a.path then s.ctr else s.below p) ∧
    (store prev s a).done = s.done ∧ (store prev s a).minCasc = s.minCasc := by
  obtain ⟨h1, h2, h3, h4, h5, -⟩ := update_fixed s prev a
  obtain ⟨g1, g2, g3, g4, -, g6⟩ := markR_fixed (update s prev a) a.target []
  rw [store_eq]
  refine ⟨g1.trans h1, fun p => ?_, fun p => ?_, g4.trans h4, g6.trans h5⟩
  · rw [g2]; exact h2 p
  · rw [g3]; exact h3 p

theorem store_bounded {s : St K} (h : Bounded s) (prev : Nat) (a : Store K) : Bounded (store prev s a) := by
  obtain ⟨h1, h2, h3, -, h5⟩ := store_fixed s prev a
  refine ⟨fun p => ?_, fun p => ?_, fun p => ?_, fun e he => ?_, ?_⟩
  · rw [h1, h2]; split
    · exact Nat.le_refl _
    · exact h.own p
  · rw [h1, h3]; split
    · exact Nat.le_refl _
    · exact h.below p
  · rw [h1, store_eq]
    have hu := update_fixed s prev a
    have := markR_blocked_le (update s prev a) a.target (by rw [hu.2.2.2.2.2.1, hu.1]; exact h.blocked) [] p
    rwa [hu.1] at this
  · rw [h1]
    rw [store_eq] at he
    have hu := update_fixed s prev a
    have := markR_casc_le (s := update s prev a) (by rw [hu.1]; exact update_casc_le h.casc prev a) a.target [] e he
    rwa [hu.1] at this
  · rw [h1, h5]; exact h.minCasc

/-! ## A whole cell -/

/-- To show something of a cell: show it of the start, of each assignment, and of the end of a statement. -/
theorem cell_ind (P : List (Store K) → St K → Prop) (prev : Nat) (body : List (List (Store K))) (s : St K) (h0 : P [] s)
    (hs : ∀ l s a, P l s → P (l ++ [a]) (store prev s a))
    (he : ∀ l (s : St K) d n, P l s → P l { s with done := d, now := n }) : P body.flatten (body.foldl (stmt prev) s) := by
  have inner : ∀ (as : List (Store K)) (l : List (Store K)) (s : St K), P l s → P (l ++ as) (as.foldl (store prev) s) := by
    intro as
    induction as with
    | nil => intro l s h; simpa using h
    | cons a as ih => intro l s h; have := ih (l ++ [a]) _ (hs l s a h); simpa using this
  have outer : ∀ (l : List (Store K)) (s : St K), P l s → P (l ++ body.flatten) (body.foldl (stmt prev) s) := by
    induction body with
    | nil => intro l s h; simpa using h
    | cons as body ih =>
      intro l s h
      have := ih (l ++ as) (stmt prev s as) (he _ _ _ _ (inner as l s h))
      simpa [List.flatten_cons, List.append_assoc] using this
  simpa using outer [] s h0

theorem path_eq (a : Store K) : a.path = names a.target := rfl

/-- The timestamps after a cell, from the assignments in it. -/
structure CellFacts (s0 : St K) (l : List (Store K)) (s : St K) : Prop where
  ctr : s.ctr = s0.ctr + 1
  minCasc : s.minCasc = s0.minCasc
  own : ∀ p, (∃ a ∈ l, a.path <+: p) → s.own p = s0.ctr + 1
  own' : ∀ p, ¬ (∃ a ∈ l, a.path <+: p) → s.own p = s0.own p
  below : ∀ p, (∃ a ∈ l, p <+: a.path ∧ p ≠ a.path) → s.below p = s0.ctr + 1
  below' : ∀ p, ¬ (∃ a ∈ l, p <+: a.path ∧ p ≠ a.path) → s.below p = s0.below p
  blocked : (∀ a ∈ l, Open a.target) → s.blocked = s0.blocked
  bounded : Bounded s

theorem start_facts {s0 : St K} (h : Bounded s0) : CellFacts s0 [] (start s0) where
  ctr := rfl
  minCasc := rfl
  own := by rintro p ⟨a, ha, -⟩; exact absurd ha (by simp)
  own' := fun p _ => rfl
  below := by rintro p ⟨a, ha, -⟩; exact absurd ha (by simp)
  below' := fun p _ => rfl
  blocked := fun _ => rfl
  bounded := ⟨fun p => Nat.le_succ_of_le (h.own p), fun p => Nat.le_succ_of_le (h.below p), fun p => Nat.le_succ_of_le (h.blocked p),
    fun e he => Nat.le_succ_of_le (h.casc e he), Nat.le_succ_of_le h.minCasc⟩

theorem store_facts {s0 : St K} {l : List (Store K)} {s : St K} (h : CellFacts s0 l s) (prev : Nat) (a : Store K) :
    CellFacts s0 (l ++ [a]) (store prev s a) := by
  obtain ⟨h1, h2, h3, -, h5⟩ := store_fixed s prev a
  refine ⟨h1.trans h.ctr, h5.trans h.minCasc, fun p hp => ?_, fun p hp => ?_, fun p hp => ?_, fun p hp => ?_, fun ho => ?_, store_bounded h.bounded prev a⟩
  · rw [h2]
    split
    · exact h.ctr
    next hn =>
      obtain ⟨b, hb, hbp⟩ := hp
      rcases List.mem_append.mp hb with hb | hb
      · exact h.own p ⟨b, hb, hbp⟩
      · exact absurd hbp (by rw [List.mem_singleton.mp hb]; exact hn)
  · rw [h2, if_neg (fun hn => hp ⟨a, by simp, hn⟩)]
    exact h.own' p (fun ⟨b, hb, hbp⟩ => hp ⟨b, List.mem_append_left _ hb, hbp⟩)
  · rw [h3]
    split
    · exact h.ctr
    next hn =>
      obtain ⟨b, hb, hbp⟩ := hp
      rcases List.mem_append.mp hb with hb | hb
      · exact h.below p ⟨b, hb, hbp⟩
      · exact absurd hbp (by rw [List.mem_singleton.mp hb]; exact hn)
  · rw [h3, if_neg (fun hn => hp ⟨a, by simp, hn⟩)]
    exact h.below' p (fun ⟨b, hb, hbp⟩ => hp ⟨b, List.mem_append_left _ hb, hbp⟩)
  · rw [store_eq, markR_blocked_open _ _ (ho a (by simp)), (update_fixed s prev a).2.2.2.2.2.1]
    exact h.blocked (fun b hb => ho b (List.mem_append_left _ hb))

theorem end_facts {s0 : St K} {l : List (Store K)} {s : St K} (h : CellFacts s0 l s) (d n : Path K → Bool) :
    CellFacts s0 l { s with done := d, now := n } :=
  ⟨h.ctr, h.minCasc, h.own, h.own', h.below, h.below', h.blocked, ⟨h.bounded.own, h.bounded.below, h.bounded.blocked, h.bounded.casc, h.bounded.minCasc⟩⟩

theorem run_facts {s0 : St K} (h : Bounded s0) (c : Cell K) : CellFacts s0 c.body.flatten (step s0 (.run c)) :=
  cell_ind (CellFacts s0) c.prev c.body (start s0) (start_facts h) (fun _ _ a h => store_facts h c.prev a) (fun _ _ d n h => end_facts h d n)

/-! ## The whole history -/

theorem after_append (ops : List (Op K)) (op : Op K) : after (ops ++ [op]) = step (after ops) op := by
  simp [after, List.foldl_append]

theorem count_append (ops ops' : List (Op K)) : count (ops ++ ops') = count ops + count ops' := by
  induction ops with
  | nil => simp [count]
  | cons o ops ih => cases o <;> simp only [List.cons_append, count, ih] <;> omega

theorem log_append (ops ops' : List (Op K)) (n : Nat) : log n (ops ++ ops') = log n ops ++ log (n + count ops) ops' := by
  induction ops generalizing n with
  | nil => simp [log, count]
  | cons o ops ih =>
    cases o with
    | run c => simp only [List.cons_append, log, count, ih, List.append_assoc]; congr 3; omega
    | cleanup => simp only [List.cons_append, log, count, ih]

/-- What the timestamps say about the history. -/
structure Facts (ops : List (Op K)) (s : St K) : Prop where
  ctr : s.ctr = count ops
  bounded : Bounded s
  own : ∀ p c, s.own p > c → ∃ e ∈ log 0 ops, e.1 > c ∧ e.2.path <+: p
  below : ∀ p c, s.below p > c → ∃ e ∈ log 0 ops, e.1 > c ∧ p <+: e.2.path

theorem facts_nil : Facts ([] : List (Op K)) {} where
  ctr := rfl
  bounded := ⟨fun _ => Nat.le_refl _, fun _ => Nat.le_refl _, fun _ => Nat.le_refl _, fun _ h => absurd h (by simp), Nat.le_refl _⟩
  own := fun p c h => absurd h (Nat.not_lt_zero _)
  below := fun p c h => absurd h (Nat.not_lt_zero _)

theorem facts_step {ops : List (Op K)} {s : St K} (h : Facts ops s) (op : Op K) : Facts (ops ++ [op]) (step s op) := by
  cases op with
  | cleanup =>
    have hl : log 0 (ops ++ [.cleanup]) = log 0 ops := by rw [log_append]; simp [log]
    refine ⟨by rw [count_append]; exact h.ctr, ⟨h.bounded.own, h.bounded.below, h.bounded.blocked, h.bounded.casc, Nat.le_refl _⟩, ?_, ?_⟩
    · rw [hl]; exact h.own
    · rw [hl]; exact h.below
  | run c =>
    have f := run_facts h.bounded c
    have hm : ∀ e, e ∈ log 0 (ops ++ [.run c]) ↔ e ∈ log 0 ops ∨ ∃ a ∈ c.body.flatten, e = (s.ctr + 1, a) := by
      intro e
      rw [log_append]
      simp only [log, Nat.zero_add, List.append_nil, List.mem_append, List.mem_map, h.ctr, eq_comm]
    refine ⟨by rw [count_append, f.ctr, h.ctr]; rfl, f.bounded, fun p c' hp => ?_, fun p c' hp => ?_⟩
    · by_cases ha : ∃ a ∈ c.body.flatten, a.path <+: p
      · rw [f.own p ha] at hp
        obtain ⟨a, ha, hap⟩ := ha
        exact ⟨(s.ctr + 1, a), (hm _).mpr (.inr ⟨a, ha, rfl⟩), hp, hap⟩
      · rw [f.own' p ha] at hp
        obtain ⟨e, he, hc, hep⟩ := h.own p c' hp
        exact ⟨e, (hm _).mpr (.inl he), hc, hep⟩
    · by_cases ha : ∃ a ∈ c.body.flatten, p <+: a.path ∧ p ≠ a.path
      · rw [f.below p ha] at hp
        obtain ⟨a, ha, hap, -⟩ := ha
        exact ⟨(s.ctr + 1, a), (hm _).mpr (.inr ⟨a, ha, rfl⟩), hp, hap⟩
      · rw [f.below' p ha] at hp
        obtain ⟨e, he, hc, hep⟩ := h.below p c' hp
        exact ⟨e, (hm _).mpr (.inl he), hc, hep⟩

theorem facts_after (ops : List (Op K)) : Facts ops (after ops) := by
  induction ops using List.reverseRecOn with
  | nil => exact facts_nil
  | append_singleton ops op ih => rw [after_append]; exact facts_step ih op

/-- Whatever the cell touches has its timestamp. -/
theorem stamp_touched {s0 : St K} {l : List (Store K)} {s : St K} (f : CellFacts s0 l s) {a : Store K} (ha : a ∈ l) {p : Path K}
    (h : Touch a.path p) : stamp s p = s0.ctr + 1 := by
  have hb := f.bounded.below p
  have ho := f.bounded.own p
  rw [f.ctr] at hb ho
  unfold stamp
  by_cases he : a.path <+: p
  · rw [f.own p ⟨a, ha, he⟩]; omega
  · have hp : p <+: a.path := h.resolve_left he
    rw [f.below p ⟨a, ha, hp, fun hh => he (hh ▸ List.prefix_rfl)⟩]; omega

/-! ## The reads of a chain -/

/-- The marks left of a place. -/
def seenAfter (v : Seen) (l : List (K × Marks)) : Seen := l.foldl (fun v e => (turn v e.2).1) v

/-- The place of a read in a chain. -/
theorem mem_resolved {before : Path K} {v : Seen} {r : List (K × Marks)} {l : Read K} :
    l ∈ resolved before v r ↔ ∃ pre k m post, r = pre ++ (k, m) :: post ∧
      l = { sym := before ++ names pre ++ [k], marks := (turn (seenAfter v pre) m).2, last := post.isEmpty } := by
  induction r generalizing before v with
  | nil =>
    simp only [resolved, List.not_mem_nil, false_iff]
    rintro ⟨pre, k, m, post, h, -⟩
    cases pre <;> simp at h
  | cons e r ih =>
    obtain ⟨k, m⟩ := e
    simp only [resolved, List.mem_cons, ih]
    constructor
    · rintro (rfl | ⟨pre, k', m', post, rfl, rfl⟩)
      · exact ⟨[], k, m, r, rfl, by simp [names, seenAfter]⟩
      · exact ⟨(k, m) :: pre, k', m', post, rfl, by simp [names, seenAfter]⟩
    · rintro ⟨pre, k', m', post, h, rfl⟩
      cases pre with
      | nil =>
        simp only [List.nil_append, List.cons.injEq, Prod.mk.injEq] at h
        obtain ⟨⟨rfl, rfl⟩, rfl⟩ := h
        exact .inl (by simp [names, seenAfter])
      | cons e pre =>
        simp only [List.cons_append, List.cons.injEq] at h
        obtain ⟨rfl, rfl⟩ := h
        exact .inr ⟨pre, k', m', post, rfl, by simp [names, seenAfter]⟩

theorem spread_true_blocks (s : St K) (ls : List (Read K)) : ∀ l ∈ spread s true ls, blocking s l = true := by
  induction ls with
  | nil => intro l h; exact absurd h (by simp [spread])
  | cons x ls ih =>
    intro l h
    simp only [spread, Bool.true_or, Bool.true_and, List.mem_cons] at h
    rcases h with rfl | h
    · cases hb : blocking s x with
      | true => simpa using hb
      | false => simp [blocking, Marks.toBlocking]
    · exact ih l h

/-- The reads that are not blocked: those before the first one that is. -/
theorem mem_spread {s : St K} {ls : List (Read K)} {l : Read K} (h : l ∈ spread s false ls) (hb : blocking s l = false) :
    ∃ pre post, ls = pre ++ l :: post ∧ ∀ x ∈ pre, blocking s x = false := by
  induction ls with
  | nil => exact absurd h (by simp [spread])
  | cons x ls ih =>
    cases hx : blocking s x with
    | true =>
      simp only [spread, hx, Bool.false_or, Bool.not_true, Bool.and_false, Bool.false_eq_true, if_false, List.mem_cons] at h
      rcases h with rfl | h
      · rw [hx] at hb; cases hb
      · rw [spread_true_blocks s ls l h] at hb; cases hb
    | false =>
      simp only [spread, hx, Bool.false_or, Bool.false_and, Bool.false_eq_true, if_false, List.mem_cons] at h
      rcases h with rfl | h
      · exact ⟨[], ls, rfl, by simp⟩
      · obtain ⟨pre, post, rfl, hp⟩ := ih h
        refine ⟨x :: pre, post, rfl, fun y hy => ?_⟩
        rcases List.mem_cons.mp hy with rfl | hy
        · exact hx
        · exact hp y hy

theorem spread_mem {s : St K} {pre post : List (Read K)} {l : Read K} (hp : ∀ x ∈ pre, blocking s x = false) (hb : blocking s l = false) :
    l ∈ spread s false (pre ++ l :: post) := by
  induction pre with
  | nil => simp [spread, hb]
  | cons x pre ih =>
    have hx := hp x (by simp)
    simp only [List.cons_append, spread, hx, Bool.false_or, Bool.false_and, Bool.false_eq_true, if_false, List.mem_cons]
    exact .inr (ih (fun y hy => hp y (by simp [hy])))

theorem resolved_append (before : Path K) (v : Seen) (pre rest : List (K × Marks)) (hr : rest ≠ []) :
    resolved before v (pre ++ rest) =
      (resolved before v pre).map (fun l => { l with last := false }) ++ resolved (before ++ names pre) (seenAfter v pre) rest := by
  induction pre generalizing before v with
  | nil => simp [resolved, names, seenAfter]
  | cons e pre ih =>
    obtain ⟨k, m⟩ := e
    have hne : (pre ++ rest).isEmpty = false := by cases pre <;> cases rest <;> simp_all
    simp only [List.cons_append, resolved, ih, List.map_cons, hne]
    simp [names, seenAfter, List.append_assoc]

theorem blocking_last (s : St K) (l : Read K) (b : Bool) : blocking s { l with last := b } = blocking s l := rfl

theorem seenAfter_blocking {v : Seen} (hv : v.blockingSeen = false) (l : List (K × Marks)) : (seenAfter v l).blockingSeen = false := by
  unfold seenAfter
  induction l generalizing v with
  | nil => exact hv
  | cons e l ih => exact ih (v := (turn v e.2).1) hv

theorem turn_blocking {v : Seen} (hv : v.blockingSeen = false) {m : Marks} (hm : m.blocking = false) : (turn v m).2.blocking = false := by
  obtain ⟨a, r, c, b⟩ := v
  obtain ⟨mr, mc, mb⟩ := m
  simp only at hv hm
  subst hv hm
  cases r <;> cases c <;> cases mr <;> cases mc <;> rfl

theorem turn_reactive {v : Seen} (hv : v.blockingSeen = false) (m : Marks) : (turn v m).2.reactive = (v.reactiveSeen || m.reactive) := by
  obtain ⟨a, r, c, b⟩ := v
  obtain ⟨mr, mc, mb⟩ := m
  simp only at hv
  subst hv
  cases r <;> cases c <;> cases mr <;> cases mc <;> rfl

theorem turn_cascading {v : Seen} (hv : v.blockingSeen = false) (m : Marks) : (turn v m).2.cascading = (v.cascadingSeen || m.cascading) := by
  obtain ⟨a, r, c, b⟩ := v
  obtain ⟨mr, mc, mb⟩ := m
  simp only at hv
  subst hv
  cases r <;> cases c <;> cases mr <;> cases mc <;> rfl

theorem turn_stops {v : Seen} (hv : v.blockingSeen = false) (hr : v.reactiveSeen = false) (hc : v.cascadingSeen = false) {m : Marks}
    (hm : m.blocking = true) (hmr : m.reactive = false) (hmc : m.cascading = false) : (turn v m).2.blocking = true := by
  obtain ⟨a, r, c, b⟩ := v
  obtain ⟨mr, mc, mb⟩ := m
  simp only at hv hr hc hm hmr hmc
  subst hv hr hc hm hmr hmc
  rfl

theorem seenAfter_reactive (v : Seen) (l : List (K × Marks)) :
    (seenAfter v l).reactiveSeen = true ↔ v.reactiveSeen = true ∨ ∃ e ∈ l, e.2.reactive = true := by
  unfold seenAfter
  induction l generalizing v with
  | nil => simp
  | cons e l ih =>
    rw [List.foldl_cons, ih]
    simp [turn, or_assoc]

theorem seenAfter_cascading (v : Seen) (l : List (K × Marks)) :
    (seenAfter v l).cascadingSeen = true ↔ v.cascadingSeen = true ∨ ∃ e ∈ l, e.2.cascading = true := by
  unfold seenAfter
  induction l generalizing v with
  | nil => simp
  | cons e l ih =>
    rw [List.foldl_cons, ih]
    simp [turn, or_assoc]

/-- How the loop over a chain begins, `analysis/symbol_ref.py` 438-441. -/
abbrev v0 : Seen := { all := true }

/-- The read at a place of a chain. -/
def readAt (pre : List (K × Marks)) (k : K) (m : Marks) (post : List (K × Marks)) : Read K :=
  { sym := names pre ++ [k], marks := (turn (seenAfter v0 pre) m).2, last := post.isEmpty }

theorem names_append (l l' : List (K × Marks)) : names (l ++ l') = names l ++ names l' := by simp [names]

/-- A read that is not blocked, and none to the left of it, is among the reads of the cell. -/
theorem reads_intro {s : St K} {pre post : List (K × Marks)} {k : K} {m : Marks} (ho : Open (pre ++ [(k, m)]))
    (hst : ∀ p, p ≠ [] → p <+: names pre ++ [k] → s.blocked p < stamp s p) :
    readAt pre k m post ∈ reads s (pre ++ (k, m) :: post) ∧ blocking s (readAt pre k m post) = false := by
  obtain ⟨ho1, ho2⟩ := open_append.mp ho
  have hb : ∀ pre' k' m' post', pre' ++ [k'] <+: names pre ++ [k] → m'.blocking = false → ∀ pre'' : List (K × Marks), names pre'' = pre' →
      blocking s (readAt pre'' k' m' post') = false := by
    intro pre' k' m' post' hp hm pre'' he
    have := hst (pre' ++ [k']) (by simp) hp
    simp only [blocking, readAt, he, turn_blocking (seenAfter_blocking (v := v0) rfl pre'') hm, Bool.false_or, decide_eq_false_iff_not]
    omega
  have hl : blocking s (readAt pre k m post) = false := hb _ k m post List.prefix_rfl (ho2 (k, m) (by simp)) pre rfl
  refine ⟨?_, hl⟩
  unfold reads
  rw [resolved_append [] v0 pre _ (by simp), resolved]
  refine spread_mem (l := readAt pre k m post) (fun x hx => ?_) hl
  obtain ⟨y, hy, rfl⟩ := List.mem_map.mp hx
  rw [blocking_last]
  obtain ⟨pre', k', m', post', rfl, rfl⟩ := mem_resolved.mp hy
  refine hb (names pre') k' m' post' ?_ (ho1 (k', m') (by simp)) pre' rfl
  rw [names_append]
  simp only [names, List.map_cons, List.append_assoc, List.cons_append]
  exact List.prefix_append_right_inj _ |>.mpr (List.cons_prefix_cons.mpr ⟨rfl, List.nil_prefix⟩)

/-- The reads that are not blocked, and their places. -/
theorem reads_elim {s : St K} {r : List (K × Marks)} {l : Read K} (h : l ∈ reads s r) (hb : blocking s l = false) :
    ∃ pre k m post, r = pre ++ (k, m) :: post ∧ l = readAt pre k m post ∧
      ∀ pre' k' m' post', pre = pre' ++ (k', m') :: post' → ∀ b, blocking s { readAt pre' k' m' post' with last := b } = false := by
  obtain ⟨xs, ys, he, hx⟩ := mem_spread h hb
  have aux : ∀ (r : List (K × Marks)) (before : Path K) (v : Seen) (xs ys : List (Read K)), resolved before v r = xs ++ l :: ys →
      ∃ pre k m post, r = pre ++ (k, m) :: post ∧
        l = { sym := before ++ names pre ++ [k], marks := (turn (seenAfter v pre) m).2, last := post.isEmpty } ∧
        ∀ y ∈ resolved before v pre, ∃ b, { y with last := b } ∈ xs := by
    intro r
    induction r with
    | nil => intro before v xs ys h; cases xs <;> simp [resolved] at h
    | cons e r ih =>
      obtain ⟨k, m⟩ := e
      intro before v xs ys h
      cases xs with
      | nil =>
        simp only [resolved, List.nil_append, List.cons.injEq] at h
        exact ⟨[], k, m, r, rfl, by simpa [names, seenAfter] using h.1.symm, fun y hy => absurd hy (by simp [resolved])⟩
      | cons x xs =>
        simp only [resolved, List.cons_append, List.cons.injEq] at h
        obtain ⟨rfl, h⟩ := h
        obtain ⟨pre, k', m', post, rfl, hl, hy⟩ := ih _ _ _ _ h
        refine ⟨(k, m) :: pre, k', m', post, rfl, by rw [hl]; simp [names, seenAfter], fun y hy' => ?_⟩
        simp only [resolved, List.mem_cons] at hy'
        rcases hy' with rfl | hy'
        · exact ⟨_, List.mem_cons_self⟩
        · obtain ⟨b, hb⟩ := hy y hy'
          exact ⟨b, List.mem_cons_of_mem _ hb⟩
  obtain ⟨pre, k, m, post, rfl, hl, hy⟩ := aux r [] v0 xs ys he
  refine ⟨pre, k, m, post, rfl, by simpa [readAt] using hl, ?_⟩
  rintro pre' k' m' post' rfl b
  obtain ⟨b', hb'⟩ := hy _ (mem_resolved.mpr ⟨pre', k', m', post', rfl, rfl⟩)
  have := hx _ hb'
  simpa [blocking, readAt] using this

/-- A path that a chain begins with. -/
theorem split_names {t : List (K × Marks)} {p : Path K} (hp : p ≠ []) (h : p <+: names t) :
    ∃ pre k mk post, t = pre ++ (k, mk) :: post ∧ p = names pre ++ [k] := by
  induction t generalizing p with
  | nil => exact absurd (List.prefix_nil.mp h) hp
  | cons e t ih =>
    obtain ⟨k, m⟩ := e
    cases p with
    | nil => exact absurd rfl hp
    | cons x p =>
      obtain ⟨hx, hp'⟩ : x = k ∧ p <+: names t := by simpa [names] using h
      by_cases he : p = []
      · exact ⟨[], k, m, t, rfl, by simp [he, names, hx]⟩
      · obtain ⟨pre, k', mk, post, rfl, rfl⟩ := ih he hp'
        exact ⟨(k, m) :: pre, k', mk, post, rfl, by simp [names, hx]⟩

/-- An element further right is in the rest. -/
theorem mem_rest {pre pre' : List (K × Marks)} {e e' : K × Marks} {post post' : List (K × Marks)} (h : pre ++ e :: post = pre' ++ e' :: post')
    (hl : pre.length ≤ pre'.length) : e' ∈ e :: post := by
  have h1 : (pre ++ e :: post).drop pre.length = e :: post := by simp
  rw [← h1, h, List.drop_append_of_le_length hl]
  simp

/-! ## The sets during a cell -/

theorem clear_upd {s : St K} {a : Store K} {q : Path K} (hq : a.path ≠ q) : (clear s a).upd q = s.upd q ∧ (clear s a).updDeep q = s.updDeep q := by
  unfold clear
  split
  · simp [forget, hq.symm]
  · simp

theorem store_updLast (prev : Nat) (s : St K) (a : Store K) (q : Path K) : (store prev s a).updLast q = true ↔ s.updLast q = true ∨
    ∃ mk post, At [] a.target q mk post ∧ mk.cascading = false ∧ LitFrom mk post ∧ mk.blocking = false ∧ Open post := by
  rw [store_eq, markR_updLast, (update_fixed s prev a).2.2.2.2.2.2.1]

theorem store_updDeepLast (prev : Nat) (s : St K) (a : Store K) (q : Path K) : (store prev s a).updDeepLast q = true ↔ s.updDeepLast q = true ∨
    ∃ mk post, At [] a.target q mk post ∧ mk.reactive = true ∧ mk.cascading = false ∧ mk.blocking = false ∧ Open post := by
  rw [store_eq, markR_updDeepLast, (update_fixed s prev a).2.2.2.2.2.2.2.1]

theorem store_upd (prev : Nat) (s : St K) (a : Store K) (q : Path K) : (store prev s a).upd q = true ↔ (clear s a).upd q = true ∨
    ∃ mk post, At [] a.target q mk post ∧ mk.cascading = true ∧ mk.blocking = false ∧ Open post := by
  rw [store_eq, markR_upd, (update_fixed s prev a).2.2.2.2.2.2.2.2.1]

theorem store_updDeep (prev : Nat) (s : St K) (a : Store K) (q : Path K) : (store prev s a).updDeep q = true ↔ (clear s a).updDeep q = true ∨
    ∃ mk post, At [] a.target q mk post ∧ mk.cascading = true ∧ mk.blocking = false ∧ Open post := by
  rw [store_eq, markR_updDeep, (update_fixed s prev a).2.2.2.2.2.2.2.2.2.1]

/-- The part of a marked target that a path before the mark ends at. -/
theorem marked_at {t : List (K × Marks)} (ho : Open t) {m p : Path K} (hm : Marked t m) (hp : p ≠ []) (h : p <+: m) :
    ∃ mk post, At [] t p mk post ∧ LitFrom mk post ∧ mk.blocking = false ∧ Open post ∧ (mk ∈ t.map Prod.snd) := by
  obtain ⟨pre, k, mk, post, rfl, rfl, hl, -⟩ := hm
  have h2 : names pre ++ [k] <+: names (pre ++ (k, mk) :: post) := by
    rw [names_append]
    exact (List.prefix_append_right_inj _).mpr (List.cons_prefix_cons.mpr ⟨rfl, List.nil_prefix⟩)
  obtain ⟨pre', k', mk', post', he, rfl⟩ := split_names hp (h.trans h2)
  have hlen : pre'.length ≤ pre.length := by have := h.length_le; simpa [names] using this
  rw [he] at ho ⊢
  obtain ⟨-, ho⟩ := open_append.mp ho
  obtain ⟨hb, ho⟩ := open_cons.mp ho
  have hl : lit mk = true := by simpa [lit] using hl
  refine ⟨mk', post', ⟨pre', k', rfl, by simp⟩, ?_, hb, ho, by simp⟩
  rcases List.mem_cons.mp (mem_rest he.symm hlen) with h | h
  · left
    simp only [Prod.mk.injEq] at h
    rw [← h.2]; exact hl
  · exact .inr ⟨_, h, hl⟩

/-- What the marks of an assignment leave in the sets, when the assignment is the last one of the cell so far. -/
theorem store_marks (prev : Nat) (s : St K) {a : Store K} (ho : Open a.target) {m : Path K} (hm : Marked a.target m) :
    ((store prev s a).updDeep m = true ∨ (store prev s a).updDeepLast m = true) ∧
    (∀ p, p ≠ [] → p <+: m → (store prev s a).upd p = true ∨ (store prev s a).updLast p = true) ∧
    (Narrow a.target → (store prev s a).updDeepLast m = true ∧ ∀ p, p ≠ [] → p <+: m → (store prev s a).updLast p = true) := by
  refine ⟨?_, fun p hp h => ?_, fun hn => ⟨?_, fun p hp h => ?_⟩⟩
  · obtain ⟨pre, k, mk, post, he, rfl, hl, hop⟩ := hm
    obtain ⟨hb, hop⟩ := open_cons.mp hop
    have hat : At [] a.target (names pre ++ [k]) mk post := ⟨pre, k, he, by simp⟩
    cases hc : mk.cascading with
    | true => exact .inl ((store_updDeep ..).mpr (.inr ⟨mk, post, hat, hc, hb, hop⟩))
    | false => exact .inr ((store_updDeepLast ..).mpr (.inr ⟨mk, post, hat, by simpa [hc] using hl, hc, hb, hop⟩))
  · obtain ⟨mk, post, hat, hl, hb, hop, -⟩ := marked_at ho hm hp h
    cases hc : mk.cascading with
    | true => exact .inl ((store_upd ..).mpr (.inr ⟨mk, post, hat, hc, hb, hop⟩))
    | false => exact .inr ((store_updLast ..).mpr (.inr ⟨mk, post, hat, hc, hl, hb, hop⟩))
  · obtain ⟨pre, k, mk, post, he, rfl, hl, hop⟩ := hm
    obtain ⟨hb, hop⟩ := open_cons.mp hop
    have hat : At [] a.target (names pre ++ [k]) mk post := ⟨pre, k, he, by simp⟩
    have hc : mk.cascading = false := hn (k, mk) (by rw [he]; simp)
    exact (store_updDeepLast ..).mpr (.inr ⟨mk, post, hat, by simpa [hc] using hl, hc, hb, hop⟩)
  · obtain ⟨mk, post, hat, hl, hb, hop, hmem⟩ := marked_at ho hm hp h
    obtain ⟨e, he, rfl⟩ := List.mem_map.mp hmem
    exact (store_updLast ..).mpr (.inr ⟨e.2, post, hat, hn e he, hl, hb, hop⟩)

/-- What the marks of the assignments of a cell leave in the sets. -/
def SetFacts (l : List (Store K)) (s : St K) : Prop :=
  ∀ l1 a l2, l = l1 ++ a :: l2 → Open a.target → ∀ m, Marked a.target m →
    (Narrow a.target → s.updDeepLast m = true ∧ ∀ p, p ≠ [] → p <+: m → s.updLast p = true) ∧
    ((∀ b ∈ l2, ¬ b.path <+: m) → (s.updDeep m = true ∨ s.updDeepLast m = true) ∧ ∀ p, p ≠ [] → p <+: m → s.upd p = true ∨ s.updLast p = true)

theorem setFacts_nil (s : St K) : SetFacts [] s := by
  intro l1 a l2 h
  cases l1 <;> simp at h

theorem setFacts_store {l : List (Store K)} {s : St K} (h : SetFacts l s) (prev : Nat) (x : Store K) : SetFacts (l ++ [x]) (store prev s x) := by
  intro l1 a l2 he ho m hm
  rcases List.eq_nil_or_concat l2 with rfl | ⟨l2', y, rfl⟩
  · obtain ⟨rfl, hxa⟩ := List.append_inj' he rfl
    simp only [List.cons.injEq, and_true] at hxa
    subst hxa
    obtain ⟨h1, h2, h3⟩ := store_marks prev s ho hm
    exact ⟨h3, fun _ => ⟨h1, h2⟩⟩
  · have he' : l ++ [x] = (l1 ++ a :: l2') ++ [y] := by simpa using he
    obtain ⟨rfl, hxy⟩ := List.append_inj' he' rfl
    simp only [List.cons.injEq, and_true] at hxy
    subst hxy
    obtain ⟨g1, g2⟩ := h l1 a l2' rfl ho m hm
    refine ⟨fun hn => ?_, fun hb => ?_⟩
    · obtain ⟨k1, k2⟩ := g1 hn
      exact ⟨(store_updDeepLast ..).mpr (.inl k1), fun p hp hpm => (store_updLast ..).mpr (.inl (k2 p hp hpm))⟩
    · obtain ⟨k1, k2⟩ := g2 (fun b hb' => hb b (by simp [hb']))
      have hx : ¬ x.path <+: m := hb x (by simp)
      have hne : ∀ p, p <+: m → x.path ≠ p := fun p hp hh => hx (hh ▸ hp)
      refine ⟨?_, fun p hp hpm => ?_⟩
      · rcases k1 with k | k
        · exact .inl ((store_updDeep ..).mpr (.inl ((clear_upd (hne m List.prefix_rfl)).2.trans k)))
        · exact .inr ((store_updDeepLast ..).mpr (.inl k))
      · rcases k2 p hp hpm with k | k
        · exact .inl ((store_upd ..).mpr (.inl ((clear_upd (hne p hpm)).1.trans k)))
        · exact .inr ((store_updLast ..).mpr (.inl k))

theorem run_setFacts (s0 : St K) (c : Cell K) : SetFacts c.body.flatten (step s0 (.run c)) :=
  cell_ind SetFacts c.prev c.body (start s0) (setFacts_nil _) (fun _ _ a h => setFacts_store h c.prev a) (fun _ _ _ _ h => h)

/-! ## Reaching a reader -/

/-- Blocks from earlier cells do not count for what this cell touches. -/
theorem unblocked {s0 : St K} (h0 : Bounded s0) {l : List (Store K)} {s : St K} (f : CellFacts s0 l s) (ho : ∀ b ∈ l, Open b.target) {a : Store K}
    (ha : a ∈ l) {n : Path K} (ht : Touch a.path n) : ∀ p, p ≠ [] → p <+: n → s.blocked p < stamp s p := by
  intro p _ hpn
  have htp : Touch a.path p := by
    rcases ht with h | h
    · exact List.prefix_or_prefix_of_prefix h hpn
    · exact .inr (hpn.trans h)
  rw [stamp_touched f ha htp, f.blocked ho]
  have := h0.blocked p
  omega

theorem reaches_deep {s0 : St K} (h0 : Bounded s0) {l : List (Store K)} {s : St K} (f : CellFacts s0 l s) (ho : ∀ b ∈ l, Open b.target)
    {a : Store K} (ha : a ∈ l) {pre post : List (K × Marks)} {k : K} {m : Marks} (hr : Open (pre ++ [(k, m)]))
    (ht : Touch a.path (names pre ++ [k])) {ctr least : Nat} (hc : ctr ≤ s0.ctr) (hl : least ≤ s0.ctr)
    (hd : (s.updDeep (names pre ++ [k]) || s.updDeepLast (names pre ++ [k])) = true ∨ m.reactive = true ∨ m.cascading = true) :
    forced s ctr least (pre ++ (k, m) :: post) = true := by
  obtain ⟨h1, h2⟩ := reads_intro (post := post) hr (unblocked h0 f ho ha ht)
  have hre : reactive s ctr (readAt pre k m post) = true := by
    unfold reactive
    rw [h2]
    rcases hd with h | h | h
    · have : (s.updDeep (readAt pre k m post).sym || s.updDeepLast (readAt pre k m post).sym) = true := h
      rw [this]; simp
    · simp [readAt, turn_reactive (seenAfter_blocking (v := v0) rfl pre), h]
    · simp [cascading, readAt, turn_cascading (seenAfter_blocking (v := v0) rfl pre), h]
  unfold forced
  rw [List.any_eq_true]
  refine ⟨_, h1, ?_⟩
  have hs : stamp s (readAt pre k m post).sym = s0.ctr + 1 := stamp_touched f ha ht
  simp only [counts, h2, hre, time, Bool.true_or, if_true, hs, Bool.not_false, Bool.true_and, decide_eq_true_eq]
  omega

theorem reaches_whole {s0 : St K} (h0 : Bounded s0) {l : List (Store K)} {s : St K} (f : CellFacts s0 l s) (ho : ∀ b ∈ l, Open b.target)
    {a : Store K} (ha : a ∈ l) {r : List (K × Marks)} (hr : Open r) (hne : r ≠ [])
    (ht : Touch a.path (names r)) {ctr least : Nat} (hc : ctr ≤ s0.ctr) (hl : least ≤ s0.ctr)
    (hd : (s.upd (names r) || s.updLast (names r)) = true) : forced s ctr least r = true := by
  obtain ⟨pre, e, rfl⟩ := (List.eq_nil_or_concat r).resolve_left hne
  obtain ⟨k, m⟩ := e
  have hn : names (pre ++ [(k, m)]) = names pre ++ [k] := by simp [names]
  rw [List.concat_eq_append] at *
  rw [hn] at ht hd
  obtain ⟨h1, h2⟩ := reads_intro (post := []) hr (unblocked h0 f ho ha ht)
  unfold forced
  rw [List.any_eq_true]
  refine ⟨_, h1, ?_⟩
  have hs : stamp s (readAt pre k m []).sym = s0.ctr + 1 := stamp_touched f ha ht
  have hd : (s.upd (readAt pre k m []).sym || s.updLast (readAt pre k m []).sym) = true := hd
  have hlast : (readAt pre k m []).last = true := rfl
  simp only [counts, h2, hd, time, hlast, Bool.or_true, if_true, hs, Bool.not_false, Bool.true_and, decide_eq_true_eq]
  omega

/-! ## A cell of one assignment after everything was run again -/

theorem run_one (s0 : St K) (prev : Nat) (a : Store K) : ∃ d n, step s0 (.run { prev := prev, body := [[a]] }) =
    { store prev (start s0) a with done := d, now := n } := ⟨_, _, rfl⟩

theorem markR_casc_mem {s : St K} (t : List (K × Marks)) : ∀ (before : Path K) (e), e ∈ (markR s before t).1.casc →
    e ∈ s.casc ∨ ∃ q mk post, At before t q mk post ∧ mk.cascading = true ∧ e.1 = q := by
  induction t with
  | nil => intro before e he; exact .inl he
  | cons x t ih =>
    intro before e he
    obtain ⟨k, m⟩ := x
    have old : e ∈ (markR s (before ++ [k]) t).1.casc → e ∈ s.casc ∨ ∃ q mk post, At before ((k, m) :: t) q mk post ∧ mk.cascading = true ∧ e.1 = q := by
      intro he
      rcases ih _ e he with h | ⟨q, mk, post, h, h'⟩
      · exact .inl h
      · exact .inr ⟨q, mk, post, at_cons.mpr (.inr h), h'⟩
    simp only [markR, mark_casc] at he
    split at he
    next hc =>
      rcases mem_set he with rfl | he
      · simp only [Bool.and_eq_true] at hc
        exact .inr ⟨_, m, t, at_cons.mpr (.inl ⟨rfl, rfl, rfl⟩), hc.1, rfl⟩
      · exact old he
    · exact old he

/-- Where the numbers of an assignment are. -/
theorem store_casc_mem {prev : Nat} {s : St K} {a : Store K} {e : Path K × Nat} (he : e ∈ (store prev s a).casc) :
    e ∈ s.casc ∨ e = (a.path, 0) ∨ (e.1 = a.path ∧ hot s prev a = true) ∨ ∃ q mk post, At [] a.target q mk post ∧ mk.cascading = true ∧ e.1 = q := by
  rw [store_eq] at he
  rcases markR_casc_mem _ _ e he with h | h
  · rw [(update_fixed s prev a).2.2.2.2.2.2.2.2.2.2] at h
    have hcl : e ∈ (clear s a).casc → e ∈ s.casc ∨ e = (a.path, 0) := by
      unfold clear
      split
      · intro h
        rcases mem_set h with h | h
        · exact .inr h
        · exact .inl h
      · exact .inl
    split at h
    next hh =>
      rcases mem_set h with rfl | h
      · exact .inr (.inr (.inl ⟨rfl, hh⟩))
      · rcases hcl h with h | h
        · exact .inl h
        · exact .inr (.inl h)
    · rcases hcl h with h | h
      · exact .inl h
      · exact .inr (.inl h)
  · exact .inr (.inr (.inr h))

theorem head_at {t : List (K × Marks)} {q : Path K} {mk : Marks} {post : List (K × Marks)} (h : At [] t q mk post) : q.head? = (names t).head? := by
  obtain ⟨pre, k, rfl, rfl⟩ := h
  cases pre <;> simp [names]

/-- Nothing is left from before. -/
structure Quiet (s0 : St K) : Prop where
  upd : ∀ p, s0.upd p = false
  updDeep : ∀ p, s0.updDeep p = false
  minCasc : s0.minCasc = s0.ctr

theorem quiet_cleanup (ops : List (Op K)) : Quiet (after (ops ++ [.cleanup])) := by
  rw [after_append]
  exact ⟨fun _ => rfl, fun _ => rfl, rfl⟩

theorem clear_quiet {s : St K} (h1 : ∀ p, s.upd p = false) (h2 : ∀ p, s.updDeep p = false) (a : Store K) :
    (∀ p, (clear s a).upd p = false) ∧ ∀ p, (clear s a).updDeep p = false := by
  unfold clear
  split
  · refine ⟨fun p => ?_, fun p => ?_⟩
    · simp only [forget]; split
      · rfl
      · exact h1 p
    · simp only [forget]; split
      · rfl
      · exact h2 p
  · exact ⟨h1, h2⟩

/-- The names that are not marked `$$` have old numbers only. -/
theorem one_casc {s0 : St K} (hb : Bounded s0) (hq : Quiet s0) (prev : Nat) (a : Store K) {p : Path K} (ctr : Nat)
    (h : p.head? ≠ (names a.target).head? ∨ (a.rval = false ∧ Narrow a.target)) : cascAt (store prev (start s0) a) ctr p = false := by
  have hold : ∀ e ∈ (start s0).casc, e.2 ≤ s0.minCasc := fun e he => by rw [hq.minCasc]; exact hb.casc e he
  have hm : (store prev (start s0) a).minCasc = s0.minCasc := (store_fixed (start s0) prev a).2.2.2.2
  unfold cascAt
  rw [decide_eq_false_iff_not, cascNum_gt, hm]
  rintro ⟨e, he, hh, hg⟩
  rcases store_casc_mem he with h' | rfl | ⟨h1, h2⟩ | ⟨q, mk, post, hat, hc, hp⟩
  · have := hold e h'
    omega
  · omega
  · rcases h with h | ⟨h, -⟩
    · rw [h1, path_eq] at hh; exact h hh.symm
    · simp only [hot, h, Bool.false_or, List.any_eq_true] at h2
      obtain ⟨d, -, hd⟩ := h2
      unfold cascAt at hd
      rw [decide_eq_true_eq, cascNum_gt, (clear_fixed (start s0) a).2.2.2.2.2.1] at hd
      obtain ⟨e', he', -, hg'⟩ := hd
      have hle : e'.2 ≤ s0.minCasc := by
        unfold clear at he'
        split at he'
        · rcases mem_set he' with rfl | he'
          · exact Nat.zero_le _
          · exact hold e' he'
        · exact hold e' he'
      have : (start s0).minCasc = s0.minCasc := rfl
      omega
  · rcases h with h | ⟨-, h⟩
    · rw [hp, head_at hat] at hh; exact h hh.symm
    · obtain ⟨pre, k, ht, -⟩ := hat
      have := h (k, mk) (by rw [ht]; simp)
      rw [hc] at this; cases this

/-- Everything that a later timestamp can come from. -/
theorem stamp_source {ops : List (Op K)} {prev : Nat} {a : Store K} {s : St K} (h : Facts (ops ++ [.run { prev := prev, body := [[a]] }]) s)
    {p : Path K} {c : Nat} (hp : stamp s p > c) :
    (∃ e ∈ log 0 ops, e.1 > c ∧ Touch e.2.path p) ∨ Touch a.path p := by
  have hl : log 0 (ops ++ [.run { prev := prev, body := [[a]] }]) = log 0 ops ++ [(count ops + 1, a)] := by rw [log_append]; simp [log]
  have : ∃ e ∈ log 0 (ops ++ [.run { prev := prev, body := [[a]] }]), e.1 > c ∧ Touch e.2.path p := by
    unfold stamp at hp
    by_cases ho : s.own p > c
    · obtain ⟨e, he, h1, h2⟩ := h.own p c ho
      exact ⟨e, he, h1, .inl h2⟩
    · obtain ⟨e, he, h1, h2⟩ := h.below p c (by omega)
      exact ⟨e, he, h1, .inr h2⟩
  obtain ⟨e, he, h1, h2⟩ := this
  rw [hl] at he
  rcases List.mem_append.mp he with he | he
  · exact .inl ⟨e, he, h1, h2⟩
  · rw [List.mem_singleton.mp he] at h2
    exact .inr h2

theorem own_source {ops : List (Op K)} {prev : Nat} {a : Store K} {s : St K} (h : Facts (ops ++ [.run { prev := prev, body := [[a]] }]) s)
    {p : Path K} {c : Nat} (hp : s.own p > c) :
    (∃ e ∈ log 0 ops, e.1 > c ∧ e.2.path <+: p) ∨ a.path <+: p := by
  have hl : log 0 (ops ++ [.run { prev := prev, body := [[a]] }]) = log 0 ops ++ [(count ops + 1, a)] := by rw [log_append]; simp [log]
  obtain ⟨e, he, h1, h2⟩ := h.own p c hp
  rw [hl] at he
  rcases List.mem_append.mp he with he | he
  · exact .inl ⟨e, he, h1, h2⟩
  · rw [List.mem_singleton.mp he] at h2
    exact .inr h2

theorem touch_left {a p n : Path K} (h : Touch a p) (hn : n <+: p) : Touch a n := by
  rcases h with h | h
  · exact List.prefix_or_prefix_of_prefix h hn
  · exact .inr (hn.trans h)

theorem log_cleanup (ops : List (Op K)) : log 0 (ops ++ [.cleanup]) = log 0 ops := by rw [log_append]; simp [log]

theorem readAt_prefix (pre : List (K × Marks)) (k : K) (m : Marks) (post : List (K × Marks)) :
    names pre ++ [k] <+: names (pre ++ (k, m) :: post) := by
  rw [names_append]
  exact (List.prefix_append_right_inj _).mpr (List.cons_prefix_cons.mpr ⟨rfl, List.nil_prefix⟩)

/-- Why an unmarked read, left of any mark, makes a cell run again after one assignment without `$$`: there is a mark before it. -/
theorem at_marked {t : List (K × Marks)} {q : Path K} {mk : Marks} {post : List (K × Marks)} (hat : At [] t q mk post) (hl : LitFrom mk post)
    (hb : mk.blocking = false) (ho : Open post) : ∃ m, Marked t m ∧ q <+: m := by
  obtain ⟨pre, k, rfl, rfl⟩ := hat
  rcases hl with hl | ⟨e, he, hl⟩
  · exact ⟨names pre ++ [k], ⟨pre, k, mk, post, rfl, rfl, by simpa [lit] using hl, open_cons.mpr ⟨hb, ho⟩⟩, by simp⟩
  · obtain ⟨p1, p2, rfl⟩ := List.append_of_mem he
    refine ⟨names (pre ++ (k, mk) :: p1) ++ [e.1], ⟨pre ++ (k, mk) :: p1, e.1, e.2, p2, by simp, rfl, by simpa [lit] using hl, (open_append.mp ho).2⟩, ?_⟩
    rw [names_append]
    simp only [names, List.map_cons, List.append_assoc, List.nil_append]
    exact (List.prefix_append_right_inj _).mpr (List.cons_prefix_cons.mpr ⟨rfl, List.nil_prefix⟩)

theorem marked_prefix {t : List (K × Marks)} {m : Path K} (h : Marked t m) : m <+: names t ∧ m ≠ [] := by
  obtain ⟨pre, k, mk, post, rfl, rfl, -⟩ := h
  exact ⟨readAt_prefix _ _ _ _, by simp⟩

theorem markR_blocked_keep (s : St K) (t : List (K × Marks)) (p : Path K) (h : s.blocked p = s.ctr) : ∀ before : Path K, (markR s before t).1.blocked p = s.ctr := by
  induction t with
  | nil => intro before; exact h
  | cons e t ih =>
    intro before
    obtain ⟨k, m⟩ := e
    simp only [markR, mark_blocked]
    split
    · exact (markR_fixed s t _).1
    · exact ih _

theorem store_blocked_keep {prev : Nat} {s : St K} {a : Store K} {p : Path K} (h : s.blocked p = s.ctr) : (store prev s a).blocked p = s.ctr := by
  have hu := update_fixed s prev a
  rw [store_eq]
  have := markR_blocked_keep (update s prev a) a.target p (by rw [hu.2.2.2.2.2.1, hu.1]; exact h) []
  rwa [hu.1] at this

theorem stores_blocked_keep {prev : Nat} {p : Path K} (as : List (Store K)) : ∀ s : St K, s.blocked p = s.ctr →
    (as.foldl (store prev) s).blocked p = s.ctr ∧ (as.foldl (store prev) s).ctr = s.ctr := by
  induction as with
  | nil => intro s h; exact ⟨h, rfl⟩
  | cons a as ih =>
    intro s h
    have hc := (store_fixed s prev a).1
    have := ih (store prev s a) (by rw [hc]; exact store_blocked_keep h)
    rw [hc] at this; exact this

theorem stmts_blocked_keep {prev : Nat} {p : Path K} (body : List (List (Store K))) : ∀ s : St K, s.blocked p = s.ctr →
    (body.foldl (stmt prev) s).blocked p = s.ctr ∧ (body.foldl (stmt prev) s).ctr = s.ctr := by
  induction body with
  | nil => intro s h; exact ⟨h, rfl⟩
  | cons as body ih =>
    intro s h
    obtain ⟨h1, h2⟩ := stores_blocked_keep (prev := prev) as s h
    have := ih (stmt prev s as) (by show (as.foldl (store prev) s).blocked p = (as.foldl (store prev) s).ctr; rw [h1, h2])
    rw [show (stmt prev s as).ctr = s.ctr from h2] at this; exact this

theorem store_now (prev : Nat) (s : St K) (a : Store K) (k : K) (h : (names a.target).head? ≠ some k) (hn : s.now [k] = false) :
    (store prev s a).now [k] = false := by
  rw [store_eq, (markR_fixed (update s prev a) a.target []).2.2.2.2.1, update_eq]
  have hc := (clear_fixed s a).2.2.2.2.1
  have np : ¬ [k] <+: a.path := by
    rintro ⟨u, hu⟩
    rw [← path_eq, ← hu] at h
    exact h rfl
  cases hot s prev a <;> simp [touch, bump, np, hc, hn]

theorem stores_now {prev : Nat} {k : K} (as : List (Store K)) : ∀ s : St K, (∀ b ∈ as, (names b.target).head? ≠ some k) → s.now [k] = false →
    (as.foldl (store prev) s).now [k] = false ∧ (as.foldl (store prev) s).done = s.done := by
  induction as with
  | nil => intro s _ h; exact ⟨h, rfl⟩
  | cons a as ih =>
    intro s hb h
    have := ih (store prev s a) (fun b m => hb b (List.mem_cons_of_mem _ m)) (store_now prev s a k (hb a (List.mem_cons_self ..)) h)
    rw [(store_fixed s prev a).2.2.2.1] at this; exact this

theorem stmts_done {prev : Nat} {k : K} (body : List (List (Store K))) : ∀ s : St K, (∀ b ∈ body.flatten, (names b.target).head? ≠ some k) →
    s.now [k] = false → s.done [k] = false → (body.foldl (stmt prev) s).done [k] = false := by
  induction body with
  | nil => intro s _ _ h; exact h
  | cons as body ih =>
    intro s hb hn hd
    obtain ⟨h1, h2⟩ := stores_now (prev := prev) as s (fun b m => hb b (by simp [m])) hn
    refine ih (stmt prev s as) (fun b m => hb b (by rw [List.flatten_cons]; exact List.mem_append_right _ m)) rfl ?_
    show ((as.foldl (store prev) s).done [k] || (as.foldl (store prev) s).now [k]) = false
    rw [h1, h2, hd]; rfl

theorem stores_done {prev : Nat} (as : List (Store K)) : ∀ s : St K, (as.foldl (store prev) s).done = s.done := by
  induction as with
  | nil => intro s; rfl
  | cons a as ih => intro s; exact (ih _).trans (store_fixed s prev a).2.2.2.1

end Verif.React
