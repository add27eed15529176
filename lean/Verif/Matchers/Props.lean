import Verif.Matchers.Spec
import Mathlib.Data.List.Perm.Subperm
import Mathlib.Data.List.Perm.Basic

/-!
# Matchers: the theorems
-/

namespace Verif.Matchers

open Verif

theorem firstSome_none {f : Nat → Res} : ∀ {l : List Nat}, firstSome f l = .ok none →
    ∀ y ∈ l, f y = .ok none := by
  intro l
  induction l with
  | nil => intro _ y hy; cases hy
  | cons a l ih =>
    intro h y hy
    unfold firstSome at h
    cases hf : f a with
    | error e => rw [hf] at h; cases h
    | ok r =>
      rw [hf] at h
      cases r with
      | none =>
        rcases List.mem_cons.1 hy with q | q
        · rw [q, hf]
        · exact ih h y q
      | some b => cases h

theorem firstSome_some {f : Nat → Res} {b : List (Nat × Val)} : ∀ {l : List Nat},
    firstSome f l = .ok (some b) → ∃ y ∈ l, f y = .ok (some b) := by
  intro l
  induction l with
  | nil => intro h; cases h
  | cons a l ih =>
    intro h
    unfold firstSome at h
    cases hf : f a with
    | error e => rw [hf] at h; cases h
    | ok r =>
      rw [hf] at h
      cases r with
      | none =>
        obtain ⟨y, h1, h2⟩ := ih h
        exact ⟨y, List.mem_cons_of_mem _ h1, h2⟩
      | some c =>
        cases h
        exact ⟨a, List.mem_cons_self, hf⟩

theorem firstSome_ok {f : Nat → Res} : ∀ {l : List Nat}, (∀ y ∈ l, ∃ r, f y = .ok r) →
    ∃ r, firstSome f l = .ok r := by
  intro l
  induction l with
  | nil => intro _; exact ⟨none, rfl⟩
  | cons a l ih =>
    intro h
    unfold firstSome
    obtain ⟨r, hr⟩ := h a List.mem_cons_self
    rw [hr]
    cases r with
    | none => exact ih fun y hy => h y (List.mem_cons_of_mem _ hy)
    | some b => exact ⟨some b, rfl⟩

theorem pairs_length {w : World} : ∀ (ms : Ms) (ys : List Nat), Pairs w ms ys → ys.length = ms.length
  | .nil, ys, h => by
    unfold Pairs at h
    rw [h]
    rfl
  | .cons m ms, ys, h => by
    unfold Pairs at h
    obtain ⟨y, zs, rfl, _, h2⟩ := h
    rw [List.length_cons, pairs_length ms zs h2]
    rfl

/-- The result for one symbol in the loop of `helper`. -/
def one (w : World) (m : M) (ms : Ms) (rest : List Nat) (y : Nat) : Res :=
  match mat w m y with
  | .error e => .error e
  | .ok none => .ok none
  | .ok (some c) =>
    match helper w ms (rest.filter (· ≠ y)) with
    | .error e => .error e
    | .ok none => .ok none
    | .ok (some d) => .ok (some (update c d))

theorem helper_cons (w : World) (m : M) (ms : Ms) (rest : List Nat) :
    helper w (.cons m ms) rest = firstSome (one w m ms rest) (w.order rest) := by
  rw [helper]
  rfl

theorem one_some {w : World} {m : M} {ms : Ms} {rest : List Nat} {y : Nat} {b : List (Nat × Val)}
    (h : one w m ms rest y = .ok (some b)) : ∃ c d, mat w m y = .ok (some c) ∧
      helper w ms (rest.filter (· ≠ y)) = .ok (some d) ∧ b = update c d := by
  unfold one at h
  cases hm : mat w m y with
  | error e => rw [hm] at h; cases h
  | ok r =>
    rw [hm] at h
    cases r with
    | none => cases h
    | some c =>
      dsimp only at h
      cases hh : helper w ms (rest.filter (· ≠ y)) with
      | error e => rw [hh] at h; cases h
      | ok r2 =>
        rw [hh] at h
        cases r2 with
        | none => cases h
        | some d => cases h; exact ⟨c, d, rfl, rfl, rfl⟩

theorem one_none {w : World} {m : M} {ms : Ms} {rest : List Nat} {y : Nat}
    (h : one w m ms rest y = .ok none) : mat w m y = .ok none ∨
      ∃ c, mat w m y = .ok (some c) ∧ helper w ms (rest.filter (· ≠ y)) = .ok none := by
  unfold one at h
  cases hm : mat w m y with
  | error e => rw [hm] at h; cases h
  | ok r =>
    rw [hm] at h
    cases r with
    | none => exact .inl rfl
    | some c =>
      dsimp only at h
      cases hh : helper w ms (rest.filter (· ≠ y)) with
      | error e => rw [hh] at h; cases h
      | ok r2 =>
        rw [hh] at h
        cases r2 with
        | none => exact .inr ⟨c, rfl, rfl⟩
        | some d => cases h

theorem parents_iff {w : World} (hw : w.Ok) {ms : Ms} {exact : Bool} {b x : Nat} {r}
    (hh : ∀ rest r, helper w ms rest = .ok r →
      (r.isSome ↔ ∃ ys, Pairs w ms ys ∧ ys.Nodup ∧ ∀ y ∈ ys, y ∈ rest))
    (h : mat w (.parents b ms exact) x = .ok r) : r.isSome ↔ Fits w (.parents b ms exact) x := by
  rw [mat] at h
  have hmem : ∀ y, y ∈ (w.parents x).filter (fun y => w.anon y = false) ↔ NamedParent w x y := by
    intro y
    rw [List.mem_filter, decide_eq_true_eq]
    exact Iff.rfl
  have hnd : ((w.parents x).filter (fun y => w.anon y = false)).Nodup := (hw.nodup x).filter _
  generalize (w.parents x).filter (fun y => w.anon y = false) = rest at h hmem hnd
  rw [Fits]
  by_cases hc : exact = true ∧ rest.length ≠ ms.length
  · rw [if_pos hc, Except.ok.injEq] at h
    subst h
    refine ⟨fun q => (by cases q), ?_⟩
    rintro ⟨ys, h1, h2, h3, h4⟩
    exfalso
    apply hc.2
    rw [← pairs_length ms ys h1]
    apply List.Perm.length_eq
    rw [List.perm_ext_iff_of_nodup hnd h2]
    exact fun y => ⟨fun q => h4 hc.1 y ((hmem y).1 q), fun q => (hmem y).2 (h3 y q)⟩
  · rw [if_neg hc] at h
    rw [hh rest r h]
    constructor
    · rintro ⟨ys, h1, h2, h3⟩
      refine ⟨ys, h1, h2, fun y hy => (hmem y).1 (h3 y hy), fun he y hy => ?_⟩
      have hl : rest.length = ms.length := by
        by_contra q
        exact hc ⟨he, q⟩
      have hsub : ys.Subperm rest := List.subperm_of_subset h2 h3
      have hp : ys.Perm rest := hsub.perm_of_length_le (by rw [hl, pairs_length ms ys h1])
      exact hp.mem_iff.2 ((hmem y).2 hy)
    · rintro ⟨ys, h1, h2, h3, _⟩
      exact ⟨ys, h1, h2, fun y hy => (hmem y).2 (h3 y hy)⟩

mutual
theorem mat_iff {w : World} (hw : w.Ok) : ∀ (m : M) (x : Nat) (r : Option (List (Nat × Val))),
    NoRef m → mat w m x = .ok r → (r.isSome ↔ Fits w m x)
  | .plain b, x, r, _, h => by
    rw [mat, Except.ok.injEq] at h
    subst h
    rw [Fits]
    simp
  | .ref b, x, r, hn, _ => by
    rw [NoRef] at hn
    exact hn.elim
  | .allOf b ms, x, r, hn, h => by
    rw [mat] at h
    rw [NoRef] at hn
    rw [Fits]
    exact matAll_iff hw ms x b [] r hn h
  | .anyOf b ms, x, r, hn, h => by
    rw [mat] at h
    rw [NoRef] at hn
    rw [Fits]
    have := matAny_iff hw ms x b none r hn h
    exact ⟨fun _ => this.2 rfl, fun _ => this.1⟩
  | .display b, x, r, _, h => by
    rw [mat] at h
    rw [Fits]
    by_cases q : w.display = x
    · rw [if_pos q, Except.ok.injEq] at h
      subst h
      exact ⟨fun _ => q.symm, fun _ => rfl⟩
    · rw [if_neg q, Except.ok.injEq] at h
      subst h
      exact ⟨fun e => (by cases e), fun e => absurd e.symm q⟩
  | .file b literal, x, r, _, h => by
    rw [mat] at h
    rw [Fits]
    cases hf : w.inFs x with
    | false =>
      rw [if_pos hf, Except.ok.injEq] at h
      subst h
      simp
    | true =>
      rw [if_neg (by rw [hf]; decide)] at h
      cases literal with
      | false =>
        rw [if_neg (by decide), Except.ok.injEq] at h
        subst h
        simp
      | true =>
        rw [if_pos rfl] at h
        by_cases q : w.path x = w.pathOf b
        · rw [if_pos q, Except.ok.injEq] at h
          subst h
          simp [q]
        · rw [if_neg q, Except.ok.injEq] at h
          subst h
          simp [q]
  | .children b ms exact, x, r, _, h => by
    rw [mat] at h
    cases h
  | .parents b ms exact, x, r, hn, h => by
    rw [NoRef] at hn
    exact parents_iff hw (fun rest r hr => helper_iff hw ms rest r hn hr) h
theorem matAll_iff {w : World} (hw : w.Ok) : ∀ (ms : Ms) (x b : Nat) (acc : List (Nat × Val))
    (r : Option (List (Nat × Val))), AllNoRef ms → matAll w ms x b acc = .ok r →
      (r.isSome ↔ AllFit w ms x)
  | .nil, x, b, acc, r, _, h => by
    rw [matAll, Except.ok.injEq] at h
    subst h
    rw [AllFit]
    simp
  | .cons m ms, x, b, acc, r, hn, h => by
    rw [matAll] at h
    rw [AllNoRef] at hn
    rw [AllFit]
    cases hm : mat w m x with
    | error e => rw [hm] at h; cases h
    | ok r1 =>
      have h1 := mat_iff hw m x r1 hn.1 hm
      rw [hm] at h
      cases r1 with
      | none =>
        cases h
        exact ⟨fun q => (by cases q), fun q => h1.2 q.1⟩
      | some c =>
        have h2 := matAll_iff hw ms x b _ r hn.2 h
        rw [h2]
        exact ⟨fun q => ⟨h1.1 rfl, q⟩, fun q => q.2⟩
theorem matAny_iff {w : World} (hw : w.Ok) : ∀ (ms : Ms) (x b : Nat) (acc : Option (List (Nat × Val)))
    (r : Option (List (Nat × Val))), AllNoRef ms → matAny w ms x b acc = .ok r →
      r.isSome ∧ (acc = none → AnyFit w ms x)
  | .nil, x, b, acc, r, _, h => by
    cases acc with
    | none => rw [matAny] at h; cases h
    | some acc =>
      rw [matAny] at h
      cases h
      exact ⟨rfl, fun q => (by cases q)⟩
  | .cons m ms, x, b, acc, r, hn, h => by
    rw [matAny] at h
    rw [AllNoRef] at hn
    rw [AnyFit]
    cases hm : mat w m x with
    | error e => rw [hm] at h; cases h
    | ok r1 =>
      have h1 := mat_iff hw m x r1 hn.1 hm
      rw [hm] at h
      cases r1 with
      | none =>
        have h2 := matAny_iff hw ms x b _ r hn.2 h
        exact ⟨h2.1, fun q => .inr (h2.2 q)⟩
      | some c =>
        have h2 := matAny_iff hw ms x b _ r hn.2 h
        exact ⟨h2.1, fun _ => .inl (h1.1 rfl)⟩
theorem helper_iff {w : World} (hw : w.Ok) : ∀ (ms : Ms) (rest : List Nat)
    (r : Option (List (Nat × Val))), AllNoRef ms → helper w ms rest = .ok r →
      (r.isSome ↔ ∃ ys, Pairs w ms ys ∧ ys.Nodup ∧ ∀ y ∈ ys, y ∈ rest)
  | .nil, rest, r, _, h => by
    rw [helper, Except.ok.injEq] at h
    subst h
    refine ⟨fun _ => ⟨[], by rw [Pairs], List.nodup_nil, fun y hy => (by cases hy)⟩, fun _ => rfl⟩
  | .cons m ms, rest, r, hn, h => by
    rw [helper_cons] at h
    rw [AllNoRef] at hn
    cases r with
    | none =>
      refine ⟨fun q => (by cases q), ?_⟩
      rintro ⟨ys, h1, h2, h3⟩
      rw [Pairs] at h1
      obtain ⟨y, zs, rfl, h4, h5⟩ := h1
      have hy : y ∈ w.order rest := (hw.order rest y).2 (h3 y List.mem_cons_self)
      rcases one_none (firstSome_none h y hy) with q | ⟨c, q1, q2⟩
      · exact (mat_iff hw m y none hn.1 q).2 h4
      · refine (helper_iff hw ms _ none hn.2 q2).2 ⟨zs, h5, (List.nodup_cons.1 h2).2, fun z hz => ?_⟩
        rw [List.mem_filter, decide_eq_true_eq]
        exact ⟨h3 z (List.mem_cons_of_mem _ hz), fun e => (List.nodup_cons.1 h2).1 (e ▸ hz)⟩
    | some b =>
      refine ⟨fun _ => ?_, fun _ => rfl⟩
      obtain ⟨y, hy, ho⟩ := firstSome_some h
      obtain ⟨c, d, h1, h2, _⟩ := one_some ho
      obtain ⟨zs, h3, h4, h5⟩ := (helper_iff hw ms _ _ hn.2 h2).1 rfl
      refine ⟨y :: zs, ?_, ?_, ?_⟩
      · rw [Pairs]
        exact ⟨y, zs, rfl, (mat_iff hw m y _ hn.1 h1).1 rfl, h3⟩
      · rw [List.nodup_cons]
        refine ⟨fun q => ?_, h4⟩
        have := h5 y q
        rw [List.mem_filter, decide_eq_true_eq] at this
        exact this.2 rfl
      · intro z hz
        rcases List.mem_cons.1 hz with q | q
        · rw [q]; exact (hw.order rest y).1 hy
        · exact (List.mem_filter.1 (h5 z q)).1
end

/-- C170: every answer about a matcher without `Ref` is right. -/
theorem answer_iff {w : World} (hw : w.Ok) (m : M) (hm : NoRef m) (x : Nat)
    (r : Option (List (Nat × Val))) (h : mat w m x = .ok r) : r.isSome ↔ Fits w m x :=
  mat_iff hw m x r hm h

mutual
theorem safe_ok (w : World) : ∀ (m : M) (x : Nat), Safe m → ∃ r, mat w m x = .ok r
  | .plain b, x, _ => by rw [mat]; exact ⟨_, rfl⟩
  | .ref b, x, _ => by rw [mat]; exact ⟨_, rfl⟩
  | .allOf b ms, x, hs => by
    rw [mat]
    rw [Safe] at hs
    exact safe_all w ms x b [] hs
  | .anyOf b ms, x, hs => by
    rw [Safe] at hs
    exact hs.elim
  | .display b, x, _ => by
    rw [mat]
    by_cases q : w.display = x
    · rw [if_pos q]; exact ⟨_, rfl⟩
    · rw [if_neg q]; exact ⟨_, rfl⟩
  | .file b literal, x, _ => by
    rw [mat]
    by_cases q : w.inFs x = false
    · rw [if_pos q]; exact ⟨_, rfl⟩
    · rw [if_neg q]
      by_cases q2 : literal = true
      · rw [if_pos q2]
        by_cases q3 : w.path x = w.pathOf b
        · rw [if_pos q3]; exact ⟨_, rfl⟩
        · rw [if_neg q3]; exact ⟨_, rfl⟩
      · rw [if_neg q2]; exact ⟨_, rfl⟩
  | .children b ms exact, x, hs => by
    rw [Safe] at hs
    exact hs.elim
  | .parents b ms exact, x, hs => by
    rw [Safe] at hs
    rw [mat]
    by_cases hc : exact = true ∧ ((w.parents x).filter fun y => w.anon y = false).length ≠ ms.length
    · rw [if_pos hc]; exact ⟨_, rfl⟩
    · rw [if_neg hc]; exact safe_helper w ms _ hs
theorem safe_all (w : World) : ∀ (ms : Ms) (x b : Nat) (acc : List (Nat × Val)), AllSafe ms →
    ∃ r, matAll w ms x b acc = .ok r
  | .nil, x, b, acc, _ => by rw [matAll]; exact ⟨_, rfl⟩
  | .cons m ms, x, b, acc, hs => by
    rw [AllSafe] at hs
    obtain ⟨r, hr⟩ := safe_ok w m x hs.1
    rw [matAll, hr]
    cases r with
    | none => exact ⟨_, rfl⟩
    | some c => exact safe_all w ms x b _ hs.2
theorem safe_helper (w : World) : ∀ (ms : Ms) (rest : List Nat), AllSafe ms →
    ∃ r, helper w ms rest = .ok r
  | .nil, rest, _ => by rw [helper]; exact ⟨_, rfl⟩
  | .cons m ms, rest, hs => by
    rw [AllSafe] at hs
    rw [helper_cons]
    refine firstSome_ok fun y _ => ?_
    unfold one
    obtain ⟨r, hr⟩ := safe_ok w m y hs.1
    rw [hr]
    cases r with
    | none => exact ⟨_, rfl⟩
    | some c =>
      obtain ⟨r2, hr2⟩ := safe_helper w ms (rest.filter (· ≠ y)) hs.2
      dsimp only
      rw [hr2]
      cases r2 with
      | none => exact ⟨_, rfl⟩
      | some d => exact ⟨_, rfl⟩
end

/-- C170: a matcher without `Ref`, `AnyOf` and `Children` matches exactly the symbols that are as it
says, in whatever order they are looked at.  The full claim is `MatchClaim`. -/
theorem match_partial {w : World} (hw : w.Ok) (m : M) (hr : NoRef m) (hs : Safe m) (x : Nat) :
    ∃ r, mat w m x = .ok r ∧ (r.isSome ↔ Fits w m x) := by
  obtain ⟨r, h⟩ := safe_ok w m x hs
  exact ⟨r, h, mat_iff hw m x r hr h⟩

/-- C170: `Ref` matches nothing. -/
theorem ref_never (w : World) (b x : Nat) : mat w (.ref b) x = .ok none := by rw [mat]

/-- C170: `Children` always raises. -/
theorem children_raises (w : World) (b : Nat) (ms : Ms) (exact : Bool) (x : Nat) :
    mat w (.children b ms exact) x = .error .crash := by rw [mat]

/-- C170: `AnyOf` raises for the symbols that are as none of its matchers says. -/
theorem any_raises {w : World} (hw : w.Ok) (b : Nat) (ms : Ms) (hr : NoRef (.anyOf b ms)) (x : Nat)
    (hn : ¬ Fits w (.anyOf b ms) x) : ∃ e, mat w (.anyOf b ms) x = .error e := by
  cases h : mat w (.anyOf b ms) x with
  | error e => exact ⟨e, rfl⟩
  | ok r =>
    exfalso
    rw [mat] at h
    rw [NoRef] at hr
    rw [Fits] at hn
    exact hn ((matAny_iff hw ms x b none r hr h).2 rfl)

/-- C170: `AllOf` raises if `AnyOf` inside does and those before it match. -/
theorem all_raises {w : World} (b : Nat) (m m' : M) (x : Nat) (c : List (Nat × Val))
    (h : mat w m x = .ok (some c)) (e : Err) (h' : mat w m' x = .error e) :
    mat w (.allOf b (.cons m (.cons m' .nil))) x = .error e := by
  rw [mat, matAll, h]
  dsimp only
  rw [matAll, h']

theorem get_update (n : Nat) (b c : List (Nat × Val)) :
    Assoc.get (update b c) n = (Assoc.get c n).or (Assoc.get b n) := by
  induction c with
  | nil => rfl
  | cons p c ih =>
    obtain ⟨k, v⟩ := p
    show Assoc.get (Assoc.set (update b c) k v) n = _
    rw [Assoc.get_set, ih]
    by_cases e : n = k
    · rw [if_pos e, e]
      simp [Assoc.get]
    · rw [if_neg e]
      simp [Assoc.get, Ne.symm e]

theorem get_single {b n : Nat} {u v : Val} (h : Assoc.get [(b, u)] n = some v) : b = n ∧ v = u := by
  by_cases e : b = n
  · simp only [Assoc.get, if_pos e, Option.some.injEq] at h
    exact ⟨e, h.symm⟩
  · simp [Assoc.get, if_neg e] at h

theorem some_mono {w : World} {n : Nat} {v : Val} : ∀ (ms : Ms) (p q : Nat → Prop),
    (∀ y, p y → q y) → SomeBinds w n v ms p → SomeBinds w n v ms q
  | .nil, p, q, _, h => by rw [SomeBinds] at h; exact h.elim
  | .cons m ms, p, q, hpq, h => by
    rw [SomeBinds] at h ⊢
    rcases h with ⟨y, h1, h2⟩ | h
    · exact .inl ⟨y, hpq y h1, h2⟩
    · exact .inr (some_mono ms p q hpq h)

mutual
theorem mat_binds {w : World} (hw : w.Ok) (n : Nat) (v : Val) : ∀ (m : M) (x : Nat)
    (c : List (Nat × Val)), NoRef m → mat w m x = .ok (some c) → Assoc.get c n = some v →
      Binds w n v m x
  | .plain b, x, c, _, h, hg => by
    rw [mat] at h
    cases h
    rw [Binds]
    exact get_single hg
  | .ref b, x, c, hn, _, _ => by
    rw [NoRef] at hn
    exact hn.elim
  | .allOf b ms, x, c, hn, h, hg => by
    rw [mat] at h
    rw [NoRef] at hn
    rw [Binds]
    rcases all_binds hw n v ms x b [] c hn h hg with q | ⟨q1, q2⟩
    · exact .inl q
    · exact .inr ⟨q1, q2.resolve_left fun e => by cases e⟩
  | .anyOf b ms, x, c, hn, h, hg => by
    rw [mat] at h
    rw [NoRef] at hn
    rw [Binds]
    rcases any_binds hw n v ms x b none c hn h hg with q | ⟨q1, q2⟩
    · exact .inl q
    · exact .inr ⟨q1, q2.resolve_left fun e => by cases e⟩
  | .display b, x, c, _, h, hg => by
    rw [mat] at h
    rw [Binds]
    by_cases q : w.display = x
    · rw [if_pos q] at h
      cases h
      exact get_single hg
    · rw [if_neg q] at h
      cases h
  | .file b literal, x, c, _, h, hg => by
    rw [mat] at h
    rw [Binds]
    by_cases q : w.inFs x = false
    · rw [if_pos q] at h
      cases h
    · rw [if_neg q] at h
      cases literal with
      | true =>
        rw [if_pos rfl] at h
        by_cases q3 : w.path x = w.pathOf b
        · rw [if_pos q3] at h
          cases h
          cases hg
        · rw [if_neg q3] at h
          cases h
      | false =>
        rw [if_neg (by decide)] at h
        cases h
        exact ⟨(get_single hg).1, rfl, (get_single hg).2⟩
  | .children b ms exact, x, c, _, h, _ => by
    rw [mat] at h
    cases h
  | .parents b ms exact, x, c, hn, h, hg => by
    rw [NoRef] at hn
    rw [mat] at h
    rw [Binds]
    by_cases hc : exact = true ∧ ((w.parents x).filter fun y => w.anon y = false).length ≠ ms.length
    · rw [if_pos hc] at h
      cases h
    · rw [if_neg hc] at h
      refine some_mono ms _ _ ?_ (helper_binds hw n v ms _ c hn h hg)
      intro y hy
      rw [List.mem_filter, decide_eq_true_eq] at hy
      exact hy
theorem all_binds {w : World} (hw : w.Ok) (n : Nat) (v : Val) : ∀ (ms : Ms) (x b : Nat)
    (acc c : List (Nat × Val)), AllNoRef ms → matAll w ms x b acc = .ok (some c) →
      Assoc.get c n = some v →
      (b = n ∧ v = .sym x) ∨ (b ≠ n ∧ (Assoc.get acc n = some v ∨ ListBinds w n v ms x))
  | .nil, x, b, acc, c, _, h, hg => by
    rw [matAll] at h
    cases h
    rw [Assoc.get_set] at hg
    by_cases e : n = b
    · rw [if_pos e, Option.some.injEq] at hg
      exact .inl ⟨e.symm, hg.symm⟩
    · rw [if_neg e] at hg
      exact .inr ⟨Ne.symm e, .inl hg⟩
  | .cons m ms, x, b, acc, c, hn, h, hg => by
    rw [matAll] at h
    rw [AllNoRef] at hn
    cases hm : mat w m x with
    | error e => rw [hm] at h; cases h
    | ok r1 =>
      rw [hm] at h
      cases r1 with
      | none => cases h
      | some d =>
        rcases all_binds hw n v ms x b _ c hn.2 h hg with q | ⟨q1, q2⟩
        · exact .inl q
        · refine .inr ⟨q1, ?_⟩
          rw [ListBinds]
          rcases q2 with q2 | q2
          · rw [get_update] at q2
            rcases Option.or_eq_some_iff.1 q2 with q3 | ⟨_, q3⟩
            · exact .inr (.inl ⟨(mat_iff hw m x _ hn.1 hm).1 rfl, mat_binds hw n v m x d hn.1 hm q3⟩)
            · exact .inl q3
          · exact .inr (.inr q2)
theorem any_binds {w : World} (hw : w.Ok) (n : Nat) (v : Val) : ∀ (ms : Ms) (x b : Nat)
    (acc : Option (List (Nat × Val))) (c : List (Nat × Val)), AllNoRef ms →
      matAny w ms x b acc = .ok (some c) → Assoc.get c n = some v →
      (b = n ∧ v = .sym x) ∨ (b ≠ n ∧ (Assoc.get (acc.getD []) n = some v ∨ ListBinds w n v ms x))
  | .nil, x, b, acc, c, _, h, hg => by
    cases acc with
    | none => rw [matAny] at h; cases h
    | some acc =>
      rw [matAny] at h
      cases h
      rw [Assoc.get_set] at hg
      by_cases e : n = b
      · rw [if_pos e, Option.some.injEq] at hg
        exact .inl ⟨e.symm, hg.symm⟩
      · rw [if_neg e] at hg
        exact .inr ⟨Ne.symm e, .inl hg⟩
  | .cons m ms, x, b, acc, c, hn, h, hg => by
    rw [matAny] at h
    rw [AllNoRef] at hn
    rw [ListBinds]
    cases hm : mat w m x with
    | error e => rw [hm] at h; cases h
    | ok r1 =>
      rw [hm] at h
      cases r1 with
      | none =>
        rcases any_binds hw n v ms x b _ c hn.2 h hg with q | ⟨q1, q2 | q2⟩
        · exact .inl q
        · exact .inr ⟨q1, .inl q2⟩
        · exact .inr ⟨q1, .inr (.inr q2)⟩
      | some d =>
        rcases any_binds hw n v ms x b _ c hn.2 h hg with q | ⟨q1, q2 | q2⟩
        · exact .inl q
        · refine .inr ⟨q1, ?_⟩
          rw [Option.getD_some, get_update] at q2
          rcases Option.or_eq_some_iff.1 q2 with q3 | ⟨_, q3⟩
          · exact .inr (.inl ⟨(mat_iff hw m x _ hn.1 hm).1 rfl, mat_binds hw n v m x d hn.1 hm q3⟩)
          · exact .inl q3
        · exact .inr ⟨q1, .inr (.inr q2)⟩
theorem helper_binds {w : World} (hw : w.Ok) (n : Nat) (v : Val) : ∀ (ms : Ms) (rest : List Nat)
    (c : List (Nat × Val)), AllNoRef ms → helper w ms rest = .ok (some c) → Assoc.get c n = some v →
      SomeBinds w n v ms (· ∈ rest)
  | .nil, rest, c, _, h, hg => by
    rw [helper] at h
    cases h
    cases hg
  | .cons m ms, rest, c, hn, h, hg => by
    rw [helper_cons] at h
    rw [AllNoRef] at hn
    rw [SomeBinds]
    obtain ⟨y, hy, ho⟩ := firstSome_some h
    obtain ⟨d, e, h1, h2, rfl⟩ := one_some ho
    rw [get_update] at hg
    rcases Option.or_eq_some_iff.1 hg with q | ⟨_, q⟩
    · refine .inr (some_mono ms _ _ ?_ (helper_binds hw n v ms _ e hn.2 h2 q))
      exact fun z hz => (List.mem_filter.1 hz).1
    · exact .inl ⟨y, (hw.order rest y).1 hy, (mat_iff hw m y _ hn.1 h1).1 rfl,
        mat_binds hw n v m y d hn.1 h1 q⟩
end

/-- C171: whatever a name is bound to is the symbol, or the object of the symbol, that a matcher with
this name was held against, and it is as that matcher says. -/
theorem bound_sound {w : World} (hw : w.Ok) (m : M) (hm : NoRef m) (x : Nat) (c : List (Nat × Val))
    (h : mat w m x = .ok (some c)) (n : Nat) (v : Val) (hg : Assoc.get c n = some v) :
    Binds w n v m x := mat_binds hw n v m x c hm h hg

theorem all_own {w : World} : ∀ (ms : Ms) (x b : Nat) (acc c : List (Nat × Val)),
    matAll w ms x b acc = .ok (some c) → Assoc.get c b = some (.sym x)
  | .nil, x, b, acc, c, h => by
    rw [matAll] at h
    cases h
    exact Assoc.get_set_self _ _ _
  | .cons m ms, x, b, acc, c, h => by
    rw [matAll] at h
    cases hm : mat w m x with
    | error e => rw [hm] at h; cases h
    | ok r1 =>
      rw [hm] at h
      cases r1 with
      | none => cases h
      | some d => exact all_own ms x b _ c h

theorem any_own {w : World} : ∀ (ms : Ms) (x b : Nat) (acc : Option (List (Nat × Val)))
    (c : List (Nat × Val)), matAny w ms x b acc = .ok (some c) → Assoc.get c b = some (.sym x)
  | .nil, x, b, acc, c, h => by
    cases acc with
    | none => rw [matAny] at h; cases h
    | some acc =>
      rw [matAny] at h
      cases h
      exact Assoc.get_set_self _ _ _
  | .cons m ms, x, b, acc, c, h => by
    rw [matAny] at h
    cases hm : mat w m x with
    | error e => rw [hm] at h; cases h
    | ok r1 =>
      rw [hm] at h
      cases r1 with
      | none => exact any_own ms x b _ c h
      | some d => exact any_own ms x b _ c h

/-- C171: `AllOf` binds its name to the symbol, whatever the matchers inside bind. -/
theorem all_binds_own {w : World} (b : Nat) (ms : Ms) (x : Nat) (c : List (Nat × Val))
    (h : mat w (.allOf b ms) x = .ok (some c)) : Assoc.get c b = some (.sym x) := by
  rw [mat] at h
  exact all_own ms x b [] c h

/-- C171: so does `AnyOf`. -/
theorem any_binds_own {w : World} (b : Nat) (ms : Ms) (x : Nat) (c : List (Nat × Val))
    (h : mat w (.anyOf b ms) x = .ok (some c)) : Assoc.get c b = some (.sym x) := by
  rw [mat] at h
  exact any_own ms x b none c h

mutual
theorem binds_mentions {w : World} {n : Nat} {v : Val} : ∀ (m : M) (x : Nat), Binds w n v m x →
    Mentions n m
  | .plain b, x, h => by rw [Binds] at h; rw [Mentions]; exact h.1
  | .ref b, x, h => by rw [Binds] at h; exact h.elim
  | .allOf b ms, x, h => by
    rw [Binds] at h
    rw [Mentions]
    rcases h with h | h
    · exact .inl h.1
    · exact .inr (list_mentions ms x h.2)
  | .anyOf b ms, x, h => by
    rw [Binds] at h
    rw [Mentions]
    rcases h with h | h
    · exact .inl h.1
    · exact .inr (list_mentions ms x h.2)
  | .display b, x, h => by rw [Binds] at h; rw [Mentions]; exact h.1
  | .file b literal, x, h => by rw [Binds] at h; rw [Mentions]; exact ⟨h.1, h.2.1⟩
  | .children b ms exact, x, h => by rw [Binds] at h; exact h.elim
  | .parents b ms exact, x, h => by rw [Binds] at h; rw [Mentions]; exact some_mentions ms _ h
theorem list_mentions {w : World} {n : Nat} {v : Val} : ∀ (ms : Ms) (x : Nat), ListBinds w n v ms x →
    ListMentions n ms
  | .nil, x, h => by rw [ListBinds] at h; exact h.elim
  | .cons m ms, x, h => by
    rw [ListBinds] at h
    rw [ListMentions]
    rcases h with h | h
    · exact .inl (binds_mentions m x h.2)
    · exact .inr (list_mentions ms x h)
theorem some_mentions {w : World} {n : Nat} {v : Val} : ∀ (ms : Ms) (p : Nat → Prop),
    SomeBinds w n v ms p → ListMentions n ms
  | .nil, p, h => by rw [SomeBinds] at h; exact h.elim
  | .cons m ms, p, h => by
    rw [SomeBinds] at h
    rw [ListMentions]
    rcases h with ⟨y, _, _, h⟩ | h
    · exact .inl (binds_mentions m y h)
    · exact .inr (some_mentions ms p h)
end

/-- C171: names that are not mentioned are not bound; in particular the name of `Parents` is bound to
nothing, unless a matcher inside has it. -/
theorem unmentioned_unbound {w : World} (hw : w.Ok) (m : M) (hm : NoRef m) (x : Nat)
    (c : List (Nat × Val)) (h : mat w m x = .ok (some c)) (n : Nat) (hn : ¬ Mentions n m) :
    Assoc.get c n = none := by
  cases hg : Assoc.get c n with
  | none => rfl
  | some v => exact absurd (binds_mentions m x (mat_binds hw n v m x c hm h hg)) hn

theorem or_isSome {a b : Option Val} (h : a.isSome ∨ b.isSome) : (a.or b).isSome := by
  cases a with
  | some v => rfl
  | none => exact h.resolve_left (by simp)

mutual
theorem mat_needs {w : World} (n : Nat) : ∀ (m : M) (x : Nat) (c : List (Nat × Val)), Needs n m →
    mat w m x = .ok (some c) → (Assoc.get c n).isSome
  | .plain b, x, c, hn, h => by
    rw [mat] at h
    cases h
    rw [Needs] at hn
    simp [Assoc.get, hn]
  | .ref b, x, c, hn, _ => by rw [Needs] at hn; exact hn.elim
  | .allOf b ms, x, c, hn, h => by
    rw [Needs] at hn
    rw [mat] at h
    rcases hn with hn | hn
    · rw [← hn, all_own ms x b [] c h]; rfl
    · exact all_needs n ms x b [] c (.inr hn) h
  | .anyOf b ms, x, c, hn, h => by
    rw [Needs] at hn
    rw [mat] at h
    rw [← hn, any_own ms x b none c h]
    rfl
  | .display b, x, c, hn, h => by
    rw [mat] at h
    rw [Needs] at hn
    by_cases q : w.display = x
    · rw [if_pos q] at h
      cases h
      simp [Assoc.get, hn]
    · rw [if_neg q] at h
      cases h
  | .file b literal, x, c, hn, h => by
    rw [mat] at h
    rw [Needs] at hn
    by_cases q : w.inFs x = false
    · rw [if_pos q] at h
      cases h
    · rw [if_neg q, hn.2, if_neg (by decide)] at h
      cases h
      simp [Assoc.get, hn.1]
  | .children b ms exact, x, c, _, h => by
    rw [mat] at h
    cases h
  | .parents b ms exact, x, c, hn, h => by
    rw [Needs] at hn
    rw [mat] at h
    by_cases hc : exact = true ∧ ((w.parents x).filter fun y => w.anon y = false).length ≠ ms.length
    · rw [if_pos hc] at h
      cases h
    · rw [if_neg hc] at h
      exact helper_needs n ms _ c hn h
theorem all_needs {w : World} (n : Nat) : ∀ (ms : Ms) (x b : Nat) (acc c : List (Nat × Val)),
    ((Assoc.get acc n).isSome ∨ ListNeeds n ms) → matAll w ms x b acc = .ok (some c) →
      (Assoc.get c n).isSome
  | .nil, x, b, acc, c, hn, h => by
    rw [matAll] at h
    cases h
    rw [ListNeeds] at hn
    rw [Assoc.get_set]
    by_cases e : n = b
    · rw [if_pos e]; rfl
    · rw [if_neg e]; exact hn.resolve_right id
  | .cons m ms, x, b, acc, c, hn, h => by
    rw [matAll] at h
    rw [ListNeeds] at hn
    cases hm : mat w m x with
    | error e => rw [hm] at h; cases h
    | ok r1 =>
      rw [hm] at h
      cases r1 with
      | none => cases h
      | some d =>
        refine all_needs n ms x b _ c ?_ h
        rw [get_update]
        rcases hn with q | q | q
        · exact .inl (or_isSome (.inr q))
        · exact .inl (or_isSome (.inl (mat_needs n m x d q hm)))
        · exact .inr q
theorem helper_needs {w : World} (n : Nat) : ∀ (ms : Ms) (rest : List Nat) (c : List (Nat × Val)),
    ListNeeds n ms → helper w ms rest = .ok (some c) → (Assoc.get c n).isSome
  | .nil, rest, c, hn, _ => by rw [ListNeeds] at hn; exact hn.elim
  | .cons m ms, rest, c, hn, h => by
    rw [helper_cons] at h
    rw [ListNeeds] at hn
    obtain ⟨y, _, ho⟩ := firstSome_some h
    obtain ⟨d, e, h1, h2, rfl⟩ := one_some ho
    rw [get_update]
    rcases hn with q | q
    · exact or_isSome (.inr (mat_needs n m y d q h1))
    · exact or_isSome (.inl (helper_needs n ms _ e q h2))
end

/-- C171: the names of the matchers that have to match are bound, except those of `Parents`, `Ref` and
literal paths. -/
theorem needed_bound {w : World} (m : M) (x : Nat) (c : List (Nat × Val))
    (h : mat w m x = .ok (some c)) (n : Nat) (hn : Needs n m) : (Assoc.get c n).isSome :=
  mat_needs n m x c hn h

/-- C171: if two matchers of `AnyOf` match, what the later one binds is kept. -/
theorem later_wins {w : World} (b : Nat) (m1 m2 : M) (x : Nat) (c1 c2 c : List (Nat × Val)) (n : Nat)
    (h1 : mat w m1 x = .ok (some c1)) (h2 : mat w m2 x = .ok (some c2)) (hn : n ≠ b)
    (h : mat w (.anyOf b (.cons m1 (.cons m2 .nil))) x = .ok (some c)) :
    Assoc.get c n = (Assoc.get c2 n).or (Assoc.get c1 n) := by
  rw [mat, matAny, h1] at h
  dsimp only at h
  rw [matAny, h2] at h
  dsimp only at h
  rw [matAny] at h
  cases h
  rw [Assoc.get_set_ne _ _ hn, Option.getD_some, get_update, get_update]
  cases Assoc.get c2 n with
  | some v => rfl
  | none =>
    cases Assoc.get c1 n with
    | some v => rfl
    | none => rfl

end Verif.Matchers
