/-
What the unparser writes is read back as the same expression.
-/
import Verif.Text.Lemmas

namespace Verif.Text

/-- An operand of precedence `n` ends here (grammar of the texts of statement.py 91-115). -/
def Free (n : Nat) (r : List Tok) : Prop :=
  r.head? ≠ some .lp ∧ ∀ o, r.head? = some (.op o) → prec o < n

theorem Free.mono {n m r} (h : Free n r) (hm : n ≤ m) : Free m r :=
  ⟨h.1, fun o ho => Nat.lt_of_lt_of_le (h.2 o ho) hm⟩

theorem Shut.free {n r} (h : Shut r) : Free n r := by
  refine ⟨fun h' => ?_, fun o h' => ?_⟩ <;>
  · rcases h with h | h | h | h <;> rw [h] at h' <;> simp at h'

theorem Shut.not_comma {r} (h : Shut r) : r.head? ≠ some .comma := by
  intro h'
  rcases h with h | h | h | h <;> rw [h] at h' <;> simp at h'

theorem free_comma {n r} : Free n (.comma :: r) :=
  ⟨by simp, fun o h => by simp at h⟩

theorem shut_rp {r} : Shut (.rp :: r) := .inr (.inl rfl)

/-- The text stands for the expression where an operand of precedence `n` is read (texts of
statement.py 91-115). -/
def Plain (n : Nat) (t : List Tok) (e : Expr) : Prop :=
  ∀ r, Free n r → Rd (.lev n) (t ++ r) e r

theorem plain_step {n t e} (hn : n ≤ 16) (h : Plain (n + 1) t e) : Plain n t e := by
  intro r hr
  have h' := h r (hr.mono (by omega))
  rcases (by omega : n < 15 ∨ n = 15 ∨ n = 16) with hn | rfl | rfl
  · refine .left hn h' (.leftEnd fun o ho => ?_)
    have := hr.2 o ho
    omega
  · exact .factor h'
  · refine .powerEnd h' fun hp => ?_
    have := hr.2 _ hp
    simp [prec] at this

theorem plain_down {n t e} (hn : n ≤ 17) (h : Plain n t e) (m : Nat) (hm : m ≤ n) :
    Plain m t e := by
  obtain ⟨d, rfl⟩ := Nat.exists_eq_add_of_le hm
  clear hm
  induction d with
  | zero => exact h
  | succ d ih => exact ih (by omega) (plain_step (by omega) h)

/-- The text stands for the expression where precedence `q` is asked for, also as the left part of
something longer (texts of statement.py 91-115). -/
structure Fits (q : Nat) (t : List Tok) (e : Expr) : Prop where
  left : q ≤ 14 → ∀ r e' r', Free (q + 1) r → Rd (.tl q e) r e' r' → Rd (.lev q) (t ++ r) e' r'
  mid : q = 15 ∨ q = 16 → Plain q t e
  prim : 17 ≤ q → ∀ r e' r', Rd (.ptl e) r e' r' → Rd (.lev 17) (t ++ r) e' r'

theorem Fits.plain {q t e} (h : Fits q t e) (hq : q ≤ 16) : Plain q t e := by
  rcases (by omega : q ≤ 14 ∨ q = 15 ∨ q = 16) with hq | hq
  · intro r hr
    refine h.left hq r e r (hr.mono (by omega)) (.leftEnd fun o ho => ?_)
    have := hr.2 o ho
    omega
  · exact h.mid hq

theorem Fits.plain17 {q t e} (h : Fits q t e) (hq : 17 ≤ q) : Plain 17 t e := by
  intro r hr
  exact h.prim hq r e r (.callEnd hr.1)

theorem fits_of_plain {n q t e} (hn : n ≤ 17) (h : Plain n t e) (hq : q ≤ n) (hq' : q ≤ 16)
    (hl : q < n ∨ 15 ≤ q) : Fits q t e := by
  refine ⟨fun hq r e' r' hr hr' => ?_, fun _ => plain_down hn h q hq, fun h => by omega⟩
  exact .left (by omega) (plain_down hn h (q + 1) (by omega) r hr) hr'

theorem fits_of_prim {q t e}
    (h : ∀ r e' r', Rd (.ptl e) r e' r' → Rd (.lev 17) (t ++ r) e' r') : Fits q t e := by
  by_cases hq : 17 ≤ q
  · exact ⟨fun h => by omega, fun h => by omega, fun _ => h⟩
  · exact fits_of_plain (n := 17) (by omega) (fun r hr => h r e r (.callEnd hr.1)) (by omega)
      (by omega) (by omega)

theorem fits_of_atom {q t e} (h : ∀ r, Rd .atom (t ++ r) e r) : Fits q t e :=
  fits_of_prim fun r _ _ hr => .primary (h r) hr

theorem atom_of_plain {t e} (h : Plain 9 t e) (r : List Tok) :
    Rd .atom (.lp :: (t ++ [.rp]) ++ r) e r := by
  rw [List.cons_append, List.append_assoc]
  exact .group (.topOne (h _ shut_rp.free) shut_rp.not_comma)

theorem fits_paren {q t e} {b : Bool} (hp : Plain 9 t e)
    (h : b = false → Fits q t e) : Fits q (paren b t) e := by
  cases b with
  | true => exact fits_of_atom (atom_of_plain hp)
  | false => exact h rfl

theorem wraps_false {u q p} (h : wraps u q p = false) : q ≤ p := by
  cases u with
  | builtin => simpa [wraps] using h
  | package => simp [wraps] at h

theorem free_fifteen {r} (h : Free 16 r) : Free 15 r := by
  refine ⟨h.1, fun o ho => ?_⟩
  have := h.2 o ho
  cases o <;> simp_all [prec]

/-- An operator between two operands. -/
theorem fits_bin {o a b ta tb} (ha : Fits (precL o) ta a) (hb : Fits (precR o) tb b) (q : Nat)
    (hq : q ≤ prec o) : Fits q (ta ++ .op o :: tb) (.bin o a b) := by
  have left : ∀ p, prec o = p → precL o = p → precR o = p + 1 → 9 ≤ p → p ≤ 14 →
      Fits q (ta ++ .op o :: tb) (.bin o a b) := by
    intro p h1 h2 h3 h4 h5
    rw [h2] at ha
    rw [h3] at hb
    have hl : ∀ r e' r', Free (p + 1) r → Rd (.tl p (.bin o a b)) r e' r' →
        Rd (.lev p) ((ta ++ .op o :: tb) ++ r) e' r' := by
      intro r e' r' hr hr'
      rw [List.append_assoc, List.cons_append]
      refine ha.left h5 _ _ _ ⟨by simp, fun o' h => ?_⟩ ?_
      · simp only [List.head?_cons, Option.some.injEq, Tok.op.injEq] at h
        subst h
        omega
      · exact .leftTl (by omega) h1 (hb.plain (by omega) r hr) hr'
    have hf : Fits p (ta ++ .op o :: tb) (.bin o a b) :=
      ⟨fun _ => hl, fun h => by omega, fun h => by omega⟩
    by_cases hqp : q = p
    · exact hqp ▸ hf
    · exact fits_of_plain (n := p) (by omega) (hf.plain (by omega)) (by omega) (by omega)
        (by omega)
  cases o with
  | pow =>
    refine fits_of_plain (n := 16) (by omega) ?_ hq hq (by simp only [prec] at hq; omega)
    intro r hr
    rw [List.append_assoc, List.cons_append]
    exact .power (ha.plain17 (by simp [precL]) _ ⟨by simp, fun o h => by
        simp only [List.head?_cons, Option.some.injEq, Tok.op.injEq] at h
        subst h; simp [prec]⟩)
      (plain_down (n := 16) (by omega) (hb.plain (by simp [precR])) 15 (by omega) r
        (free_fifteen hr))
  | _ => exact left _ rfl rfl rfl (by simp [prec]) (by simp [prec])

theorem fits_neg {t e} (h : Fits 15 t e) (q : Nat) (hq : q ≤ 15) :
    Fits q (.op .sub :: t) (.neg e) := by
  refine fits_of_plain (n := 15) (by omega) ?_ hq (by omega) (by omega)
  intro r hr
  exact .minus (h.mid (.inl rfl) r hr)

theorem fits_call {tf ta f as} (hf : Fits 18 tf f)
    (ha : ∀ r, Shut r → Rd .items (ta ++ r) (.tup as) r) (q : Nat) :
    Fits q (tf ++ .lp :: (ta ++ [.rp])) (.call f as) := by
  refine fits_of_prim fun r e' r' hr => ?_
  rw [List.append_assoc, List.cons_append, List.append_assoc]
  exact hf.prim (by omega) _ _ _ (.callTl (ha _ shut_rp) hr)

theorem atom_of_top {t e} (h : ∀ r, Shut r → Rd .top (t ++ r) e r) (r : List Tok) :
    Rd .atom (.lp :: (t ++ [.rp]) ++ r) e r := by
  rw [List.cons_append, List.append_assoc]
  exact .group (h _ shut_rp)

theorem wrapsTuple_true {u q} (h : 3 ≤ q) : wrapsTuple u q = true := by
  cases u with
  | builtin => simp only [wrapsTuple, decide_eq_true_eq]; omega
  | package => rfl

theorem precL_bounds (o : Op) : 3 ≤ precL o ∧ precL o ≤ 18 := by cases o <;> simp [precL, prec]
theorem precR_bounds (o : Op) : 3 ≤ precR o ∧ precR o ≤ 18 := by cases o <;> simp [precR, prec]
theorem prec_bounds (o : Op) : 9 ≤ prec o ∧ prec o ≤ 16 := by cases o <;> simp [prec]

/-- The tuple without its brackets (statement.py 113). -/
def inner (u : Unp) : Exprs → List Tok
  | .nil => []
  | .cons e es => unparse u 4 e ++ .comma :: args u es

theorem unparse_tup (u : Unp) (q : Nat) (e : Expr) (es : Exprs) :
    unparse u q (.tup (.cons e es)) = paren (wrapsTuple u q) (inner u (.cons e es)) := by
  cases es <;> simp only [unparse, inner, args]

/-- `TEST` asks for brackets where the weakest operator does. -/
theorem unparse_four (u : Unp) (e : Expr) : unparse u 4 e = unparse u 9 e := by
  have hw : ∀ p, 9 ≤ p → wraps u 4 p = wraps u 9 p := by
    intro p hp
    cases u with
    | builtin =>
      simp only [wraps, decide_eq_decide]
      omega
    | package => rfl
  have ht : wrapsTuple u 4 = wrapsTuple u 9 := by cases u <;> rfl
  cases e with
  | name => simp only [unparse]
  | num => simp only [unparse]
  | neg e => simp only [unparse, hw 15 (by omega)]
  | bin o a b => simp only [unparse, hw _ (prec_bounds o).1]
  | call f as => simp only [unparse]
  | tup es =>
    cases es with
    | nil => simp only [unparse]
    | cons e es => rw [unparse_tup, unparse_tup, ht]

theorem plain_four {u e} (h : Fits 9 (unparse u 9 e) e) : Plain 9 (unparse u 4 e) e := by
  rw [unparse_four]
  exact h.plain (by omega)

/-- A tuple without its brackets is read back. -/
theorem inner_read {u e es} (h : Fits 9 (unparse u 9 e) e)
    (ha : ∀ r, Shut r → Rd .items (args u es ++ r) (.tup es) r) (r : List Tok) (hr : Shut r) :
    Rd .top (inner u (.cons e es) ++ r) (.tup (.cons e es)) r := by
  simp only [inner]
  rw [List.append_assoc, List.cons_append]
  exact .topTup (plain_four h _ free_comma) (ha r hr)

mutual
/-- What the unparser writes is read back. -/
theorem unparse_fits (u : Unp) : (e : Expr) → ∀ q, 3 ≤ q → Fits q (unparse u q e) e
  | .name n, q, _ => by
    simp only [unparse]
    exact fits_of_atom fun r => .name
  | .num n, q, _ => by
    simp only [unparse]
    exact fits_of_atom fun r => .num
  | .neg e, q, hq => by
    simp only [unparse]
    have ih := unparse_fits u e 15 (by omega)
    exact fits_paren ((fits_neg ih 9 (by omega)).plain (by omega))
      fun h => fits_neg ih q (wraps_false h)
  | .bin o a b, q, hq => by
    simp only [unparse]
    have iha := unparse_fits u a (precL o) (precL_bounds o).1
    have ihb := unparse_fits u b (precR o) (precR_bounds o).1
    exact fits_paren ((fits_bin iha ihb 9 (prec_bounds o).1).plain (by omega))
      fun h => fits_bin iha ihb q (wraps_false h)
  | .call f as, q, _ => by
    simp only [unparse]
    exact fits_call (unparse_fits u f 18 (by omega)) (args_read u as) q
  | .tup .nil, q, _ => by
    simp only [unparse]
    exact fits_of_atom fun r => .unit
  | .tup (.cons e es), q, hq => by
    rw [unparse_tup, wrapsTuple_true hq]
    exact fits_of_atom (atom_of_top
      (inner_read (unparse_fits u e 9 (by omega)) (args_read u es)))
/-- Expressions with commas between them are read back. -/
theorem args_read (u : Unp) : (es : Exprs) → ∀ r, Shut r → Rd .items (args u es ++ r) (.tup es) r
  | .nil, r, hr => by
    simp only [args]
    exact .itemsEnd hr
  | .cons e .nil, r, hr => by
    simp only [args]
    exact .itemsOne (plain_four (unparse_fits u e 9 (by omega)) r hr.free) hr.not_comma
  | .cons e (.cons e' es), r, hr => by
    simp only [args]
    rw [List.append_assoc, List.cons_append]
    exact .itemsMore (plain_four (unparse_fits u e 9 (by omega)) _ free_comma)
      (args_read u (.cons e' es) r hr)
end

end Verif.Text
