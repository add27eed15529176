import Verif.Span.Spec

/-!
# The range of a use marks the use -/

namespace Verif.Span
open Spec

/-- Sizes of one character. -/
theorem sizes (c : Char) : (c.val.toNat < 128 → c.utf8Size = 1 ∧ unit c = 1) ∧ (128 ≤ c.val.toNat → unit c + 1 ≤ c.utf8Size) ∧
    (128 ≤ c.val.toNat → c.val.toNat < 2048 → c.utf8Size = 2 ∧ unit c = 1) ∧ (2048 ≤ c.val.toNat → unit c + 2 ≤ c.utf8Size) := by
  have e1 : (c.val ≤ UInt32.ofNatLT 127 (by decide)) ↔ c.val.toNat ≤ 127 := UInt32.le_iff_toNat_le
  have e2 : (c.val ≤ UInt32.ofNatLT 2047 (by decide)) ↔ c.val.toNat ≤ 2047 := UInt32.le_iff_toNat_le
  have e3 : (c.val ≤ UInt32.ofNatLT 65535 (by decide)) ↔ c.val.toNat ≤ 65535 := UInt32.le_iff_toNat_le
  unfold Char.utf8Size Spec.unit
  simp only [e1, e2, e3]
  refine ⟨fun h => ?_, fun h => ?_, fun h h' => ?_, fun h => ?_⟩
  · rw [if_pos (by omega), if_pos (by omega)]
    exact ⟨rfl, rfl⟩
  · rw [if_neg (show ¬ c.val.toNat ≤ 127 by omega)]
    split <;> split <;> (try split) <;> omega
  · rw [if_neg (show ¬ c.val.toNat ≤ 127 by omega), if_pos (by omega), if_pos (by omega)]
    exact ⟨rfl, rfl⟩
  · rw [if_neg (show ¬ c.val.toNat ≤ 127 by omega), if_neg (show ¬ c.val.toNat ≤ 2047 by omega)]
    split <;> split <;> omega

theorem units_cons (c : Char) (l : List Char) : units (c :: l) = unit c + units l := by simp [units]

theorem units_append (a b : List Char) : units (a ++ b) = units a + units b := by simp [units]

theorem bytes_append (a b : List Char) : bytes (a ++ b) = bytes a + bytes b := by
  induction a with
  | nil => simp [bytes]
  | cons c a ih => simp only [List.cons_append, bytes, ih]; omega

theorem units_le_bytes (l : List Char) : units l ≤ bytes l := by
  induction l with
  | nil => simp [units, bytes]
  | cons c l ih =>
    rw [units_cons, bytes]
    have := sizes c
    by_cases h : c.val.toNat < 128
    · have := this.1 h; omega
    · have := this.2.1 (by omega); omega

theorem bytes_eq_iff (l : List Char) : bytes l = units l ↔ Plain l := by
  induction l with
  | nil => simp [units, bytes, Plain]
  | cons c l ih =>
    rw [units_cons, bytes]
    have hs := sizes c
    have hl := units_le_bytes l
    have hp : Plain (c :: l) ↔ c.val.toNat < 128 ∧ Plain l := by simp [Plain]
    rw [hp, ← ih]
    by_cases h : c.val.toNat < 128
    · have := hs.1 h; omega
    · have := hs.2.1 (by omega); omega

theorem bytes_succ_iff (l : List Char) : bytes l = units l + 1 ↔ OneTwoByte l := by
  induction l with
  | nil =>
    simp [units, bytes, OneTwoByte]
  | cons c l ih =>
    rw [units_cons, bytes]
    have hs := sizes c
    have hl := units_le_bytes l
    by_cases h : c.val.toNat < 128
    · have h1 := hs.1 h
      have : OneTwoByte (c :: l) ↔ OneTwoByte l := by
        constructor
        · rintro ⟨a, d, b, e, ha, hb, h2, h3⟩
          cases a with
          | nil =>
            injection e with e1 e2
            subst e1
            omega
          | cons x a =>
            injection e with e1 e2
            exact ⟨a, d, b, e2, fun y hy => ha y (by simp [hy]), hb, h2, h3⟩
        · rintro ⟨a, d, b, rfl, ha, hb, h2, h3⟩
          refine ⟨c :: a, d, b, rfl, fun y hy => ?_, hb, h2, h3⟩
          rcases List.mem_cons.1 hy with rfl | hy
          · exact h
          · exact ha y hy
      rw [this, ← ih]
      omega
    · have : OneTwoByte (c :: l) ↔ c.val.toNat < 2048 ∧ Plain l := by
        constructor
        · rintro ⟨a, d, b, e, ha, hb, h2, h3⟩
          cases a with
          | nil =>
            injection e with e1 e2
            subst e1 e2
            exact ⟨h3, hb⟩
          | cons x a =>
            injection e with e1 e2
            subst e1
            exact absurd (ha c (by simp)) h
        · rintro ⟨h2, hb⟩
          exact ⟨[], c, l, rfl, by simp [Plain], hb, by omega, h2⟩
      rw [this, ← bytes_eq_iff]
      by_cases h2 : c.val.toNat < 2048
      · have := hs.2.2.1 (by omega) h2; omega
      · have := hs.2.2.2 (by omega); omega

/-- **C194** (partial): the start of the range of a use is right exactly if there is only ASCII before the use in its line.

Full statement: start and end are right. It is false, see `end_exact` and `one_char_empty`. -/
theorem start_partial (first last : Place) : StartRight first (sent first last) ↔ Plain first.before := by
  rw [← bytes_eq_iff]
  simp only [StartRight, sent, range, parsed]
  omega

/-- **C194** (violated): the end of the range is right exactly if what is before it in its line is ASCII but for one character of two bytes; it is wrong for all uses in lines of
ASCII. -/
theorem end_exact (first last : Place) : EndRight last (sent first last) ↔ OneTwoByte last.before := by
  rw [← bytes_succ_iff]
  simp only [EndRight, sent, range, parsed]
  omega

/-- **C194**: for those who take the end to be the last character of the use, it is right exactly if up to there is only ASCII. -/
theorem last_exact (first last : Place) (hne : last.before ≠ []) : LastRight last (sent first last) ↔ Plain last.before := by
  obtain ⟨l, c, e⟩ : ∃ l c, last.before = l ++ [c] := ⟨_, _, (List.dropLast_concat_getLast hne).symm⟩
  have hp : Plain last.before ↔ Plain l ∧ c.val.toNat < 128 := by
    rw [e]
    constructor
    · exact fun h => ⟨fun x hx => h x (by simp [hx]), h c (by simp)⟩
    · rintro ⟨h1, h2⟩ x hx
      rcases List.mem_append.1 hx with hx | hx
      · exact h1 x hx
      · rw [List.mem_singleton.1 hx]; exact h2
  rw [hp, ← bytes_eq_iff]
  simp only [LastRight, sent, range, parsed]
  rw [e, List.dropLast_concat, bytes_append]
  have hs := sizes c
  have hl := units_le_bytes l
  have hb : bytes [c] = c.utf8Size := by simp [bytes]
  have hu : 0 < unit c := by unfold Spec.unit; split <;> omega
  rw [hb]
  by_cases h : c.val.toNat < 128
  · have := hs.1 h; omega
  · have := hs.2.1 (by omega); omega

/-- **C194** (violated): the range of a use of one ASCII character, as of `x`, is empty: it ends where it starts. -/
theorem one_char_empty (p : Place) (c : Char) (hc : Plain [c]) : (sent p ⟨p.line, p.before ++ [c]⟩).startLine = (sent p ⟨p.line, p.before ++ [c]⟩).endLine ∧
    (sent p ⟨p.line, p.before ++ [c]⟩).startChar = (sent p ⟨p.line, p.before ++ [c]⟩).endChar := by
  have h := (sizes c).1 (hc c (by simp))
  have hb : bytes [c] = c.utf8Size := by simp [bytes]
  simp only [sent, range, parsed, bytes_append, hb, h.1]
  exact ⟨trivial, by omega⟩

end Verif.Span
