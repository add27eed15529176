/-
Everyday statements whose text is lost on Python 3.9 and later.
-/
import Verif.Text.Props

namespace Verif.Text

/-- A product of two sums or differences, of whatever parts, standing in one line: `code` of
anything that depends on it is not a program. -/
theorem product_of_sums_lost (ss : List Stmt) (t : Expr) (o o' : Op) (a b c d : Expr)
    (ho : o = .add ∨ o = .sub) (ho' : o' = .add ∨ o' = .sub)
    (hs : ⟨[t], .bin .mul (.bin o a b) (.bin o' c d), true⟩ ∈ ss) (prog : List (List Expr)) :
    ¬ Reads (codeText .builtin ss) prog := by
  refine bad_no_program .builtin ss _ hs ⟨rfl, by simp, _, .inr rfl, ?_⟩ prog
  rcases ho with rfl | rfl <;> rcases ho' with rfl | rfl <;>
    simp [Lost, Spoilt, Opens, Closes, precL, precR, prec]

example : (⟨[.name 0], .bin .mul (.bin .add (.name 1) (.name 2)) (.bin .sub (.name 3) (.name 4)),
    true⟩ : Stmt) ∈ [⟨[.name 0], .bin .mul (.bin .add (.name 1) (.name 2))
      (.bin .sub (.name 3) (.name 4)), true⟩] := by simp

/-- A sum divided by the result of a call: `mean = (a + b) / len(c)`. -/
theorem quotient_by_call_lost (ss : List Stmt) (t a b f : Expr) (as : Exprs)
    (hs : ⟨[t], .bin .div (.bin .add a b) (.call f as), true⟩ ∈ ss) (prog : List (List Expr)) :
    ¬ Reads (codeText .builtin ss) prog := by
  refine bad_no_program .builtin ss _ hs ⟨rfl, by simp, _, .inr rfl, ?_⟩ prog
  simp [Lost, Spoilt, Opens, Closes, precL, prec]

example : text .builtin ⟨[.name 0], .bin .div (.bin .add (.name 1) (.name 2))
      (.call (.name 3) (.cons (.name 4) .nil)), true⟩
    = [.name 0, .eq, .name 1, .op .add, .name 2, .rp, .op .div, .name 3, .lp, .name 4] := rfl

/-- The empty tuple, with either unparser. -/
theorem empty_tuple_lost (u : Unp) (ss : List Stmt) (t : Expr)
    (hs : ⟨[t], .tup .nil, true⟩ ∈ ss) (prog : List (List Expr)) :
    ¬ Reads (codeText u ss) prog := by
  refine bad_no_program u ss _ hs ⟨rfl, by simp, _, .inr rfl, ?_⟩ prog
  cases u <;> simp [Lost, Spoilt]

example : text .package ⟨[.name 0], .tup .nil, true⟩ = [.name 0, .eq] := rfl

/-- An operator whose first operand has no bracket at its left end is safe, whatever follows. -/
theorem unbracketed_left_kept (ss : List Stmt) (t : Nat) (o : Op) (n : Nat) (b : Expr)
    (hs : ss = [⟨[.name t], .bin o (.name n) b, true⟩]) :
    Reads (codeText .builtin ss) [[.name t, .bin o (.name n) b]] := by
  subst hs
  refine code_reads_back_partial .builtin _ ?_
  intro s hs hb
  simp only [List.mem_singleton] at hs
  subst hs
  obtain ⟨_, _, e, he, hl⟩ := hb
  simp only [List.mem_singleton] at he
  rcases he with rfl | rfl
  · exact hl
  · exact hl.1

example : text .builtin ⟨[.name 0], .bin .mul (.name 1) (.bin .add (.name 2) (.name 3)), true⟩
    = [.name 0, .eq, .name 1, .op .mul, .lp, .name 2, .op .add, .name 3, .rp] := rfl

end Verif.Text
