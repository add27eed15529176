import Verif.Span.Props

namespace Verif.Span.Witness
open Verif.Span Spec

/-- `foo` in `y = foo`. -/
def use : Place × Place := (⟨0, "y = ".toList⟩, ⟨0, "y = foo".toList⟩)

example : StartRight use.1 (sent use.1 use.2) := (start_partial _ _).2 (by decide)

example : LastRight use.2 (sent use.1 use.2) := (last_exact _ _ (by decide)).2 (by decide)

/-- `x` in `print("é", x)`: the start is wrong and the end, by chance, right. -/
def accent : Place × Place := (⟨3, "print(\"é\", ".toList⟩, ⟨3, "print(\"é\", x".toList⟩)

example : ¬ StartRight accent.1 (sent accent.1 accent.2) ∧ EndRight accent.2 (sent accent.1 accent.2) :=
  ⟨fun h => absurd ((start_partial _ _).1 h 'é' (by decide)) (by decide),
    (end_exact _ _).2 ⟨"print(\"".toList, 'é', "\", x".toList, by decide, by decide, by decide, by decide, by decide⟩⟩

/-- `x` in `y = x`. -/
example : (sent ⟨0, "y = ".toList⟩ ⟨0, "y = ".toList ++ ['x']⟩).startChar = (sent ⟨0, "y = ".toList⟩ ⟨0, "y = ".toList ++ ['x']⟩).endChar :=
  (one_char_empty ⟨0, "y = ".toList⟩ 'x' (by decide)).2

/-- **C194** (violated): that start and end are right is false even in lines of ASCII. -/
theorem span_claim_false : ¬ ∀ first last : Place, Plain first.before → Plain last.before → StartRight first (sent first last) ∧ EndRight last (sent first last) := by
  intro h
  have h1 := (h use.1 use.2 (by decide) (by decide)).2
  revert h1
  simp only [EndRight]
  decide

end Verif.Span.Witness
