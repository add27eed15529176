import Verif.Slice.TextProps

/-! # What stripping the text of a slice does (`slicing/mixin.py` 78-83) -/

namespace Verif.Slice

theorem dropWhile_split (p : Char → Bool) : ∀ t : List Char, ∃ a, (∀ c ∈ a, p c = true) ∧ t = a ++ t.dropWhile p ∧ ∀ c, (t.dropWhile p).head? = some c → p c = false
  | [] => ⟨[], by simp, rfl, by simp⟩
  | c :: t => by
    obtain ⟨a, h1, h2, h3⟩ := dropWhile_split p t
    by_cases h : p c = true
    · refine ⟨c :: a, ?_, ?_, ?_⟩
      · intro x hx
        rcases List.mem_cons.mp hx with rfl | hx
        · exact h
        · exact h1 x hx
      · rw [List.dropWhile_cons, if_pos h, List.cons_append, ← h2]
      · rw [List.dropWhile_cons, if_pos h]; exact h3
    · refine ⟨[], by simp, ?_, ?_⟩
      · rw [List.dropWhile_cons, if_neg h]; rfl
      · rw [List.dropWhile_cons, if_neg h]
        intro x hx
        have : c = x := by simpa using hx
        subst this
        simpa using h

/-- **C18.** The text of a slice is the blocks put together, in the order of the cells, with blanks and line ends taken off at the two ends only: nothing inside is touched,
and the text neither begins nor ends with one. -/
theorem slice_text_ends (headers : Bool) (d : List (Int × Text)) :
    ∃ a b, (∀ c ∈ a, c.isWhitespace = true) ∧ (∀ c ∈ b, c.isWhitespace = true) ∧
      joinWith (if headers then ['\n', '\n'] else ['\n']) ((sortedItems d).map fun e => if headers then header e.1 ++ e.2 else e.2) = a ++ sliceText headers d ++ b ∧
      (∀ c, (sliceText headers d).head? = some c → c.isWhitespace = false) ∧ ∀ c, (sliceText headers d).getLast? = some c → c.isWhitespace = false := by
  unfold sliceText
  generalize joinWith _ _ = t
  obtain ⟨a, h1, h2, h3⟩ := dropWhile_split Char.isWhitespace t
  obtain ⟨b, g1, g2, g3⟩ := dropWhile_split Char.isWhitespace (t.dropWhile Char.isWhitespace).reverse
  have hs : t.dropWhile Char.isWhitespace = strip t ++ b.reverse := by
    have := congrArg List.reverse g2
    rw [List.reverse_reverse, List.reverse_append] at this
    exact this
  refine ⟨a, b.reverse, h1, fun c hc => g1 c (List.mem_reverse.mp hc), ?_, ?_, ?_⟩
  · rw [List.append_assoc, ← hs]; exact h2
  · intro c hc
    apply h3
    rw [hs]
    cases hst : strip t with
    | nil => rw [hst] at hc; cases hc
    | cons x xs => rw [hst] at hc; exact hc
  · intro c hc
    apply g3
    unfold strip at hc
    rw [List.getLast?_reverse] at hc
    exact hc

example : sliceText false [(1, " a b\n".toList), (2, "\n c \n".toList)] = "a b\n\n\n c".toList := by decide

end Verif.Slice
