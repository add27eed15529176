import Verif.Header.Props

/-!
# The line `%%memoize`: concrete cases -/

namespace Verif.Header.Witness
open Verif Verif.Header

/-- What a user expects: whatever stands behind the name of a magic, only `%%memoize` itself makes a cell memoized, and the cell can be run. -/
def Claim : Prop :=
  ∀ (x : Str) (ws : List Str) (body : Str), (∀ c ∈ x, c.isAlpha = true) → (∀ w ∈ ws, w ≠ [] ∧ ∀ c ∈ w, c.isAlpha = true) → Body body →
    memoized (magic ++ x ++ spread ws ++ '\n' :: body) = .ok (if x = [] then some (body, asked ws) else none)

/-- `x = 1` -/
def code : Str := "x = 1".toList

/-- **C197 is violated.** -/
theorem memoize_claim_false : ¬Claim := by
  intro h
  have := h "d".toList [] code (by decide) (by simp) ⟨'1', by decide, by decide⟩
  revert this
  decide

example : Body code := ⟨'1', by decide, by decide⟩
example : Proper "-q".toList ∧ Proper "later".toList ∧ Proper "--verbose".toList := by unfold Proper Bare; decide

-- `memoized_partial`
example : memoized (cell "%%memoize" ["later".toList, "-v".toList] code) = .ok (some (code, .verbose)) := by decide
example : memoized (cell "%%memoize" ["--verbose".toList, "--quiet".toList] code) = .ok (some (code, .quiet)) := by decide
example : asked ["later".toList, "-v".toList] = .verbose := by decide
example : memoized "\n %%memoize\nx = 1\n\n".toList = .ok (some (code, .normal)) := by decide
-- `not_memoized`
example : memoized "\n# %%memoize\nx = 1".toList = .ok none := by decide
example : memoized [] = .ok none := by decide
-- `other_magic`
example : Bare "d".toList := by unfold Bare; decide
example : memoized "%%memoized --quiet\nx = 1".toList = .ok (some (code, .quiet)) := by decide
-- `quote_fails`, `help_exits`
example : memoized "%%memoize don't\nx = 1".toList = .error .crash := by decide
example : memoized "%%memoize 'both' -q\nx = 1".toList = .ok (some (code, .quiet)) := by decide
example : memoized "%%memoize -q --help\nx = 1".toList = .error .crash := by decide
-- short forms
example : memoized "%%memoize --verb\nx = 1".toList = .ok (some (code, .verbose)) ∧ memoized "%%memoize -vq\nx = 1".toList = .ok (some (code, .quiet)) ∧
    memoized "%%memoize -- -q\nx = 1".toList = .ok (some (code, .normal)) := by decide

end Verif.Header.Witness
