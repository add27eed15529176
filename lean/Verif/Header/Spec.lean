import Verif.Header.Model

/-!
# The line `%%memoize`: what is expected -/

namespace Verif.Header

/-- The words that ask for something. -/
def quietWords : List Str := ["-q".toList, "--quiet".toList]
/-- The words that ask for something. -/
def verboseWords : List Str := ["-v".toList, "--verbose".toList]

/-- A word that can be written without quotes. -/
def Bare (w : Str) : Prop := w ≠ [] ∧ ∀ c ∈ w, c ≠ ' ' ∧ c ≠ '\t' ∧ c ≠ '\n' ∧ c ≠ '\r' ∧ c ≠ '\\' ∧ c ≠ '"' ∧ c ≠ '\''

/-- An option as it is documented, or no option at all. -/
def Proper (w : Str) : Prop := Bare w ∧ (w ∈ quietWords ∨ w ∈ verboseWords ∨ w.head? ≠ some '-')

/-- Words, each with a blank before it. -/
def spread : List Str → Str
  | [] => []
  | w :: ws => ' ' :: w ++ spread ws

/-- The level that is asked for. -/
def asked (ws : List Str) : Level :=
  if ∃ w ∈ ws, w ∈ quietWords then .quiet else if ∃ w ∈ ws, w ∈ verboseWords then .verbose else .normal

/-- A body that has something in it and ends in no blank. -/
def Body (b : Str) : Prop := ∃ c, b.getLast? = some c ∧ c ≠ ' ' ∧ c ≠ '\t' ∧ c ≠ '\n' ∧ c ≠ '\r'

/-- A cell with a line for the magic and a body. -/
def cell (name : String) (ws : List Str) (body : Str) : Str := name.toList ++ spread ws ++ '\n' :: body

end Verif.Header
