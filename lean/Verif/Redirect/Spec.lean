import Verif.Redirect.Model

/-!
# What is said about answers of `%flow` commands

A line is a word, a blank, and the argument; `> file` at its end asks for the answer to be written to the file. -/

namespace Verif.Redirect.Spec

/-- The characters that do not count at the ends of an argument or of the name of a file. -/
def White (c : Char) : Prop := c ∈ [' ', '\t', '\n', '\r', '\x0b', '\x0c']

/-- Only such characters. -/
def Blank (s : List Char) : Prop := ∀ c ∈ s, White c

/-- A name that begins and ends with something to see. -/
def Solid (s : List Char) : Prop := s ≠ [] ∧ (∀ c, s.head? = some c → ¬ White c) ∧ ∀ c, s.getLast? = some c → ¬ White c

/-- The words of commands can be written with dashes or with underscores. -/
def reads (word : List Char) : List Char := word.map fun c => if c = '-' then '_' else c

/-- The words that set whether usages out of order are reported. -/
def Reports (word : List Char) : Prop :=
  (∃ p, reads word = p ++ "warn_ooo".toList) ∨ ∃ p, reads word = p ++ "lint_ooo".toList

/-- The words that register annotations. -/
def Annotates (word : List Char) : Prop := ∃ r, reads word = "register_annotation".toList ++ r

/-- The commands that show the tags of a cell, or register annotations. -/
def Direct (word : List Char) : Prop := reads word = "show_tags".toList ∨ Annotates word

/-- The words of the command for slices. -/
def Slices (word : List Char) : Prop :=
  word = "slice".toList ∨ word = "make_slice".toList ∨ word = "gather_slice".toList

/-- A character that no word of a command has. -/
def Odd (c : Char) : Prop := c.isAlphanum = false ∧ c ≠ '_' ∧ c ≠ '-'

/-- The names of functions have letters, digits and underscores. -/
def Named (names : List (List Char)) : Prop := ∀ n ∈ names, n ≠ [] ∧ ∀ c ∈ n, c.isAlphanum = true ∨ c = '_'

/-- The name of a class. -/
def Plain (n : List Char) : Prop := n ≠ [] ∧ ∀ c ∈ n, c.isAlphanum = true ∨ c = '_'

/-- Nothing came of the line but one warning. -/
def OnlyWarned {S : Type} (x : World S) (r : World S × Option Err) : Prop :=
  r.1.state = x.state ∧ r.1.files = x.files ∧ r.1.out = x.out ∧ r.1.warned = x.warned + 1 ∧ r.2 = none

/-- The line printed the text, after which nothing was raised. -/
def Printed {S : Type} (t : List Char) (x : World S) (r : World S × Option Err) : Prop :=
  r.1.out = t :: x.out ∧ r.2 = none

/-- The file got the text and no other file changed. -/
def Wrote {S : Type} (file t : List Char) (x : World S) (r : World S × Option Err) : Prop :=
  r.1.files file = some t ∧ ∀ f, f ≠ file → r.1.files f = x.files f

/-- `p` is the line run without `> file`, `q` with it: they do the same, but what the one prints the other writes. -/
def Redirects {S : Type} (file : List Char) (x : World S) (p q : World S × Option Err) : Prop :=
  q.1.state = p.1.state ∧ q.1.warned = p.1.warned ∧ q.2 = p.2 ∧ q.1.out = x.out ∧ p.1.files = x.files ∧
    ((p.1.out = x.out ∧ q.1.files = x.files) ∨ ∃ t, Printed t x p ∧ Wrote file t x q)

end Verif.Redirect.Spec
