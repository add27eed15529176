import Mathlib.Data.List.Basic

/-!
# Copying and showing slices

Models `_make_slice_widget`, `core/ipyflow/slicing/mixin.py` 85-149: the text of a slice is put into an HTML page, once as it is and once, with `encode("unicode_escape")`, into the string
literal of a script that copies it when a link is clicked. What the browser does with it is modelled as far as it matters: attribute values end with the quote, character references are replaced
(a few of them), percent signs with two digits in the address are replaced, escapes in the literal are replaced, and what starts like a tag is not shown.

Text is a list of code points. Formatting with `black` (120-123) is left out: the text is the one that is given to the page. -/

namespace Verif.Copy

/-- The digit, in `encode("unicode_escape")`, `mixin.py` 145-146. -/
def hexDigit (d : Nat) : Nat := if d < 10 then 48 + d else 87 + d

/-- `c.encode("unicode_escape")`, `mixin.py` 145-146 (Python). -/
def encChar (c : Nat) : List Nat :=
  if c = 92 then [92, 92]
  else if c = 9 then [92, 116]
  else if c = 10 then [92, 110]
  else if c = 13 then [92, 114]
  else if 32 ≤ c ∧ c < 127 then [c]
  else if c < 256 then [92, 120, hexDigit (c / 16), hexDigit (c % 16)]
  else if c < 65536 then [92, 117, hexDigit (c / 4096), hexDigit (c / 256 % 16), hexDigit (c / 16 % 16), hexDigit (c % 16)]
  else [92, 85, hexDigit (c / 268435456), hexDigit (c / 16777216 % 16), hexDigit (c / 1048576 % 16), hexDigit (c / 65536 % 16),
    hexDigit (c / 4096 % 16), hexDigit (c / 256 % 16), hexDigit (c / 16 % 16), hexDigit (c % 16)]

/-- `text.encode("unicode_escape").decode("utf-8")`, `mixin.py` 145-146. -/
def enc (t : List Nat) : List Nat := t.flatMap encChar

/-- The value of a digit in an escape (browser; for the link of `mixin.py` 136-137). -/
def hexVal (c : Nat) : Option Nat :=
  if 48 ≤ c ∧ c ≤ 57 then some (c - 48)
  else if 97 ≤ c ∧ c ≤ 102 then some (c - 87)
  else if 65 ≤ c ∧ c ≤ 70 then some (c - 55)
  else none

/-- Character references that are modelled: `amp;`, `lt;`, `gt;`, `quot;` (browser; for `mixin.py` 136-139). -/
def refs : List (List Nat × Nat) := [([97, 109, 112, 59], 38), ([108, 116, 59], 60), ([103, 116, 59], 62), ([113, 117, 111, 116, 59], 34)]

/-- Character references are replaced; the number: how many characters of one are left (browser; for `mixin.py` 136-139). -/
def unref : Nat → List Nat → List Nat
  | _, [] => []
  | k + 1, _ :: r => unref k r
  | 0, c :: r => if c = 38 then match refs.find? (fun p => p.1.isPrefixOf r) with
      | some p => p.2 :: unref p.1.length r
      | none => c :: unref 0 r
    else c :: unref 0 r

/-- What `%` and two digits stand for in an address (browser; for `mixin.py` 136-137). -/
def percent : List Nat → Option Nat
  | a :: b :: _ => match hexVal a, hexVal b with
    | some x, some y => some (16 * x + y)
    | _, _ => none
  | _ => none

/-- These are replaced (browser; for `mixin.py` 136-137). -/
def unpercent : Nat → List Nat → List Nat
  | _, [] => []
  | k + 1, _ :: r => unpercent k r
  | 0, c :: r => if c = 37 then match percent r with
      | some v => v :: unpercent 2 r
      | none => c :: unpercent 0 r
    else c :: unpercent 0 r

/-- What a letter after a backslash stands for in a script (browser; for `mixin.py` 136-137). -/
def simple (c : Nat) : Nat :=
  if c = 110 then 10 else if c = 116 then 9 else if c = 114 then 13 else if c = 98 then 8 else if c = 102 then 12 else if c = 118 then 11 else if c = 48 then 0 else c

/-- Where in a literal of a script (browser; for `mixin.py` 136-137). -/
inductive St where
  | plain
  /-- after a backslash -/
  | esc
  /-- in an escape with digits: how many more, and the value so far -/
  | hex (left acc : Nat)
  deriving DecidableEq, Repr

/-- One character more. -/
def push (c : Nat) (r : Option (List Nat × List Nat)) : Option (List Nat × List Nat) := r.map fun p => (c :: p.1, p.2)

/-- The string that a literal stands for, up to the quote, and what follows it (browser; for `mixin.py` 136-137). `none`: an error. -/
def js : St → List Nat → Option (List Nat × List Nat)
  | _, [] => none
  | .plain, c :: r => if c = 39 then some ([], r) else if c = 92 then js .esc r else if c = 10 ∨ c = 13 then none else push c (js .plain r)
  | .esc, c :: r => if c = 120 then js (.hex 2 0) r else if c = 117 then js (.hex 4 0) r else push (simple c) (js .plain r)
  | .hex n acc, c :: r => match hexVal c with
    | none => none
    | some d => if n ≤ 1 then push (16 * acc + d) (js .plain r) else js (.hex (n - 1) (16 * acc + d)) r

/-- What is copied when the link is clicked, `mixin.py` 136-137, 145-146: the link is `javascript:navigator.clipboard.writeText('..')`, in double quotes. `none`: nothing, or the script is
another one. -/
def copied (t : List Nat) : Option (List Nat) :=
  match js .plain (unpercent 0 (unref 0 ((enc t ++ [39, 41, 34]).takeWhile (· ≠ 34)))) with
  | some (s, [41]) => some s
  | _ => none

/-- A tag starts with `<` and one of these (browser; for `mixin.py` 139, 147). -/
def tagStart : List Nat → Bool
  | c :: _ => decide (65 ≤ c ∧ c ≤ 90 ∨ 97 ≤ c ∧ c ≤ 122 ∨ c = 47 ∨ c = 33 ∨ c = 63)
  | [] => false

/-- Text without tags; the flag: in a tag (browser; for `mixin.py` 139, 147). -/
def untag : Bool → List Nat → List Nat
  | _, [] => []
  | true, c :: r => if c = 62 then untag false r else untag true r
  | false, c :: r => if c = 60 ∧ tagStart r = true then untag true r else c :: untag false r

/-- What is shown of the text of a cell, `mixin.py` 139, 147. -/
def shown (t : List Nat) : List Nat := unref 0 (untag false t)

end Verif.Copy
