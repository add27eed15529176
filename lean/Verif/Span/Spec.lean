import Verif.Span.Model

/-!
# Ranges in editors

A range in the protocol of language servers: lines from 0, in a line the number of UTF-16 code units before the place, and the end is the first place that does not belong to it. -/

namespace Verif.Span.Spec
open Verif.Span

/-- The number of code units of a character in UTF-16: characters from 65536 on take two. -/
def unit (c : Char) : Nat := if c.val.toNat < 65536 then 1 else 2

/-- The number of code units of UTF-16. -/
def units (l : List Char) : Nat := (l.map unit).sum

/-- The start is the right one. -/
def StartRight (p : Place) (s : Sent) : Prop := s.startLine = p.line ∧ s.startChar = units p.before

/-- The end is the right one. -/
def EndRight (p : Place) (s : Sent) : Prop := s.endLine = p.line ∧ s.endChar = units p.before

/-- The end is the last character that belongs to the range, for those who count it in. -/
def LastRight (p : Place) (s : Sent) : Prop := s.endLine = p.line ∧ s.endChar = units p.before.dropLast

/-- Only ASCII. -/
abbrev Plain (l : List Char) : Prop := ∀ c ∈ l, c.val.toNat < 128

/-- Besides ASCII, one character that takes two bytes in UTF-8, such as `é`. -/
def OneTwoByte (l : List Char) : Prop := ∃ a c b, l = a ++ c :: b ∧ Plain a ∧ Plain b ∧ 128 ≤ c.val.toNat ∧ c.val.toNat < 2048

end Verif.Span.Spec
