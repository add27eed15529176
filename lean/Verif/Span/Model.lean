/-!
# The place of a use that is reported to the client

Models `_make_range_from_node`, `core/ipyflow/frontend.py` 29-39, and the entries of `unsafe_order_symbol_usage`, 504-523, as far as they give the place of the use.

The text is the one that Python parses. A node of Python's syntax tree has the number of its first line, from 1, and the number of bytes before it in this line in UTF-8, `col_offset`, and likewise
for its end. Simplified: all nodes have all four (those without are left out by 507-516); the code of magics, which is rewritten before it is parsed, is not there. -/

namespace Verif.Span

/-- A place in a text: the number of the line, from 0, and what is before it in this line. -/
structure Place where
  line : Nat
  before : List Char

/-- The number of bytes, `col_offset` and `end_col_offset`, `frontend.py` 33, 37. -/
def bytes : List Char → Nat
  | [] => 0
  | c :: cs => c.utf8Size + bytes cs

/-- The four attributes of a node, `frontend.py` 32-37. -/
structure Node where
  lineno : Nat
  col : Nat
  endLineno : Nat
  endCol : Nat

/-- The node that Python makes for what is between two places, `frontend.py` 32-37. -/
def parsed (first last : Place) : Node := ⟨first.line + 1, bytes first.before, last.line + 1, bytes last.before⟩

/-- The range as it is sent. -/
structure Sent where
  startLine : Int
  startChar : Int
  endLine : Int
  endChar : Int
  deriving DecidableEq

/-- `_make_range_from_node`, `frontend.py` 29-39. -/
def range (n : Node) : Sent := ⟨n.lineno - 1, n.col, n.endLineno - 1, n.endCol - 1⟩

/-- The range in an entry, `frontend.py` 517-523. -/
def sent (first last : Place) : Sent := range (parsed first last)

end Verif.Span
