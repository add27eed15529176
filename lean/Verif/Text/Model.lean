/-
The text of a statement, as `code(x)` and the slices of statements show it.

Modelled code, all under /repo/core/ipyflow:
* data_model/statement.py 28-33 (which unparser is used), 91-115 (`Statement.text`,
  `_strip_tuple_parens`);
* slicing/mixin.py 78-83 and 454-466 (texts of the statements put together), 533-554
  (`format_slice`, whose call of `black` is guarded) and 86-146 (the widget, whose call is not).

Python's own `ast.unparse` (and the older `astunparse`) are the surroundings of this code.  They
are modelled as well, because what the code does to their output depends on where they put
brackets.

Simplified:
* a text is a list of tokens; blanks, comments and the `# Cell n` headers are left out;
* expressions are names, numbers, binary operators, the unary minus, calls with positional
  arguments and tuples;
* statements are assignments (with any number of targets) and expressions;
* `black` raises exactly on what is not a program, and otherwise keeps the program.
-/

namespace Verif.Text

/-- Binary operators (statement.py 108 asks for `ast.BinOp`). -/
inductive Op
  | bor | bxor | band | shl | add | sub | mul | div | pow
  deriving DecidableEq, Repr

/-- `_Unparser.binop_precedence` with the numbers of `_Precedence`, in Python's `ast.py`, which
statement.py 30-31 uses. -/
def prec : Op → Nat
  | .bor => 9
  | .bxor => 10
  | .band => 11
  | .shl => 12
  | .add => 13
  | .sub => 13
  | .mul => 14
  | .div => 14
  | .pow => 16

/-- `left_precedence` in `_Unparser.visit_BinOp` (Python's `ast.py`, see statement.py 30-31):
`**` groups to the right. -/
def precL : Op → Nat
  | .pow => 17
  | o => prec o

/-- `right_precedence` in `_Unparser.visit_BinOp` (Python's `ast.py`, see statement.py 30-31). -/
def precR : Op → Nat
  | .pow => 16
  | o => prec o + 1

mutual
/-- The nodes `Statement.text` hands to the unparser (statement.py 98-99). -/
inductive Expr
  | name (n : Nat)
  | num (n : Nat)
  | neg (e : Expr)
  | bin (o : Op) (a b : Expr)
  | call (f : Expr) (as : Exprs)
  | tup (es : Exprs)
/-- Lists of nodes: elements of a tuple, arguments of a call (statement.py 98-99). -/
inductive Exprs
  | nil
  | cons (e : Expr) (es : Exprs)
end

/-- Tokens of the text (statement.py 91-115). -/
inductive Tok
  | name (n : Nat)
  | num (n : Nat)
  | lp | rp | comma | eq | nl
  | op (o : Op)
  deriving DecidableEq, Repr

/-- Which unparser is at hand, statement.py 28-33: `ast.unparse` where Python has it, the package
`astunparse` otherwise.  The latter puts brackets around every operator. -/
inductive Unp
  | builtin | package
  deriving DecidableEq, Repr

/-- `require_parens` of Python's `ast.py`, resp. the brackets `astunparse` always writes
(statement.py 28-33): does an operator of precedence `p` get brackets where `q` is asked for? -/
def wraps : Unp → Nat → Nat → Bool
  | .builtin, q, p => decide (p < q)
  | .package, _, _ => true

/-- `delimit_if` in `visit_Tuple` of Python's `ast.py`, resp. the brackets `astunparse` always
writes (statement.py 28-33): does a tuple get brackets where `q` is asked for? -/
def wrapsTuple : Unp → Nat → Bool
  | .builtin, q => decide (2 < q)
  | .package, _ => true

/-- Brackets around a text (`delimit_if` in Python's `ast.py`, see statement.py 28-33). -/
def paren (b : Bool) (ts : List Tok) : List Tok :=
  if b then .lp :: (ts ++ [.rp]) else ts

mutual
/-- `unparse(node)` where precedence `q` is asked for (statement.py 99; `visit_BinOp`,
`visit_UnaryOp`, `visit_Call`, `visit_Tuple` in Python's `ast.py`). -/
def unparse (u : Unp) : Nat → Expr → List Tok
  | _, .name n => [.name n]
  | _, .num n => [.num n]
  | q, .neg e => paren (wraps u q 15) (.op .sub :: unparse u 15 e)
  | q, .bin o a b =>
    paren (wraps u q (prec o)) (unparse u (precL o) a ++ .op o :: unparse u (precR o) b)
  | _, .call f as => unparse u 18 f ++ .lp :: (args u as ++ [.rp])
  | _, .tup .nil => [.lp, .rp]
  | q, .tup (.cons e .nil) => paren (wrapsTuple u q) (unparse u 4 e ++ [.comma])
  | q, .tup (.cons e (.cons e' es)) =>
    paren (wrapsTuple u q)
      (unparse u 4 e ++ .comma :: args u (.cons e' es))
/-- Expressions with commas between them (`interleave` in Python's `ast.py`, see
statement.py 99). -/
def args (u : Unp) : Exprs → List Tok
  | .nil => []
  | .cons e .nil => unparse u 4 e
  | .cons e (.cons e' es) => unparse u 4 e ++ .comma :: args u (.cons e' es)
end

/-- `isinstance(node, (ast.BinOp, ast.Tuple))`, statement.py 108. -/
def strippable : Expr → Bool
  | .bin _ _ _ => true
  | .tup _ => true
  | _ => false

/-- `_strip_tuple_parens`, statement.py 105-115: the first and the last character go if they are
an opening and a closing bracket. -/
def strip (e : Expr) (ts : List Tok) : List Tok :=
  if strippable e && decide (2 ≤ ts.length) && decide (ts.head? = some .lp)
      && decide (ts.getLast? = some .rp) then
    ts.tail.dropLast
  else ts

/-- A statement: the targets and the value of an assignment, or, without targets, an expression;
and whether all of it stands on one line (statement.py 93-98). -/
structure Stmt where
  targets : List Expr
  value : Expr
  oneLine : Bool

/-- `self.stmt_node.targets + [self.stmt_node.value]`, statement.py 98. -/
def Stmt.comps (s : Stmt) : List Expr := s.targets ++ [s.value]

/-- `unparse(stmt_node)` for a whole statement, statement.py 103: the targets are written where
`TUPLE` is asked for and the value where `TEST` is (`visit_Assign` in Python's `ast.py`; an
expression where `YIELD` is, which asks for the same brackets). -/
def whole (u : Unp) (s : Stmt) : List (List Tok) :=
  s.targets.map (unparse u 2) ++ [unparse u 4 s.value]

/-- The texts that are put together with ` = ` between them, statement.py 92-103. -/
def pieces (u : Unp) (s : Stmt) : List (List Tok) :=
  if !s.targets.isEmpty && s.oneLine then
    s.comps.map fun e => strip e (unparse u 4 e)
  else whole u s

/-- `Statement.text`, statement.py 91-104. -/
def text (u : Unp) (s : Stmt) : List Tok :=
  [Tok.eq].intercalate (pieces u s)

/-- The texts of the statements one below the other, mixin.py 454-466 and 78-83. -/
def codeText (u : Unp) (ss : List Stmt) : List Tok :=
  [Tok.nl].intercalate (ss.map (text u))

/-- What is shown: a text, or the exception of `black` (mixin.py 86-146, 533-554). -/
inductive Shown
  | shows (ts : List Tok)
  | raises

/-- The call of `black` in `format_slice`, mixin.py 540-547: what it raises is logged, and the
text is left as it was.  `black` gives nothing where it raises. -/
def formatted (black : List Tok → Option (List Tok)) (ts : List Tok) : List Tok :=
  match black ts with
  | some ts' => ts'
  | none => ts

/-- The value of `code(x)` shown in Jupyter: `_make_slice_widget` calls `black` once more,
mixin.py 121-127, without a guard. -/
def widget (black : List Tok → Option (List Tok)) (ts : List Tok) : Shown :=
  match black (formatted black ts) with
  | some ts' => .shows ts'
  | none => .raises

end Verif.Text
