/-
How Python reads a text, stated without the model's way of writing it.  The rules are those of
Python's grammar for the expressions modelled (`star_expressions`, `bitwise_or` … `atom`), with
left recursion written out; every rule carries the text that is left over.
-/
import Verif.Text.Model

namespace Verif.Text

/-- What is being read (the grammar of the texts that statement.py 91-115 makes). -/
inductive Kind
  /-- an operand of precedence `n` -/
  | lev (n : Nat)
  /-- what follows the operand `a` of an operator of precedence `n` that groups to the left -/
  | tl (n : Nat) (a : Expr)
  /-- what follows `a`, which may be called -/
  | ptl (a : Expr)
  /-- a name, a number, or something in brackets -/
  | atom
  /-- expressions with commas between them, given as a tuple -/
  | items
  /-- an expression, or a tuple without brackets -/
  | top

/-- Nothing more of an expression can follow (grammar of statement.py 91-115's texts). -/
def Shut (ts : List Tok) : Prop :=
  ts.head? = none ∨ ts.head? = some .rp ∨ ts.head? = some .eq ∨ ts.head? = some .nl

/-- `Rd k ts e r`: from `ts` the expression `e` is read, and `r` is left over (the grammar of the
texts that statement.py 91-115 makes). -/
inductive Rd : Kind → List Tok → Expr → List Tok → Prop
  | name {n r} : Rd .atom (.name n :: r) (.name n) r
  | num {n r} : Rd .atom (.num n :: r) (.num n) r
  | unit {r} : Rd .atom (.lp :: .rp :: r) (.tup .nil) r
  | group {ts e r} : Rd .top ts e (.rp :: r) → Rd .atom (.lp :: ts) e r
  | primary {ts a r₁ e r} : Rd .atom ts a r₁ → Rd (.ptl a) r₁ e r → Rd (.lev 17) ts e r
  | callTl {ts f as r₁ e r} : Rd .items ts (.tup as) (.rp :: r₁) →
      Rd (.ptl (.call f as)) r₁ e r → Rd (.ptl f) (.lp :: ts) e r
  | callEnd {ts a} : ts.head? ≠ some .lp → Rd (.ptl a) ts a ts
  | power {ts a r₁ b r} : Rd (.lev 17) ts a (.op .pow :: r₁) → Rd (.lev 15) r₁ b r →
      Rd (.lev 16) ts (.bin .pow a b) r
  | powerEnd {ts a r} : Rd (.lev 17) ts a r → r.head? ≠ some (.op .pow) → Rd (.lev 16) ts a r
  | minus {ts e r} : Rd (.lev 15) ts e r → Rd (.lev 15) (.op .sub :: ts) (.neg e) r
  | factor {ts e r} : Rd (.lev 16) ts e r → Rd (.lev 15) ts e r
  | left {n ts a r₁ e r} : n < 15 → Rd (.lev (n + 1)) ts a r₁ → Rd (.tl n a) r₁ e r →
      Rd (.lev n) ts e r
  | leftTl {n o ts a b r₁ e r} : n < 15 → prec o = n → Rd (.lev (n + 1)) ts b r₁ →
      Rd (.tl n (.bin o a b)) r₁ e r → Rd (.tl n a) (.op o :: ts) e r
  | leftEnd {n ts a} : (∀ o, ts.head? = some (.op o) → prec o ≠ n) → Rd (.tl n a) ts a ts
  | topOne {ts e r} : Rd (.lev 9) ts e r → r.head? ≠ some .comma → Rd .top ts e r
  | topTup {ts e r₁ es r} : Rd (.lev 9) ts e (.comma :: r₁) → Rd .items r₁ (.tup es) r →
      Rd .top ts (.tup (.cons e es)) r
  | itemsEnd {ts} : Shut ts → Rd .items ts (.tup .nil) ts
  | itemsOne {ts e r} : Rd (.lev 9) ts e r → r.head? ≠ some .comma →
      Rd .items ts (.tup (.cons e .nil)) r
  | itemsMore {ts e r₁ es r} : Rd (.lev 9) ts e (.comma :: r₁) → Rd .items r₁ (.tup es) r →
      Rd .items ts (.tup (.cons e es)) r

/-- A statement: expressions with `=` between them, the last being the value and the others the
targets (the grammar of the texts that statement.py 91-104 makes). -/
inductive RdStmt : List Tok → List Expr → List Tok → Prop
  | last {ts e r} : Rd .top ts e r → r.head? ≠ some .eq → RdStmt ts [e] r
  | more {ts e r₁ es r} : Rd .top ts e (.eq :: r₁) → RdStmt r₁ es r → RdStmt ts (e :: es) r

/-- A program: statements on lines of their own (mixin.py 454-466). -/
inductive RdProg : List Tok → List (List Expr) → Prop
  | last {ts s} : RdStmt ts s [] → RdProg ts [s]
  | more {ts s r ss} : RdStmt ts s (.nl :: r) → RdProg r ss → RdProg ts (s :: ss)

/-- Python joins the lines inside brackets before it reads, and refuses brackets that do not match
(what becomes of the texts of mixin.py 454-466); `d` brackets are open. -/
def logical : Nat → List Tok → Option (List Tok)
  | 0, [] => some []
  | _ + 1, [] => none
  | d, .lp :: ts => (logical (d + 1) ts).map (.lp :: ·)
  | 0, .rp :: _ => none
  | d + 1, .rp :: ts => (logical d ts).map (.rp :: ·)
  | 0, .nl :: ts => (logical 0 ts).map (.nl :: ·)
  | d + 1, .nl :: ts => logical (d + 1) ts
  | d, t :: ts => (logical d ts).map (t :: ·)

/-- Python reads the text as these statements (the property of mixin.py 454-466's texts). -/
def Reads (ts : List Tok) (prog : List (List Expr)) : Prop :=
  ∃ ts', logical 0 ts = some ts' ∧ ((ts' = [] ∧ prog = []) ∨ RdProg ts' prog)

/-- Written where precedence `q` is asked for, the expression has a bracket at its left end
(what statement.py 110 looks at). -/
def Opens : Nat → Expr → Prop
  | _, .name _ => False
  | _, .num _ => False
  | q, .neg _ => 15 < q
  | q, .bin o a _ => prec o < q ∨ Opens (precL o) a
  | _, .call f _ => Opens 18 f
  | _, .tup _ => True

/-- Written where precedence `q` is asked for, the expression has a bracket at its right end
(what statement.py 111 looks at). -/
def Closes : Nat → Expr → Prop
  | _, .name _ => False
  | _, .num _ => False
  | q, .neg e => 15 < q ∨ Closes 15 e
  | q, .bin o _ b => prec o < q ∨ Closes (precR o) b
  | _, .call _ _ => True
  | _, .tup _ => True

/-- A target or value whose text is lost on Python 3.9 and later (statement.py 106-115): the empty
tuple, or an operator between things of which the first begins and the last ends with a
bracket. -/
def Spoilt : Expr → Prop
  | .tup .nil => True
  | .bin o a b => Opens (precL o) a ∧ Closes (precR o) b
  | _ => False

/-- The same for either unparser (statement.py 28-33): with the package `astunparse` only the
empty tuple is lost. -/
def Lost : Unp → Expr → Prop
  | .builtin, e => Spoilt e
  | .package, e => e = .tup .nil

/-- An assignment on one line that has such a target or value (statement.py 92-102). -/
def BadStmt (u : Unp) (s : Stmt) : Prop :=
  s.oneLine = true ∧ s.targets ≠ [] ∧ ∃ e, (e ∈ s.targets ∨ e = s.value) ∧ Lost u e

/-- What `black` does (mixin.py 122, 543): it raises on what is not a program, and gives a text
of the same program otherwise. -/
structure Formatter (black : List Tok → Option (List Tok)) : Prop where
  raises : ∀ ts, black ts = none ↔ ¬ ∃ prog, Reads ts prog
  keeps : ∀ ts ts' prog, black ts = some ts' → Reads ts prog → Reads ts' prog

end Verif.Text
