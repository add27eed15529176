import Verif.Base.Dfs

/-!
# What the command that lists waiting variables answers

The model of `show_waiting` (`core/ipyflow/line_magics.py` 258-279) and of what makes a symbol one without a name (`core/ipyflow/data_model/symbol.py` 539-546,
`core/ipyflow/data_model/namespace.py` 148-156). Whether a symbol waits is judged elsewhere (`Verif.Wait`) and may fail; it is a function given from outside. -/

namespace Verif.Waiters
open Verif

/-- White space, as far as `str.split` without arguments meets it in a line (`core/ipyflow/line_magics.py` 260). -/
def isSpace (c : Char) : Bool := c = ' ' || c = '\t' || c = '\n' || c = '\r'

/-- `line_.split()[0]`; empty if there are no words (`core/ipyflow/line_magics.py` 260-261, 265). -/
def firstWord (line : List Char) : List Char := (line.dropWhile isSpace).takeWhile (fun c => !isSpace c)

/-- What the tracer knows: the symbols of the global scope (`core/ipyflow/data_model/scope.py` 125-126), the values of the table of aliases, the judgement of `is_waiting`, whether
a symbol is of the anonymous kind, and of each namespace around it, from the inside, whether its name is the anonymous one
(`core/ipyflow/data_model/symbol.py` 541-543, `core/ipyflow/data_model/namespace.py` 150-152). -/
structure World (S : Type) where
  globals : List S
  aliases : List (List S)
  judge : S → Except Err Bool
  anonKind : S → Bool
  around : S → List Bool

/-- What the command answers: the usage on the error stream, that nothing waits, or the symbols that wait (`core/ipyflow/line_magics.py` 268-269, 275-278). -/
inductive Answer (S : Type) where
  | usage
  | nothing
  | waiting (l : List S)
  deriving DecidableEq, Repr

variable {S : Type} [DecidableEq S]

/-- `Namespace.is_anonymous` (`core/ipyflow/data_model/namespace.py` 148-156). -/
def nsAnonymous : List Bool → Bool
  | [] => false
  | b :: rest => if b then true else nsAnonymous rest

/-- `Symbol.is_anonymous` (`core/ipyflow/data_model/symbol.py` 539-546). -/
def isAnonymous (w : World S) (s : S) : Bool :=
  if w.anonKind s then true else
  match w.around s with
  | [] => false
  | ns => nsAnonymous ns

/-- The sets that are gone through, or nothing if the line is refused (`core/ipyflow/line_magics.py` 261-269). -/
def sets (w : World S) (line : List Char) : Option (List (List S)) :=
  let f := firstWord line
  if f = [] ∨ f = "global".toList then some [w.globals]
  else if f = "all".toList then some w.aliases
  else none

/-- `waiter_set.add` (`core/ipyflow/line_magics.py` 274). -/
def add (s : S) (l : List S) : List S := if s ∈ l then l else l ++ [s]

/-- The inner loop (`core/ipyflow/line_magics.py` 272-274). Whether a symbol waits is asked before whether it has a name. -/
def collect (w : World S) : List S → List S → Except Err (List S)
  | [], acc => .ok acc
  | s :: rest, acc =>
    match w.judge s with
    | .error e => .error e
    | .ok b => collect w rest (if b && !isAnonymous w s then add s acc else acc)

/-- The outer loop (`core/ipyflow/line_magics.py` 270-271). -/
def collectAll (w : World S) : List (List S) → List S → Except Err (List S)
  | [], acc => .ok acc
  | l :: rest, acc =>
    match collect w l acc with
    | .error e => .error e
    | .ok acc' => collectAll w rest acc'

/-- `show_waiting` (`core/ipyflow/line_magics.py` 258-279). -/
def showWaiting (w : World S) (line : List Char) : Except Err (Answer S) :=
  match sets w line with
  | none => .ok .usage
  | some ss =>
    match collectAll w ss [] with
    | .error e => .error e
    | .ok [] => .ok .nothing
    | .ok l => .ok (.waiting l)

end Verif.Waiters
