import Verif.Base.Dfs

/-!
# The line `%%memoize`: model

`Cell.get_memoized_content_and_output_level` (`data_model/cell.py` 534-555) and `parse_verbosity` (`memoization/__init__.py` 14-26) with the parts of `shlex` and `argparse`
that they use. Simplified: lines end at `\n` only, blanks are those of ASCII; letters put together behind one dash of which the first but not all are options count as refused
(as in `argparse` up to Python 3.11). -/

namespace Verif.Header
open Verif

/-- Python `str`. -/
abbrev Str := List Char

/-- White space, for `strip` (`cell.py` 538) and `shlex` (`memoization/__init__.py` 20). -/
def blank (c : Char) : Bool := decide (c = ' ' ∨ c = '\t' ∨ c = '\n' ∨ c = '\r')

/-- `str.strip`, `cell.py` 538, 546. -/
def strip (s : Str) : Str := ((s.dropWhile blank).reverse.dropWhile blank).reverse

/-- `MemoizedOutputLevel`, `memoization/__init__.py` 50-53. -/
inductive Level where
  | quiet
  | normal
  | verbose
  deriving DecidableEq, Repr

/-- Where `shlex.split` is (`memoization/__init__.py` 20): between words, in a word, in quotes, behind a backslash (with the quotes around it). -/
inductive Place where
  | between
  | word
  | quoted (q : Char)
  | escaped (q : Option Char)

/-- `shlex.split`, `memoization/__init__.py` 20; quotes that are not closed and a backslash at the end are a `ValueError`. -/
def lex : Place → Str → Str → Except Err (List Str)
  | .between, _, [] => .ok []
  | .word, t, [] => .ok [t]
  | .quoted _, _, [] => .error .crash
  | .escaped _, _, [] => .error .crash
  | .between, _, c :: cs =>
    if blank c then lex .between [] cs
    else if c = '\\' then lex (.escaped none) [] cs
    else if c = '"' ∨ c = '\'' then lex (.quoted c) [] cs
    else lex .word [c] cs
  | .word, t, c :: cs =>
    if blank c then
      match lex .between [] cs with
      | .error e => .error e
      | .ok ws => .ok (t :: ws)
    else if c = '\\' then lex (.escaped none) t cs
    else if c = '"' ∨ c = '\'' then lex (.quoted c) t cs
    else lex .word (t ++ [c]) cs
  | .quoted q, t, c :: cs =>
    if c = q then lex .word t cs
    else if c = '\\' ∧ q = '"' then lex (.escaped (some q)) t cs
    else lex (.quoted q) (t ++ [c]) cs
  | .escaped none, t, c :: cs => lex .word (t ++ [c]) cs
  | .escaped (some q), t, c :: cs => lex (.quoted q) (if c = '\\' ∨ c = q then t ++ [c] else t ++ ['\\', c]) cs

/-- What a word is for `argparse` (`memoization/__init__.py` 14-16, 20): passed over, the two options that it sets, or a word that ends the program (help and mistakes). -/
inductive Kind where
  | other
  | sets (quiet verbose : Bool)
  | exits
  deriving DecidableEq, Repr

/-- A long option or the beginning of one, behind two dashes: `memoization/__init__.py` 15-16. -/
def longKind (w : Str) : Kind :=
  let p := w.takeWhile (· ≠ '=')
  if p.isPrefixOf "quiet".toList then (if '=' ∈ w then .exits else .sets true false)
  else if p.isPrefixOf "verbose".toList then (if '=' ∈ w then .exits else .sets false true)
  else if p.isPrefixOf "help".toList then .exits
  else .other

/-- Letters behind one dash: `memoization/__init__.py` 15-16. -/
def shortKind (w : Str) : Kind :=
  match w with
  | [] => .other
  | c :: _ =>
    if ¬(c = 'q' ∨ c = 'v' ∨ c = 'h') then .other
    else if w.all (fun c => decide (c = 'q' ∨ c = 'v')) then .sets (decide ('q' ∈ w)) (decide ('v' ∈ w))
    else .exits

/-- `parse_known_args` for one word, `memoization/__init__.py` 20. -/
def kind (w : Str) : Kind :=
  match w with
  | '-' :: '-' :: r => longKind r
  | '-' :: r => shortKind r
  | _ => .other

/-- `parse_known_args`, `memoization/__init__.py` 20; `SystemExit` is an error. After `--` nothing is an option. -/
def options : List Str → Except Err (Bool × Bool)
  | [] => .ok (false, false)
  | w :: ws =>
    if w = ['-', '-'] then .ok (false, false)
    else
      match kind w with
      | .other => options ws
      | .exits => .error .crash
      | .sets q v =>
        match options ws with
        | .error e => .error e
        | .ok (q', v') => .ok (q || q', v || v')

/-- `parse_verbosity`, `memoization/__init__.py` 19-26. -/
def parseVerbosity (line : Str) : Except Err Level :=
  match lex .between [] line with
  | .error e => .error e
  | .ok ws =>
    match options ws with
    | .error e => .error e
    | .ok (q, v) => .ok (if q then .quiet else if v then .verbose else .normal)

/-- The name of the magic, `cell.py` 542. -/
def magic : Str := "%%memoize".toList

/-- `get_memoized_content_and_output_level`, `cell.py` 534-547: nothing if the cell is not memoized, else the code below the line and the level. -/
def memoized (content : Str) : Except Err (Option (Str × Level)) :=
  let t := strip content
  let first := (t.takeWhile (· ≠ '\n')).dropWhile blank
  if magic.isPrefixOf first then
    match parseVerbosity (strip (first.drop magic.length)) with
    | .error e => .error e
    | .ok l => .ok (some ((t.dropWhile (· ≠ '\n')).drop 1, l))
  else .ok none

end Verif.Header
