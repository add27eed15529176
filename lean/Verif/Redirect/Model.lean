import Verif.Settings.Model

/-!
# Where the answer of a `%flow` command goes

Models `_flow_magic` and the order of the cases of `_handle` (`core/ipyflow/line_magics.py` 81-181), with which of the
commands give back a text, which print one themselves, and which do neither. What the commands compute is a parameter
(`Env`); `Verif.Settings`, `Verif.Tagged` and others model that. Strings and `split`, `strip`, `replace` are the ones
of `Verif.Settings`.

Simplifications: `\w` is ASCII letters, digits and the underscore; the text of warnings is left out and only their
number kept; a file is a name and a text, and whether a file can be opened for writing does not change. -/

namespace Verif.Redirect

open Verif.Settings (Str lit strip splitOnce dashes starts ends)

/-- The cases of `_handle`, `core/ipyflow/line_magics.py` 86-157, by what can come of them. -/
inductive Kind where
  | toggle
  | deps
  | code
  | waiting
  | trace
  | highlights
  | dag
  | slice
  | tag
  | showTags
  | mode
  | schedule
  | direction
  | reactivity
  | register
  | deregister
  | clear
  | warnOoo
  | lintOoo
  | transforms
  | transformsOnly
  | annotations
  | toggleReactivity
  | bump
  | unregistered
  | usage
  deriving DecidableEq, Repr

/-- Exceptions. -/
inductive Err where
  | raised (what : Str)
  | cannotOpen (file : Str)
  deriving DecidableEq, Repr

/-- What a command leaves: what it changed, how many warnings it gave, the text it gives back or prints, or what it
raised. -/
structure Did (S : Type) where
  state : S
  warned : Nat
  text : Except Err (Option Str)

/-- What the commands do, `core/ipyflow/line_magics.py` 195-555, and the names of the functions of the module
(82-84). -/
structure Env (S : Type) where
  does : Kind → Str → Str → S → Did S
  names : List Str
  writable : Str → Bool

/-- The state of the kernel, the files, what was printed (newest first) and the number of warnings. -/
structure World (S : Type) where
  state : S
  files : Str → Option Str
  out : List Str
  warned : Nat

/-- The case that `_handle` takes, `core/ipyflow/line_magics.py` 87-157. -/
def kind (names : List Str) (cmd : Str) : Kind :=
  let is (l : List String) : Bool := l.any fun x => lit x = cmd
  if is ["enable", "disable", "on", "off"] then .toggle
  else if is ["deps", "show_deps", "show_dependency", "show_dependencies"] then .deps
  else if is ["code", "get_code"] then .code
  else if is ["waiting", "show_waiting"] then .waiting
  else if is ["trace_messages"] then .trace
  else if is ["hls", "nohls", "highlight", "highlights"] then .highlights
  else if is ["dag", "make_dag", "cell_dag", "make_cell_dag"] then .dag
  else if is ["slice", "make_slice", "gather_slice"] then .slice
  else if is ["tag"] then .tag
  else if is ["show_tags"] then .showTags
  else if is ["mode", "exec_mode"] then .mode
  else if is ["schedule", "exec_schedule", "execution_schedule"] then .schedule
  else if is ["direction", "flow_direction", "order", "flow_order", "semantics", "flow_semantics"] then .direction
  else if is ["reactivity"] then .reactivity
  else if is ["register", "register_tracer"] then .register
  else if is ["deregister", "deregister_tracer"] then .deregister
  else if is ["clear"] then .clear
  else if ends "warn_ooo" cmd then .warnOoo
  else if ends "lint_ooo" cmd then .lintOoo
  else if is ["syntax_transforms"] then .transforms
  else if is ["syntax_transforms_only"] then .transformsOnly
  else if starts "register_annotation" cmd then .annotations
  else if is ["toggle_reactivity"] then .toggleReactivity
  else if is ["bump_min_forced_reactive_counter"] then .bump
  else if cmd ∈ names then .unregistered
  else .usage

/-- The commands whose functions give a text back: `core/ipyflow/line_magics.py` 88, 90, 92, 94, 100, 102. -/
def Kind.gives : Kind → Bool
  | .toggle | .deps | .code | .waiting | .dag | .slice => true
  | _ => false

/-- The commands whose functions print a text themselves: `core/ipyflow/line_magics.py` 396, 555. -/
def Kind.prints : Kind → Bool
  | .showTags | .annotations => true
  | _ => false

/-- `_handle`, `core/ipyflow/line_magics.py` 86-157: the world after, and what is given back. -/
def handle {S : Type} (env : Env S) (cmd line : Str) (x : World S) : World S × Except Err (Option Str) :=
  let cmd := dashes cmd
  let k := kind env.names cmd
  if k = .unregistered ∨ k = .usage then ({ x with warned := x.warned + 1 }, .ok none)
  else
    let d := env.does k cmd line x.state
    let x' := { x with state := d.state, warned := x.warned + d.warned }
    match d.text with
    | .error e => (x', .error e)
    | .ok t =>
      if k.gives then (x', .ok t)
      else match k.prints, t with
        | true, some t => ({ x' with out := t :: x'.out }, .ok none)
        | _, _ => (x', .ok none)

/-- `\w`, `core/ipyflow/line_magics.py` 165. -/
def isWord (c : Char) : Bool := c.isAlphanum || c = '_'

/-- What is left of a text after a text it begins with. -/
def after : Str → Str → Option Str
  | [], s => some s
  | _ :: _, [] => none
  | p :: ps, c :: cs => if p = c then after ps cs else none

/-- A match of `--tag +<class '(\w+)'>` at the beginning of a text: the group and what follows the match,
`core/ipyflow/line_magics.py` 165. -/
def tagHere (s : Str) : Option (Str × Str) :=
  match after (lit "--tag ") s with
  | none => none
  | some s => match after (lit "<class '") (s.dropWhile (· = ' ')) with
    | none => none
    | some s => match s.takeWhile isWord with
      | [] => none
      | w => match after (lit "'>") (s.dropWhile isWord) with
        | none => none
        | some s => some (w, s)

/-- `re.sub` over at most so many characters. -/
def substN : Nat → Str → Str
  | 0, s => s
  | _ + 1, [] => []
  | n + 1, c :: cs => match tagHere (c :: cs) with
    | some (w, s) => lit "--tag $" ++ w ++ substN n s
    | none => c :: substN n cs

/-- `re.sub(r"--tag +<class '(\w+)'>", r"--tag $\1", line)`, `core/ipyflow/line_magics.py` 165. -/
def subst (s : Str) : Str := substN s.length s

/-- The line as the command, its argument and the file, `core/ipyflow/line_magics.py` 161-174. -/
def cut (line : Str) : Str × Str × Option Str :=
  let (cmd, line) := match splitOnce ' ' line with
    | some (cmd, line) =>
      (cmd, if cmd = lit "slice" ∨ cmd = lit "make_slice" ∨ cmd = lit "gather_slice" then subst line else line)
    | none => (line, [])
  match splitOnce '>' line with
  | some (line, file) => (cmd, strip line, some (strip file))
  | none => (cmd, strip line, none)

/-- `open(fname, "w")` and `write`, `core/ipyflow/line_magics.py` 183-184. No file has an empty name. -/
def write {S : Type} (env : Env S) (file text : Str) (x : World S) : World S × Option Err :=
  if file ≠ [] ∧ env.writable file = true then
    ({ x with files := fun f => if f = file then some text else x.files f }, none)
  else (x, some (.cannotOpen file))

/-- What is done with what a command gives back, `core/ipyflow/line_magics.py` 177-184. -/
def deliver {S : Type} (env : Env S) (file : Option Str) : World S × Except Err (Option Str) → World S × Option Err
  | (x, .error e) => (x, some e)
  | (x, .ok none) => (x, none)
  | (x, .ok (some t)) => match file with
    | none => ({ x with out := t :: x.out }, none)
    | some file => write env file t x

/-- `_flow_magic`, `core/ipyflow/line_magics.py` 159-184. -/
def flowMagic {S : Type} (env : Env S) (line : Str) (x : World S) : World S × Option Err :=
  let (cmd, line, file) := cut line
  deliver env file (handle env cmd line x)

end Verif.Redirect
