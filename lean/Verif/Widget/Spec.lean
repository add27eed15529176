import Verif.Widget.Model

/-! # What is expected of widgets

Histories and statements are those of the model; nothing else of it is used here but the user's namespace in `Shows`. -/

namespace Verif.Widget.Spec

/-- The value that a right-hand side has. -/
def value (env : Name → Option Bind) : Code → Option Val
  | .lit v => some v
  | .name n => match env n with
    | some (.val v) => some v
    | _ => none

/-- What Python does with a statement in a notebook without ipyflow; nothing for an exception. -/
def exec (env : Name → Option Bind) : Stmt → Option (Name → Option Bind)
  | .make w v => some fun n => if n = w then some (.wid v) else env n
  | .put w c =>
    match value env c, env w with
    | some v, some (.wid _) => some fun n => if n = w then some (.wid v) else env n
    | _, _ => none
  | .copy y w =>
    match env w with
    | some (.wid v) => some fun n => if n = y then some (.val v) else env n
    | _ => none

/-- What Python does with a program in an empty namespace. -/
def run (l : List Stmt) : Option (Name → Option Bind) := l.foldlM exec fun _ => none

/-- A program gives a variable a value. -/
def Gives (l : List Stmt) (y : Name) (v : Val) : Prop := ∃ env, run l = some env ∧ env y = some (.val v)

/-- A name is bound to a widget that shows the value. -/
def Shows (σ : Sys) (w : Name) (v : Val) : Prop := Assoc.get σ.env w = some (.wid v)

/-- The code of the last execution of a cell. -/
def lastRun : List Event → Nat → Option (List Stmt)
  | [], _ => none
  | .run k b :: h, k' => if k = k' then some b else lastRun h k'
  | .move _ _ :: h, k' => lastRun h k'

/-- The name is bound, or the value of the widget of that name is set, by the statement. -/
def Touches (w : Name) : Stmt → Prop
  | .make w' _ => w' = w
  | .put w' _ => w' = w
  | .copy y _ => y = w

/-- The code reads the value of a widget that it has neither bound nor set before. -/
def Reads (b : List Stmt) (w : Name) : Prop := ∃ pre y post, b = pre ++ .copy y w :: post ∧ ∀ s ∈ pre, ¬ Touches w s

/-- The code sets the value of the widget. -/
def Sets (b : List Stmt) (w : Name) : Prop := ∃ c, .put w c ∈ b

/-- Two words, neither of them special, with a space between them. -/
def TwoWords (s : List Char) : Prop :=
  ∃ a b : List Char, s = a ++ ' ' :: b ∧ (∀ l, l = a ∨ l = b → l ≠ [] ∧ (∀ c ∈ l, c.isAlpha) ∧
    l ∉ ["False", "None", "True", "and", "as", "assert", "async", "await", "break", "class", "continue", "def", "del", "elif", "else", "except", "finally", "for", "from",
      "global", "if", "import", "in", "is", "lambda", "nonlocal", "not", "or", "pass", "raise", "return", "try", "while", "with", "yield"].map String.toList)

/-- Where the value of a name is from: it is a widget that shows a value (`alone`: the only one made by its execution, and no program has set its value; `moved`: it has been
moved), a copy of the value of a widget made by an earlier execution that still has its name, or something else. -/
inductive Origin where
  | widget (v : Val) (alone moved : Bool) (ctr : Nat)
  | copied (w : Name)
  | other
  deriving DecidableEq

/-- Names after some events, and how many executions there were. -/
structure St where
  ctr : Nat
  names : Name → Option Origin

/-- Copies of what was bound to the name are no longer copies of what it is bound to. -/
def detach (n : Name) (f : Name → Option Origin) : Name → Option Origin := fun m => if f m = some (.copied n) then some .other else f m

/-- One statement; nothing if it raises. `alone`: the code makes one widget at most. -/
def stmt (alone : Bool) (ctr : Nat) (f : Name → Option Origin) : Stmt → Option (Name → Option Origin)
  | .make w v => some fun n => if n = w then some (.widget v alone false ctr) else detach w f n
  | .put w (.lit v) =>
    match f w with
    | some (.widget _ _ m c) => some fun n => if n = w then some (.widget v false m c) else f n
    | _ => none
  | .put _ (.name _) => none
  | .copy y w =>
    match f w with
    | some (.widget _ _ _ c) => some fun n => if n = y then some (if c < ctr ∧ y ≠ w then .copied w else .other) else detach y f n
    | _ => none

/-- Statements until one raises. -/
def stmts (alone : Bool) (ctr : Nat) : List Stmt → (Name → Option Origin) → Name → Option Origin
  | [], f => f
  | s :: l, f =>
    match stmt alone ctr f s with
    | none => f
    | some g => stmts alone ctr l g

/-- Whether the statement makes a widget. -/
def makes : Stmt → Bool
  | .make _ _ => true
  | _ => false

/-- After a history, newest event first. -/
def origins : List Event → St
  | [] => ⟨0, fun _ => none⟩
  | .run _ b :: h => ⟨(origins h).ctr + 1, stmts (decide ((b.filter makes).length ≤ 1)) ((origins h).ctr + 1) b (origins h).names⟩
  | .move w v :: h =>
    ⟨(origins h).ctr,
      match (origins h).names w with
      | some (.widget old a m c) => fun n => if n = w then some (.widget v a (m || decide (old ≠ v)) c) else (origins h).names n
      | _ => (origins h).names⟩

/-- Programs set values of widgets to numbers only. -/
def Numeric (h : List Event) : Prop := ∀ k b, .run k b ∈ h → ∀ w c, .put w c ∈ b → ∃ n, c = .lit (.num n)

end Verif.Widget.Spec
