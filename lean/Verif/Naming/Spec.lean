import Verif.Naming.Model

/-! What names of parts should be: expressions that give the part. -/

namespace Verif.Naming
open Verif

/-- What an expression gives: a list or dictionary, or the thing without parts that is at a certain place. -/
inductive Thing where
  | obj (o : Obj)
  | plainAt (o : Obj) (k : Key)
  deriving DecidableEq, Repr

/-- What is at the key `k` of `o`. -/
def thing (py : Py) (o : Obj) (k : Key) : Option Thing :=
  match py.item o k with
  | some .plain => some (.plainAt o k)
  | some .sub => some (.obj ⟨o.lit, k :: o.pos⟩)
  | some (.ref o') => some (.obj o')
  | none => none

/-- The rest of an expression, read from left to right. `t[a]` with a variable `a` gives nothing, as the variables hold lists and dictionaries, which are no
keys; lists and dictionaries have no attributes that are words. -/
def go (py : Py) : Thing → List Tok → Option Thing
  | t, [] => some t
  | .obj o, .lbr :: .num n :: .rbr :: r =>
    match thing py o (.int n) with
    | some t => go py t r
    | none => none
  | .obj o, .lbr :: .str w :: .rbr :: r =>
    match thing py o (.word w) with
    | some t => go py t r
    | none => none
  | _, _ => none

/-- What an expression gives when it is evaluated at the top level. -/
def denotes (py : Py) : List Tok → Option Thing
  | .name x :: r =>
    match py.env x with
    | some o => go py (.obj o) r
    | none => none
  | _ => none

/-- What the program can get at by way of the variable `x`. -/
inductive From (py : Py) (x : Nat) : Obj → Prop where
  | var {o : Obj} : py.env x = some o → From py x o
  | part {o o' : Obj} {k : Key} : From py x o → py.part o k = some o' → From py x o'

/-- The program alone. -/
def pyRun : List Ev → Py
  | [] => ⟨fun _ => [], 0, fun _ => none⟩
  | e :: h => (pyRun h).step e

/-- What `x` leads to cannot be got at by way of other variables. -/
def Alone (py : Py) (x : Nat) : Prop := ∀ z o, z ≠ x → From py z o → ¬ From py x o

/-- A statement that does not take an object, or part of an object, away from a variable while another variable leads to it, and does not make a new
value of a variable from the old one. -/
def Gentle (py : Py) : Ev → Prop
  | .display x items => Alone py x ∧ ∀ p y ks, (p, Src.ref y ks) ∈ items → y ≠ x
  | .copy x y ks => py.value y ks = py.env x ∨ (Alone py x ∧ y ≠ x)
  | .del x => Alone py x

/-- All statements of a session are gentle. -/
def AllGentle : List Ev → Prop
  | [] => True
  | e :: h => AllGentle h ∧ Gentle (pyRun h) e

/-- All keys in displays are natural numbers, as in lists. -/
def Lists : List Ev → Prop
  | [] => True
  | .display _ items :: h => Lists h ∧ ∀ p s, (p, s) ∈ items → ∀ k ∈ p, ∃ n, k = Key.int n
  | _ :: h => Lists h

/-- A display without references to variables, such as `[1, [2, 3]]`. -/
def Closed (items : List (Pos × Src)) : Prop := ∀ p s, (p, s) ∈ items → s = .plain ∨ s = .sub

end Verif.Naming
