import Mathlib.Data.List.Basic
import Verif.Base.Dfs

/-! # Values and their memoization comparables: model

`data_model/symbol.py` 1446-1568. Python values are trees; every value with an identity carries it. Numbers live in any type
`N` with decidable equality (not-a-number is left out). A dictionary carries its items as two-tuples *in the order of its
keys* and a flag that says whether its keys can be ordered at all. Functions, classes, widgets, data frames and numpy scalars
are left out (`bare` stands for every value without a comparable, `None` included). -/

namespace Verif.Memo
open Verif

/-- Python values, `data_model/symbol.py` 1481-1539. -/
inductive Val (N : Type) where
  | num (kind : Nat) (v : N)
  | text (isStr : Bool) (s : List Nat)
  | list (id : Nat) (xs : List (Val N))
  | tuple (xs : List (Val N))
  | set (id : Nat) (frozen : Bool) (xs : List (Val N))
  | dict (id : Nat) (sortable : Bool) (items : List (Val N))
  | arr (id : Nat) (content : List N)
  | bare (id : Nat) (content : Nat)
  deriving Inhabited

/-- First components returned by `make_memoize_comparable_for_obj`, `data_model/symbol.py` 1481-1539. An array is returned
itself, by reference (1523-1524). -/
inductive Comp (N : Type) where
  | num (v : N)
  | text (isStr : Bool) (s : List Nat)
  | list (xs : List (Comp N))
  | fset (xs : List (Comp N))
  | arr (id : Nat)
  deriving Inhabited

/-- Second components: the comparison functions, `data_model/symbol.py` 1448-1479. -/
inductive EqF where
  | equal
  | listEq (fs : List EqF)
  | array
  deriving Inhabited

variable {N : Type}

/-- `eq is cls._equal`, `data_model/symbol.py` 1508. -/
def EqF.isEqual : EqF → Bool
  | .equal => true
  | _ => false

/-- Is this comparable a Python list (which cannot be put in a `frozenset`)?, `data_model/symbol.py` 1514. -/
def Comp.isList : Comp N → Bool
  | .list _ => true
  | _ => false

/-- The comparison function of a sequence, `data_model/symbol.py` 1508-1513. -/
def seqEq (fs : List EqF) : EqF := if fs.all EqF.isEqual then .equal else .listEq fs

/-- What a helper returns: an exception, the null comparable (`none`), or a result. -/
abbrev Res (α : Type) := Except Err (Option α)

/-- The end of the loop for a list, a tuple or a dictionary, `data_model/symbol.py` 1508-1515. -/
def finishSeq : Res (List (Comp N) × List EqF × Nat × List Nat) → Res (Comp N × EqF × Nat × List Nat)
  | .error e => .error e
  | .ok none => .ok none
  | .ok (some (cs, fs, size, seen)) => .ok (some (.list cs, seqEq fs, size, seen))

/-- The end of the loop for a set, `data_model/symbol.py` 1508-1515; `frozenset(comp)` raises if an element is a list. -/
def finishSet : Res (List (Comp N) × List EqF × Nat × List Nat) → Res (Comp N × EqF × Nat × List Nat)
  | .error e => .error e
  | .ok none => .ok none
  | .ok (some (cs, fs, size, seen)) =>
    if fs.all EqF.isEqual then
      if cs.any Comp.isList then .error .crash else .ok (some (.fset cs, .equal, size, seen))
    else .ok none

/-- One more element, `data_model/symbol.py` 1505-1507. -/
def consRes (c : Comp N) (f : EqF) :
    Res (List (Comp N) × List EqF × Nat × List Nat) → Res (List (Comp N) × List EqF × Nat × List Nat)
  | .error e => .error e
  | .ok none => .ok none
  | .ok (some (cs, fs, size, seen)) => .ok (some (c :: cs, f :: fs, size, seen))

mutual
/-- `make_memoize_comparable_for_obj`, `data_model/symbol.py` 1481-1539, with the identities seen so far. -/
def comp (max : Nat) : Val N → List Nat → Res (Comp N × EqF × Nat × List Nat)
  | .num _ v, seen => .ok (some (.num v, .equal, 1, seen))
  | .text b s, seen => .ok (some (.text b s, .equal, 1, seen))
  | .list i xs, seen => if i ∈ seen then .ok none else finishSeq (comps max xs 0 (i :: seen))
  | .tuple xs, seen => finishSeq (comps max xs 0 seen)
  | .set i _ xs, seen => if i ∈ seen then .ok none else finishSet (comps max xs 0 (i :: seen))
  | .dict i sortable xs, seen =>
    if i ∈ seen then .ok none
    else if sortable then finishSeq (comps max xs 0 (i :: seen)) else .error .crash
  | .arr i content, seen => if i ∈ seen then .ok none else .ok (some (.arr i, .array, content.length, i :: seen))
  | .bare _ _, _ => .ok none
/-- The loop over the elements, `data_model/symbol.py` 1497-1507. -/
def comps (max : Nat) : List (Val N) → Nat → List Nat → Res (List (Comp N) × List EqF × Nat × List Nat)
  | [], size, seen => .ok (some ([], [], size, seen))
  | x :: xs, size, seen =>
    match comp max x seen with
    | .error e => .error e
    | .ok none => .ok none
    | .ok (some (c, f, n, seen')) =>
      if size + n + 1 > max then .ok none else consRes c f (comps max xs (size + n + 1) seen')
end

/-- `make_memoize_comparable` for a symbol that was not made by a `def` or `class` statement, `data_model/symbol.py`
1541-1568: the comparable and its comparison function. -/
def comparable (max : Nat) (v : Val N) : Res (Comp N × EqF) :=
  match comp max v [] with
  | .error e => .error e
  | .ok none => .ok none
  | .ok (some (c, f, size, _)) => if size > max then .ok none else .ok (some (c, f))

section
variable [DecidableEq N]

mutual
/-- Python's `==` on comparables, `data_model/symbol.py` 1448-1450. Comparisons that involve an array go to `other`. -/
def compEq (other : Comp N → Comp N → Bool) : Comp N → Comp N → Bool
  | .num v, .num w => decide (v = w)
  | .text b s, .text b' t => b == b' && s == t
  | .list xs, .list ys => compEqList other xs ys
  | .fset xs, .fset ys => compSub other xs ys && ys.all (fun y => compAny other xs y)
  | .arr i, c => other (.arr i) c
  | c, .arr i => other c (.arr i)
  | _, _ => false
  termination_by structural x => x
/-- Equality of Python lists, `data_model/symbol.py` 1448-1450. -/
def compEqList (other : Comp N → Comp N → Bool) : List (Comp N) → List (Comp N) → Bool
  | [], [] => true
  | x :: xs, y :: ys => compEq other x y && compEqList other xs ys
  | _, _ => false
/-- Every element of the first list is equal to one of the second, `data_model/symbol.py` 1448-1450. -/
def compSub (other : Comp N → Comp N → Bool) : List (Comp N) → List (Comp N) → Bool
  | [], _ => true
  | x :: xs, ys => ys.any (fun y => compEq other x y) && compSub other xs ys
/-- Some element of the list is equal to `y`, `data_model/symbol.py` 1448-1450. -/
def compAny (other : Comp N → Comp N → Bool) : List (Comp N) → Comp N → Bool
  | [], _ => false
  | x :: xs, y => compEq other x y || compAny other xs y
end

/-- `np.alltrue(obj1 == obj2)` for one-dimensional arrays, `data_model/symbol.py` 1452-1459: numpy stretches an array of
length one. -/
def arrayEqual (a b : List N) : Bool :=
  if a.length = b.length then a == b
  else match a, b with
    | [x], b => b.all (fun y => decide (x = y))
    | a, [y] => a.all (fun x => decide (x = y))
    | _, _ => false

mutual
/-- Call of a comparison function, `data_model/symbol.py` 1448-1479. `cur` gives the contents of an array *now*; calls with
arguments of unexpected kinds go to `other`. -/
def applyEq (cur : Nat → List N) (other : Comp N → Comp N → Bool) : EqF → Comp N → Comp N → Bool
  | .equal, a, b => compEq other a b
  | .array, .arr i, .arr j => arrayEqual (cur i) (cur j)
  | .array, a, b => other a b
  | .listEq fs, .list xs, .list ys => applyEqs cur other fs xs ys
  | .listEq _, a, b => other a b
/-- `list_eq`, `data_model/symbol.py` 1473-1477: `zip` stops at the shortest of the three. -/
def applyEqs (cur : Nat → List N) (other : Comp N → Comp N → Bool) : List EqF → List (Comp N) → List (Comp N) → Bool
  | f :: fs, x :: xs, y :: ys => applyEq cur other f x y && applyEqs cur other fs xs ys
  | _, _, _ => true
end

/-! ## Specification: equality of Python values -/

mutual
/-- Python's `==` on values: numbers by value whatever their type, lists with lists, tuples with tuples, sets with sets and
frozen sets, dictionaries by their items in any order, arrays by length and elements. -/
def pyEq : Val N → Val N → Bool
  | .num _ v, .num _ w => decide (v = w)
  | .text b s, .text b' t => b == b' && s == t
  | .list _ xs, .list _ ys => pyEqList xs ys
  | .tuple xs, .tuple ys => pyEqList xs ys
  | .set _ _ xs, .set _ _ ys => pySub xs ys && ys.all (fun y => pyAny xs y)
  | .dict _ _ xs, .dict _ _ ys => pySub xs ys && ys.all (fun y => pyAny xs y)
  | .arr _ a, .arr _ b => a == b
  | .bare i a, .bare j b => i == j && a == b
  | _, _ => false
  termination_by structural x => x
/-- Pairwise equality of two lists of values. -/
def pyEqList : List (Val N) → List (Val N) → Bool
  | [], [] => true
  | x :: xs, y :: ys => pyEq x y && pyEqList xs ys
  | _, _ => false
/-- Every element of the first list is equal to one of the second. -/
def pySub : List (Val N) → List (Val N) → Bool
  | [], _ => true
  | x :: xs, ys => ys.any (fun y => pyEq x y) && pySub xs ys
/-- Some element of the list is equal to `y`. -/
def pyAny : List (Val N) → Val N → Bool
  | [], _ => false
  | x :: xs, y => pyEq x y || pyAny xs y
end

mutual
/-- No array anywhere in the value. -/
def arrayFree : Val N → Bool
  | .list _ xs => arrayFrees xs
  | .tuple xs => arrayFrees xs
  | .set _ _ xs => arrayFrees xs
  | .dict _ _ xs => arrayFrees xs
  | .arr _ _ => false
  | _ => true
/-- No array in any of the values. -/
def arrayFrees : List (Val N) → Bool
  | [] => true
  | x :: xs => arrayFree x && arrayFrees xs
end

mutual
/-- Lists stand against lists, tuples against tuples, dictionaries against dictionaries, sets against sets, down to the
leaves. Nothing is asked of leaves or of the elements of sets. -/
def sameKind : Val N → Val N → Bool
  | .list _ xs, .list _ ys => sameKinds xs ys
  | .tuple xs, .tuple ys => sameKinds xs ys
  | .dict _ _ xs, .dict _ _ ys => sameKinds xs ys
  | .list _ _, .tuple _ => false
  | .list _ _, .dict _ _ _ => false
  | .tuple _, .list _ _ => false
  | .tuple _, .dict _ _ _ => false
  | .dict _ _ _, .list _ _ => false
  | .dict _ _ _, .tuple _ => false
  | _, _ => true
/-- Pairwise, as far as both lists go. -/
def sameKinds : List (Val N) → List (Val N) → Bool
  | x :: xs, y :: ys => sameKind x y && sameKinds xs ys
  | _, _ => true
end

end
end Verif.Memo
