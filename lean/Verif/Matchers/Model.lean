import Verif.Base.Assoc
import Verif.Base.Dfs

/-!
# Matchers of annotations

Models the matchers that annotations are written with: `SymbolMatcher`, `Ref`, `AllOf`, `AnyOf`,
`Display`, `FileSystem`, `Parents` and `Children` (core/ipyflow/annotations/annotations.py 46-215).

Names are numbers.  `os.path.abspath` is a function from names to paths.  The order in which Python
walks over a set of symbols is a function that may be any permutation of the set.
-/

namespace Verif.Matchers

open Verif Verif.Assoc

/-- What a name is bound to: a symbol, or the object of one. -/
inductive Val where
  | sym (x : Nat)
  | obj (x : Nat)
deriving DecidableEq, Repr

/-- The result of `matches`, a dictionary or `None`, or an exception:
core/ipyflow/annotations/annotations.py 54-59. -/
abbrev Res := Except Err (Option (List (Nat × Val)))

mutual
/-- The matchers: core/ipyflow/annotations/annotations.py 46-215. -/
inductive M where
  | plain (b : Nat)
  | ref (b : Nat)
  | allOf (b : Nat) (ms : Ms)
  | anyOf (b : Nat) (ms : Ms)
  | display (b : Nat)
  | file (b : Nat) (literal : Bool)
  | children (b : Nat) (ms : Ms) (exact : Bool)
  | parents (b : Nat) (ms : Ms) (exact : Bool)
/-- Lists of matchers: core/ipyflow/annotations/annotations.py 79, 102, 165. -/
inductive Ms where
  | nil
  | cons (m : M) (ms : Ms)
end

/-- `len(self.matchers)`: core/ipyflow/annotations/annotations.py 198. -/
def Ms.length : Ms → Nat
  | .nil => 0
  | .cons _ ms => ms.length + 1

/-- The symbols: parents, children, `is_anonymous`, the symbol of the display, those in the namespace
of the file system, and paths of their names and of names in matchers; `bound` is what names were bound
to before, at which the code never looks: core/ipyflow/data_model/symbol.py 130-200,
core/ipyflow/flow.py 160-200, core/ipyflow/annotations/annotations.py 62-65. -/
structure World where
  parents : Nat → List Nat
  children : Nat → List Nat
  anon : Nat → Bool
  display : Nat
  inFs : Nat → Bool
  path : Nat → Nat
  pathOf : Nat → Nat
  bound : Nat → Option Nat
  order : List Nat → List Nat

/-- `bindings.update(other)` and `bindings | other`; the order of the items is not kept:
core/ipyflow/annotations/annotations.py 89, 113, 184. -/
def update (b c : List (Nat × Val)) : List (Nat × Val) := c.foldr (fun p b => set b p.1 p.2) b

/-- The loop over the remaining symbols; it ends at the first one for which there is a result:
core/ipyflow/annotations/annotations.py 174-185. -/
def firstSome (f : Nat → Res) : List Nat → Res
  | [] => .ok none
  | x :: l =>
    match f x with
    | .error e => .error e
    | .ok none => firstSome f l
    | .ok (some b) => .ok (some b)

mutual
/-- `matches`; `Ref.existing_bindings` stays empty, `sym.childen` does not exist:
core/ipyflow/annotations/annotations.py 54-59, 67-71, 82-91, 106-115, 123-127, 139-150, 187-201. -/
def mat (w : World) : M → Nat → Res
  | .plain b, x => .ok (some [(b, .sym x)])
  | .ref _, _ => .ok none
  | .allOf b ms, x => matAll w ms x b []
  | .anyOf b ms, x => matAny w ms x b none
  | .display b, x => if w.display = x then .ok (some [(b, .sym x)]) else .ok none
  | .file b literal, x =>
    if w.inFs x = false then .ok none
    else if literal then (if w.path x = w.pathOf b then .ok (some []) else .ok none)
    else .ok (some [(b, .obj x)])
  | .children _ _ _, _ => .error .crash
  | .parents _ ms exact, x =>
    let rest := (w.parents x).filter fun y => w.anon y = false
    if exact ∧ rest.length ≠ ms.length then .ok none else helper w ms rest
/-- The loop of `AllOf.matches`: core/ipyflow/annotations/annotations.py 82-91. -/
def matAll (w : World) : Ms → Nat → Nat → List (Nat × Val) → Res
  | .nil, x, b, acc => .ok (some (set acc b (.sym x)))
  | .cons m ms, x, b, acc =>
    match mat w m x with
    | .error e => .error e
    | .ok none => .ok none
    | .ok (some c) => matAll w ms x b (update acc c)
/-- The loop of `AnyOf.matches`; an item is set in `None` if none matches:
core/ipyflow/annotations/annotations.py 106-115. -/
def matAny (w : World) : Ms → Nat → Nat → Option (List (Nat × Val)) → Res
  | .nil, x, b, acc =>
    match acc with
    | none => .error .crash
    | some acc => .ok (some (set acc b (.sym x)))
  | .cons m ms, x, b, acc =>
    match mat w m x with
    | .error e => .error e
    | .ok none => matAny w ms x b acc
    | .ok (some c) => matAny w ms x b (some (update (acc.getD []) c))
/-- `_matches_helper`: core/ipyflow/annotations/annotations.py 170-185. -/
def helper (w : World) : Ms → List Nat → Res
  | .nil, _ => .ok (some [])
  | .cons m ms, rest =>
    firstSome (fun y =>
      match mat w m y with
      | .error e => .error e
      | .ok none => .ok none
      | .ok (some c) =>
        match helper w ms (rest.filter (· ≠ y)) with
        | .error e => .error e
        | .ok none => .ok none
        | .ok (some d) => .ok (some (update c d))) (w.order rest)
end

end Verif.Matchers
