import Mathlib.Data.List.Sort
import Mathlib.Data.String.Basic

/-!
# The types that are given for values

Modelled: `data_model/utils/annotation_utils.py` 21-128, which turns the value of a variable
into the type that is declared for the variable when a cell is type checked
(`data_model/cell.py` 880-899).

Simplified: values are finite trees (a list that contains itself makes the code recurse without
end); objects of other classes are given by their class; sets of types are listed in the order
of what is shown for them, and types of the module `typing` are equal if they are built alike
from equal ones; classes have no attribute `__args__`.
-/

namespace Verif.Types

/-- A class: the name of its module (`__module__`) and its name (`__name__`),
`data_model/utils/annotation_utils.py` 88-89, 107-109.  The code does not look at the path,
which says how the class is found in its module, and is `none` if it is not found there, like
the class of functions or one that is defined in a function. -/
structure Cls where
  modname : String
  name : String
  path : Option (List String)
  deriving DecidableEq

/-- Values, as told apart in `data_model/utils/annotation_utils.py` 51-82; `cls` is a class
that is itself the value, `obj` is an object of any class that is not mentioned there. -/
inductive Val where
  | int
  | float
  | str
  | none
  | list (l : List Val)
  | set (l : List Val)
  | tuple (l : List Val)
  | dict (keys values : List Val)
  | cls (c : Cls)
  | obj (c : Cls)

/-- The types built by `data_model/utils/annotation_utils.py` 21-82, where `bareList` stands for
`typing.List` without arguments, `tupleOf t` for `typing.Tuple[t, ...]`; `typing.Optional[t]` is
`typing.Union[t, None]`. -/
inductive Ty where
  | int
  | float
  | str
  | none
  | cls (c : Cls)
  | type (c : Cls)
  | bareList
  | bareSet
  | bareTuple
  | bareDict
  | list (t : Ty)
  | set (t : Ty)
  | tuple (ts : List Ty)
  | tupleOf (t : Ty)
  | dict (k v : Ty)
  | union (ts : List Ty)

mutual
/-- Equality of types, by which `set(types)` tells them apart,
`data_model/utils/annotation_utils.py` 22. -/
def same : Ty → Ty → Bool
  | .int, .int => true
  | .float, .float => true
  | .str, .str => true
  | .none, .none => true
  | .cls c, .cls d => decide (c = d)
  | .type c, .type d => decide (c = d)
  | .bareList, .bareList => true
  | .bareSet, .bareSet => true
  | .bareTuple, .bareTuple => true
  | .bareDict, .bareDict => true
  | .list t, .list u => same t u
  | .set t, .set u => same t u
  | .tuple ts, .tuple us => sames ts us
  | .tupleOf t, .tupleOf u => same t u
  | .dict k v, .dict k' v' => same k k' && same v v'
  | .union ts, .union us => sames ts us
  | _, _ => false
/-- Equality of lists of types, `data_model/utils/annotation_utils.py` 22. -/
def sames : List Ty → List Ty → Bool
  | [], [] => true
  | t :: ts, u :: us => same t u && sames ts us
  | _, _ => false
end

/-- The name shown for a class, `data_model/utils/annotation_utils.py` 88-89, 107-109. -/
def showCls (c : Cls) : String :=
  if c.modname = "typing" ∨ c.modname = "builtins" ∨ c.modname = "__main__" then c.name
  else c.modname ++ "." ++ c.name

/-- Whether a type is that of `None`, `data_model/utils/annotation_utils.py` 23. -/
def isNone : Ty → Bool
  | .none => true
  | _ => false

/-- Whether a type is `float`, `data_model/utils/annotation_utils.py` 25. -/
def isFloat : Ty → Bool
  | .float => true
  | _ => false

/-- Whether a type is `int`, `data_model/utils/annotation_utils.py` 26. -/
def isInt : Ty → Bool
  | .int => true
  | _ => false

/-- `Name[arg, ..., arg]`, `data_model/utils/annotation_utils.py` 122-127. -/
def applied (name : String) (args : List String) : String :=
  name ++ "[" ++ ", ".intercalate args ++ "]"

/-- What is shown for a union, `data_model/utils/annotation_utils.py` 93-98 and 113-127, given
what is shown for its members and whether the last one is `None`. -/
def showUnion (args : List String) (lastNone : Bool) : String :=
  if lastNone && args.length == 2 then applied "Optional" args.dropLast
  else if lastNone && args.length == 1 then applied "Optional" args
  else if args.length > 0 then applied "Union" (args.insertionSort (· ≤ ·))
  else "Union"

mutual
/-- `make_annotation_string`, `data_model/utils/annotation_utils.py` 85-128. -/
def showTy : Ty → String
  | .int => "int"
  | .float => "float"
  | .str => "str"
  | .none => "None"
  | .cls c => showCls c
  | .type c => applied "Type" [showCls c]
  | .bareList => "List"
  | .bareSet => "Set"
  | .bareTuple => "Tuple"
  | .bareDict => "Dict"
  | .list t => applied "List" [showTy t]
  | .set t => applied "Set" [showTy t]
  | .tuple ts => applied "Tuple" (showTys ts)
  | .tupleOf t => applied "Tuple" [showTy t, "..."]
  | .dict k v => applied "Dict" [showTy k, showTy v]
  | .union ts => showUnion (showTys ts) ((ts.getLast?.map isNone).getD false)
/-- The arguments one by one, `data_model/utils/annotation_utils.py` 123-125. -/
def showTys : List Ty → List String
  | [] => []
  | t :: ts => showTy t :: showTys ts
end

/-- `set(types)`, `data_model/utils/annotation_utils.py` 22. -/
def distinct : List Ty → List Ty
  | [] => []
  | t :: ts => if (distinct ts).any (same t) then distinct ts else t :: distinct ts

/-- The set in the order of what is shown, `data_model/utils/annotation_utils.py` 22. -/
def ordered (ts : List Ty) : List Ty :=
  (distinct ts).insertionSort (fun a b => showTy a ≤ showTy b)

/-- `_resolve_container_types`, `data_model/utils/annotation_utils.py` 21-35: the argument with
which the type of the container is applied, or `none` for no argument. -/
def elemType (types : List Ty) : Option Ty :=
  let used := ordered types
  let noneSeen := used.any isNone
  let used := used.filter (fun t => !isNone t)
  let used := if used.any isFloat then used.filter (fun t => !isInt t) else used
  match used with
  | [] => if noneSeen then some .none else none
  | [t] => some (if noneSeen then .union [t, .none] else t)
  | ts => some (.union (if noneSeen then ts ++ [.none] else ts))

/-- `_resolve_tuple_types`, `data_model/utils/annotation_utils.py` 38-48: a list of types always
has one argument, so that line 48 is not reached. -/
def tupleType (types : List Ty) : Ty :=
  if types.length = 0 then .bareTuple
  else if types.length ≤ 3 then .tuple types
  else match elemType types with
    | some t => .tupleOf t
    | none => .tuple types

/-- The types of dictionaries, `data_model/utils/annotation_utils.py` 56-71. -/
def dictType (keys values : List Ty) : Ty :=
  match elemType keys, elemType values with
  | some k, some v => .dict k v
  | _, _ => .bareDict

mutual
/-- `get_type_annotation`, `data_model/utils/annotation_utils.py` 51-82. -/
def typeOf : Val → Ty
  | .int => .int
  | .float => .float
  | .str => .str
  | .none => .none
  | .list l => match elemType (typesOf l) with
    | some t => .list t
    | none => .bareList
  | .set l => match elemType (typesOf l) with
    | some t => .set t
    | none => .bareSet
  | .tuple l => tupleType (typesOf l)
  | .dict ks vs => dictType (typesOf ks) (typesOf vs)
  | .cls c => .type c
  | .obj c => .cls c
/-- `_get_contained_type_annotations`, `data_model/utils/annotation_utils.py` 14-18. -/
def typesOf : List Val → List Ty
  | [] => []
  | v :: vs => typeOf v :: typesOf vs
end

/-- `get_type_annotation_string`, `data_model/symbol.py` 600-601. -/
def declared (v : Val) : String := showTy (typeOf v)

end Verif.Types
