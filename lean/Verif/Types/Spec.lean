import Verif.Types.Model

/-!
# What types mean and how they are written

Without the functions of the model: which values a type has (PEP 484: a bare container is one
of anything, and an `int` is fine where a `float` is expected), and which text stands for
which type.
-/

namespace Verif.Types

/-- The value is one of the type. -/
inductive HasType : Val → Ty → Prop
  | int : HasType .int .int
  | promoted : HasType .int .float
  | float : HasType .float .float
  | str : HasType .str .str
  | none : HasType .none .none
  | obj (c) : HasType (.obj c) (.cls c)
  | cls (c) : HasType (.cls c) (.type c)
  | bareList (l) : HasType (.list l) .bareList
  | bareSet (l) : HasType (.set l) .bareSet
  | bareTuple (l) : HasType (.tuple l) .bareTuple
  | bareDict (ks vs) : HasType (.dict ks vs) .bareDict
  | list {l t} : (∀ v ∈ l, HasType v t) → HasType (.list l) (.list t)
  | set {l t} : (∀ v ∈ l, HasType v t) → HasType (.set l) (.set t)
  | tuple {l : List Val} {ts : List Ty} : l.length = ts.length →
      (∀ (i : Nat) v t, l[i]? = some v → ts[i]? = some t → HasType v t) →
      HasType (.tuple l) (.tuple ts)
  | tupleOf {l t} : (∀ v ∈ l, HasType v t) → HasType (.tuple l) (.tupleOf t)
  | dict {ks vs k t} : (∀ v ∈ ks, HasType v k) → (∀ v ∈ vs, HasType v t) →
      HasType (.dict ks vs) (.dict k t)
  | union {v t ts} : t ∈ ts → HasType v t → HasType v (.union ts)

/-- `Alternative t a`: the type `a` is one of those that `t` is a union of, or `t` itself. -/
inductive Alternative : Ty → Ty → Prop
  | member {ts a} : a ∈ ts → Alternative (.union ts) a
  | itself {t} : (∀ ts, t ≠ .union ts) → Alternative t t

/-- The type says nothing that the value does not call for: types are left out for empty
containers only, and each alternative `a` for the elements is called for by an element `f a`. -/
inductive Tight : Val → Ty → Prop
  | int : Tight .int .int
  | float : Tight .float .float
  | str : Tight .str .str
  | none : Tight .none .none
  | obj (c) : Tight (.obj c) (.cls c)
  | cls (c) : Tight (.cls c) (.type c)
  | bareList : Tight (.list []) .bareList
  | bareSet : Tight (.set []) .bareSet
  | bareTuple : Tight (.tuple []) .bareTuple
  | bareDict : Tight (.dict [] []) .bareDict
  | list {l t} {f : Ty → Val} : (∀ a, Alternative t a → f a ∈ l) →
      (∀ a, Alternative t a → Tight (f a) a) → Tight (.list l) (.list t)
  | set {l t} {f : Ty → Val} : (∀ a, Alternative t a → f a ∈ l) →
      (∀ a, Alternative t a → Tight (f a) a) → Tight (.set l) (.set t)
  | tuple {l : List Val} {ts : List Ty} : l.length = ts.length →
      (∀ (i : Nat) v t, l[i]? = some v → ts[i]? = some t → Tight v t) →
      Tight (.tuple l) (.tuple ts)
  | tupleOf {l t} {f : Ty → Val} : (∀ a, Alternative t a → f a ∈ l) →
      (∀ a, Alternative t a → Tight (f a) a) → Tight (.tuple l) (.tupleOf t)
  | dict {ks vs k t} {f g : Ty → Val} : (∀ a, Alternative k a → f a ∈ ks) →
      (∀ a, Alternative k a → Tight (f a) a) → (∀ a, Alternative t a → g a ∈ vs) →
      (∀ a, Alternative t a → Tight (g a) a) → Tight (.dict ks vs) (.dict k t)

/-- The name by which a class can be used: its path, after its module if that is not the
notebook or the builtins. -/
inductive Names : String → Cls → Prop
  | here {m n p} : m = "__main__" ∨ m = "builtins" →
      Names (".".intercalate p) ⟨m, n, some p⟩
  | other {m n p} : m ≠ "__main__" → m ≠ "builtins" →
      Names (m ++ "." ++ ".".intercalate p) ⟨m, n, some p⟩

/-- The text stands for the type; the order of the members of a union does not matter. -/
inductive Spells : String → Ty → Prop
  | int : Spells "int" .int
  | float : Spells "float" .float
  | str : Spells "str" .str
  | none : Spells "None" .none
  | cls {s c} : Names s c → Spells s (.cls c)
  | type {s c} : Names s c → Spells ("Type[" ++ s ++ "]") (.type c)
  | bareList : Spells "List" .bareList
  | bareSet : Spells "Set" .bareSet
  | bareTuple : Spells "Tuple" .bareTuple
  | bareDict : Spells "Dict" .bareDict
  | list {s t} : Spells s t → Spells ("List[" ++ s ++ "]") (.list t)
  | set {s t} : Spells s t → Spells ("Set[" ++ s ++ "]") (.set t)
  | tuple {ss : List String} {ts : List Ty} : ss.length = ts.length → ss ≠ [] →
      (∀ (i : Nat) s t, ss[i]? = some s → ts[i]? = some t → Spells s t) →
      Spells ("Tuple[" ++ ", ".intercalate ss ++ "]") (.tuple ts)
  | tupleOf {s t} : Spells s t → Spells ("Tuple[" ++ s ++ ", ...]") (.tupleOf t)
  | dict {s t s' t'} : Spells s t → Spells s' t' →
      Spells ("Dict[" ++ s ++ ", " ++ s' ++ "]") (.dict t t')
  | optional {s t} : Spells s t → Spells ("Optional[" ++ s ++ "]") (.union [t, .none])
  | union {ss : List String} {ts : List Ty} : ss.length = ts.length → ss ≠ [] →
      (∀ (i : Nat) s t, ss[i]? = some s → ts[i]? = some t → Spells s t) →
      Spells ("Union[" ++ ", ".intercalate ss ++ "]") (.union ts)
  | reorder {s ts us} : Spells s (.union ts) → ts.Perm us → Spells s (.union us)

/-- The classes that occur in a value. -/
inductive Occurs : Cls → Val → Prop
  | obj (c) : Occurs c (.obj c)
  | cls (c) : Occurs c (.cls c)
  | list {c v l} : v ∈ l → Occurs c v → Occurs c (.list l)
  | set {c v l} : v ∈ l → Occurs c v → Occurs c (.set l)
  | tuple {c v l} : v ∈ l → Occurs c v → Occurs c (.tuple l)
  | key {c v ks vs} : v ∈ ks → Occurs c v → Occurs c (.dict ks vs)
  | value {c v ks vs} : v ∈ vs → Occurs c v → Occurs c (.dict ks vs)

/-- Classes whose name is what is to be written: they are found in their module under their
own name, and the module is not `typing`. -/
def Plain (c : Cls) : Prop := c.path = some [c.name] ∧ c.modname ≠ "typing"

/-- In a dictionary each key has a value. -/
inductive Proper : Val → Prop
  | int : Proper .int
  | float : Proper .float
  | str : Proper .str
  | none : Proper .none
  | obj (c) : Proper (.obj c)
  | cls (c) : Proper (.cls c)
  | list {l} : (∀ v ∈ l, Proper v) → Proper (.list l)
  | set {l} : (∀ v ∈ l, Proper v) → Proper (.set l)
  | tuple {l} : (∀ v ∈ l, Proper v) → Proper (.tuple l)
  | dict {ks vs} : ks.length = vs.length → (∀ v ∈ ks, Proper v) → (∀ v ∈ vs, Proper v) →
      Proper (.dict ks vs)

end Verif.Types
