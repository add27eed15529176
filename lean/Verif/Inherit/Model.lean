/-!
# Attributes that objects have from their classes

Models on which attribute of a class the attribute of an object is taken to depend: the lookup through the class, `core/ipyflow/data_model/namespace.py` 252-281, `clone`, 209-215, the load
of an attribute, `_clear_info_and_maybe_lookup_or_create_complex_symbol`, `core/ipyflow/tracing/ipyflow_tracer.py` 777-815, and the part of `_upsert_symbol_for_name_inner` that adds the
attribute of the class, `core/ipyflow/data_model/scope.py` 367-440; deleting, `namespace.py` 316-333.

Objects, classes and attributes are numbers. Each object has its class, and each class the list of the classes it inherits from, in the order in which Python searches them. All classes are
known to ipyflow (their bodies were traced), so that the namespace of an object is always a clone of the one of its class, `ipyflow_tracer.py` 654-663. Only dependencies on attributes of
classes are there, not those on what is assigned. Simplified: classes do not lose attributes, objects do not change their class, no descriptors and no `__getattr__`. -/

namespace Verif.Inherit

/-- The class of each object, and the further classes that are searched after a class. -/
structure World where
  cls : Nat → Nat
  above : Nat → List Nat

/-- What happens. -/
inductive Ev where
  /-- an attribute of a class is assigned, in its body or later -/
  | setC (c a : Nat)
  /-- `o.a` is read -/
  | read (o a : Nat)
  /-- `o.a` is assigned -/
  | setO (o a : Nat)
  /-- `o.a` is set by code that is not traced -/
  | hidden (o a : Nat)
  /-- `del o.a` -/
  | delO (o a : Nat)

/-- What Python has, and the symbols of attributes of objects with the classes on whose attribute they depend (`parents`); the symbols of attributes of classes are those Python has,
`namespace.py` 41-88. -/
structure Sys where
  has : Nat → Nat → Bool
  dict : Nat → Nat → Bool
  syms : Nat → Nat → Option (List Nat)

/-- Nothing is there, `namespace.py` 41-88. -/
def start : Sys := ⟨fun _ _ => false, fun _ _ => false, fun _ _ => none⟩

/-- Whether reading `o.a` gives a value at all. If not it raises, and the handler of `ipyflow_tracer.py` 777 is not called. -/
def found (w : World) (s : Sys) (o a : Nat) : Bool :=
  s.dict o a || (w.cls o :: w.above (w.cls o)).any fun c => s.has c a

/-- The fallback of the lookup to the class, `namespace.py` 268-280, for a symbol that the object itself does not have. -/
def viaClass (w : World) (s : Sys) (o a : Nat) : List Nat :=
  if s.dict o a then [] else if s.has (w.cls o) a then [w.cls o] else []

/-- The attribute of the class that is added when a symbol is made, `scope.py` 416-428. -/
def newDep (w : World) (s : Sys) (o a : Nat) : List Nat :=
  if s.has (w.cls o) a then [w.cls o] else []

/-- Sets the dependencies of a symbol, `scope.py` 322-330. -/
def put (s : Sys) (o a : Nat) (v : Option (List Nat)) : Sys :=
  { s with syms := fun p b => if p = o ∧ b = a then v else s.syms p b }

/-- Loads `o.a`, `ipyflow_tracer.py` 790-813: a symbol that is there already is kept with its dependencies. -/
def load (w : World) (s : Sys) (o a : Nat) : Sys :=
  if found w s o a then
    match s.syms o a with
    | some _ => s
    | none => put s o a (some (viaClass w s o a ++ (newDep w s o a).filter fun c => !(viaClass w s o a).contains c))
  else s

/-- Stores `o.a`, `scope.py` 377-440 and 322-330: a symbol that was there is overwritten, a new one depends on the attribute of the class. -/
def store (w : World) (s : Sys) (o a : Nat) : Sys :=
  match s.syms o a with
  | some _ => put s o a (some [])
  | none => put s o a (some (newDep w s o a))

/-- One event, `ipyflow_tracer.py` 777-815, `scope.py` 367-440, `namespace.py` 316-333. -/
def step (w : World) (s : Sys) : Ev → Sys
  | .setC c a => { s with has := fun d b => if d = c ∧ b = a then true else s.has d b }
  | .read o a => load w s o a
  | .setO o a => { store w s o a with dict := fun p b => if p = o ∧ b = a then true else s.dict p b }
  | .hidden o a => { s with dict := fun p b => if p = o ∧ b = a then true else s.dict p b }
  | .delO o a => if s.dict o a then { put s o a none with dict := fun p b => if p = o ∧ b = a then false else s.dict p b } else s

/-- A history, newest event first, `ipyflow_tracer.py` 777-815. -/
def after (w : World) : List Ev → Sys
  | [] => start
  | e :: h => step w (after w h) e

/-- The classes on whose attribute `o.a` is taken to depend, `scope.py` 322-330. -/
def recorded (s : Sys) (o a : Nat) : List Nat := (s.syms o a).getD []

end Verif.Inherit
