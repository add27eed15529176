/-!
# Elements that are read before they were seen to be assigned

When an element or attribute of an object is read that ipyflow has not seen being assigned, as after `d = json.load(f)`, a symbol is made for it that gets a version in
`_maybe_fix_implicitness`, `core/ipyflow/data_model/symbol.py` 208-222, called from 206, from the versions (`timestamp`, 315-322) of the symbols of the object.

One object is modelled, which is made and bound to a variable by the first run. Variables, elements and runs are numbers; the run of an event is its place in the history. A store to
an element sets the version of the element and `max_descendent_timestamp` of the object's namespace (`symbol.py` 1344-1403, `namespace.py` 41-88), a change of the object as a whole, by a call
of one of its methods, gives all its variables the version of now (`update_protocol.py` 23-63). Simplified: all names of the object are variables; symbols that exist already are only kept track of. -/

namespace Verif.Unseen

/-- What happens to the object. -/
inductive Ev where
  /-- `v = d` -/
  | bind (v : Nat)
  /-- `v` is bound to something else or deleted -/
  | unbind (v : Nat)
  /-- `d[k] = …` -/
  | store (k : Nat)
  /-- `d.update(…)` -/
  | change
  /-- `d[k]` is read -/
  | read (k : Nat)
  deriving DecidableEq

/-- The variables of the object with their versions (`flow().aliases`, `_timestamp`), `max_descendent_timestamp`, and the elements that have symbols, with their versions. -/
structure Sys where
  names : List (Nat × Nat)
  inner : Nat
  elems : Nat → Option Nat

/-- The object is made and bound to variable `v` in run 1, `symbol.py` 140-164. -/
def start (v : Nat) : Sys := ⟨[(v, 1)], 0, fun _ => none⟩

/-- `max(…, default=…)` of the versions of the variables, each with what is inside, `symbol.py` 214-220 and 315-322; 0 is no version. -/
def newest (s : Sys) : Nat := s.names.foldl (fun m p => Nat.max m (Nat.max p.2 s.inner)) 0

/-- One event, in run `t`: `symbol.py` 208-222 for a read; `scope.py` 282-364 for variables; `symbol.py` 1344-1403 and `update_protocol.py` 23-63 for changes. -/
def step (t : Nat) (s : Sys) : Ev → Sys
  | .bind v => { s with names := (v, t) :: s.names.filter (·.1 ≠ v) }
  | .unbind v => { s with names := s.names.filter (·.1 ≠ v) }
  | .store k => { s with inner := Nat.max s.inner t, elems := fun j => if j = k then some t else s.elems j }
  | .change => { s with names := s.names.map fun p => (p.1, t) }
  | .read k => match s.elems k with
    | some _ => s
    | none => { s with elems := fun j => if j = k then some (newest s) else s.elems j }

/-- A history, newest event first; the first event is in run 2, `symbol.py` 140-222. -/
def after (v : Nat) : List Ev → Sys
  | [] => start v
  | e :: h => step (h.length + 2) (after v h) e

/-- The version of an element, `symbol.py` 294-301. -/
def version (s : Sys) (k : Nat) : Option Nat := s.elems k

end Verif.Unseen
