import Mathlib.Data.Int.Init
import Mathlib.Data.List.Basic
import Mathlib.Logic.Function.Basic
import Verif.Base.Dfs

/-! # Per-element symbols of a list: model

`data_model/namespace.py` 240-250, 287-328; `tracing/external_calls/list_handlers.py` 46-91. A namespace of a list keeps a
dictionary from subscripts to symbols; here a function from integers (`none`: no symbol). What the symbols do when they are
renamed (`update_deps`) is not modelled. All functions run after the list itself was changed: `n` is its length then. -/

namespace Verif.ListNs
open Verif
variable {σ α : Type}

/-- `_subscript_symbol_by_name` restricted to integer keys, `data_model/namespace.py` 63-64. -/
abbrev Tab (σ : Type) := Int → Option σ

/-- `_remap_sym`, `data_model/namespace.py` 287-301. -/
def remap (T : Tab σ) (src dst : Int) : Tab σ :=
  match T src with
  | none => T
  | some s => Function.update (Function.update T src none) dst (some s)

/-- The first `m` passes of `shuffle_symbols_upward_from`, `data_model/namespace.py` 303-306: indices `n - 1`, `n - 2`, … -/
def up (n : Int) : Nat → Tab σ → Tab σ
  | 0, T => T
  | m + 1, T => remap (up n m T) (n - 1 - m - 1) (n - 1 - m)

/-- `shuffle_symbols_upward_from`, `data_model/namespace.py` 303-306: `range(n - 1, pos, -1)`. -/
def shuffleUp (n pos : Int) (T : Tab σ) : Tab σ := up n (n - 1 - pos).toNat T

/-- The first `m` passes of `_shuffle_symbols_downward_to`, `data_model/namespace.py` 308-311: indices `pos + 1`, … -/
def down (pos : Int) : Nat → Tab σ → Tab σ
  | 0, T => T
  | m + 1, T => remap (down pos m T) (pos + 1 + m) (pos + 1 + m - 1)

/-- `_shuffle_symbols_downward_to`, `data_model/namespace.py` 308-311: `range(pos + 1, n + 1)`. -/
def shuffleDown (n pos : Int) (T : Tab σ) : Tab σ := down pos (n + 1 - (pos + 1)).toNat T

/-- The name under which a deletion takes place, `data_model/namespace.py` 317-321: `-1` becomes the last index when it
has no symbol of its own. -/
def delName (n name : Int) (T : Tab σ) : Int := if T name = none ∧ name = -1 then n else name

/-- `delete_symbol_for_name` for a list, `data_model/namespace.py` 313-326. -/
def deleteName (n name : Int) (T : Tab σ) : Tab σ :=
  shuffleDown n (delName n name T) (Function.update T (delName n name T) none)

/-- `_lookup_subscript` of a list of length `n`, `data_model/namespace.py` 240-250. -/
def lookup (n name : Int) (T : Tab σ) : Option σ :=
  match T name with
  | some s => some s
  | none => if name < 0 then T (n + name) else none

/-- The symbol kept under a name by `upsert_symbol_for_name`, `data_model/scope.py` 368-440: one that exists under this very
name is kept, else `fresh` is put there (also when the lookup finds the element under its non-negative name, 388-395). -/
def upsert (T : Tab σ) (name : Int) (fresh : σ) : Tab σ :=
  match T name with
  | some _ => T
  | none => Function.update T name (some fresh)

/-- `ListInsert.handle_namespace`, `tracing/external_calls/list_handlers.py` 49-67. `nsyms` is the number of symbols found
for the inserted object. `namespace.obj[insert_pos]` raises `IndexError` outside the list. -/
def listInsert (n pos : Int) (nsyms : Nat) (fresh : σ) (T : Tab σ) : Except Err (Tab σ) :=
  if nsyms > 1 then .ok T
  else
    let T := shuffleUp n pos T
    if pos < -n ∨ n ≤ pos then .error .crash else .ok (upsert T pos fresh)

/-- `ListRemove.process_arg` and `handle_namespace`, `tracing/external_calls/list_handlers.py` 77-86: `L` is the list
before the call. -/
def listRemove [DecidableEq α] (L : List α) (v : α) (T : Tab σ) : Tab σ :=
  if v ∈ L then deleteName (L.length - 1) (L.idxOf v) T else T

/-- `ListPop`, `tracing/external_calls/list_handlers.py` 77-80, 89-91: `none` is a call without argument, for which
`process_arg` is not called. -/
def listPop (n : Int) (pos : Option Int) (T : Tab σ) : Tab σ :=
  match pos with
  | none => T
  | some p => deleteName n p T

end Verif.ListNs
