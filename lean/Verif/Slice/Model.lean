import Verif.Base.Dfs
import Verif.Base.Timestamp
import Mathlib.Data.List.Sort

/-!
# Slicing (`slicing/mixin.py`)

A *sliceable* is a cell version or a statement version (`SliceableMixin`). Nodes carry their timestamp. The edge tables
are arbitrary: how they are filled is the subject of `Verif.Edges`.
-/

namespace Verif.Slice
open Verif

/-- `SlicingContext`, `slicing/context.py` 10-12. -/
inductive Ctx where
  | dynamic
  | static
  deriving DecidableEq, Repr

/-- What `_make_slice_helper` reads (`slicing/mixin.py` 421-432). `ν` identifies one version of a cell or statement
(one Python object), `ι` is the id shared by all its versions.

* `chain pid` is `from_id(pid)`, `from_id(pid).prev`, `from_id(pid).prev.prev`, ...; it is empty when `from_id`
  raises `KeyError` (`data_model/cell.py` 157-159, 518-520; `data_model/statement.py` 87-89, 181-183);
* `parents c x` is the key list of `x.raw_parents` in context `c` (`slicing/mixin.py` 359-365);
* `override` is the attribute read at line 429 (`False` for cells; `data_model/statement.py` 64);
* `at'` is `at_timestamp` (`data_model/cell.py` 508-516; `data_model/statement.py` 170-179), `none` for `KeyError`. -/
structure World (ι ν : Type) where
  ts : ν → Timestamp
  parents : Ctx → ν → List ι
  chain : ι → List ν
  override : ν → Bool
  at' : Timestamp → Option ν

variable {ι ν : Type} [DecidableEq ν]

/-- The loop `while parent.timestamp > self.timestamp`, `slicing/mixin.py` 427-431. Running off the end of the chain is
`None.timestamp`, an `AttributeError`; an empty chain at the start is the `KeyError` of `from_id`. -/
def walk (w : World ι ν) (self : ν) : List ν → Except Err ν
  | [] => .error .crash
  | parent :: older =>
    if w.ts parent > w.ts self then
      if w.override parent then .ok parent else walk w self older
    else .ok parent

/-- The successors visited by `_make_slice_helper`, in order: for each enabled context and each recorded parent id the
version found by `walk` (`slicing/mixin.py` 425-432). `ctxs` is `mut_settings.slicing_contexts()`, `config.py` 108-114.
Simplification: all parents of `self` are resolved before the first of them is visited; an exception raised by a later
parent therefore surfaces earlier than in Python, but it surfaces in both. -/
def sliceSucc (w : World ι ν) (ctxs : List Ctx) (self : ν) : Except Err (List ν) :=
  (ctxs.flatMap fun c => w.parents c self).mapM fun pid => walk w self (w.chain pid)

/-- `_make_slice_helper`, `slicing/mixin.py` 421-432, with recursion depth as fuel. -/
def makeSliceHelper (w : World ι ν) (ctxs : List Ctx) (fuel : Nat) (closure : List ν) (self : ν) :
    Except Err (List ν) :=
  dfs (sliceSucc w ctxs) fuel closure self

/-- A seed as accepted by `make_multi_slice`: a timestamp (an `int` counter `n` is `Timestamp(n, _)` resolved by
`at_timestamp`) or a sliceable (`slicing/mixin.py` 440). -/
inductive Seed (ν : Type) where
  | time (t : Timestamp)
  | node (x : ν)

/-- `cls.at_timestamp(seed) if isinstance(seed, (Timestamp, int)) else seed`, `slicing/mixin.py` 445-447. -/
def resolveSeed (w : World ι ν) : Seed ν → Except Err ν
  | .time t => match w.at' t with
    | some x => .ok x
    | none => .error .crash
  | .node x => .ok x

/-- `sorted(closure, key=lambda dep: dep.timestamp)`, `slicing/mixin.py` 452 (a stable sort). -/
def sortByTime (w : World ι ν) (l : List ν) : List ν :=
  l.insertionSort fun a b => w.ts a ≤ w.ts b

/-- One iteration of the seed loop, `slicing/mixin.py` 444-451. -/
def addSeed (w : World ι ν) (ctxs : List Ctx) (fuel : Nat) (seedOnly : Bool) (closure : List ν) (seed : Seed ν) :
    Except Err (List ν) :=
  match resolveSeed w seed with
  | .error e => .error e
  | .ok x =>
    if seedOnly then .ok (if x ∈ closure then closure else closure ++ [x])
    else makeSliceHelper w ctxs fuel closure x

/-- `make_multi_slice`, `slicing/mixin.py` 437-452. -/
def makeMultiSlice (w : World ι ν) (ctxs : List Ctx) (fuel : Nat) (seeds : List (Seed ν)) (seedOnly : Bool) :
    Except Err (List ν) :=
  match seeds.foldlM (addSeed w ctxs fuel seedOnly) [] with
  | .error e => .error e
  | .ok closure => .ok (sortByTime w closure)

/-- `make_slice`, `slicing/mixin.py` 434-435. -/
def makeSlice (w : World ι ν) (ctxs : List Ctx) (fuel : Nat) (self : ν) : Except Err (List ν) :=
  makeMultiSlice w ctxs fuel [.node self] false

end Verif.Slice
