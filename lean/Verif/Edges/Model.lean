import Verif.Base.Dfs
import Mathlib.Data.Finset.SDiff
import Mathlib.Data.Finset.Lattice.Basic

/-!
# Parent and child edges between cells (`slicing/mixin.py` 300-357, `data_model/cell.py` 402-405, `flow.py` 596-610)

One slicing context at a time (the tables of the two contexts never touch each other). A dict `id → set of symbols` is a
function into `Finset`; the code never stores an empty set under a key, so a key is present iff its set is nonempty.
`ι` are cell ids, `σ` symbols. All ids are taken to be registered (`from_id` does not raise).
-/

namespace Verif.Edges
open Verif

/-- The edge tables of one slicing context.

* `par c` – `raw_parents` of the current version of cell `c` (`data_model/cell.py` 114, 116);
* `chi p` – `raw_children` of `p`; all versions of a cell share one dict (`data_model/cell.py` 404-405);
* `old c` – `raw_parents` of the version before the current one (empty when there is none);
* `shared c` – the current and the previous version of `c` share one `raw_parents` dict
  (`shell/interactiveshell.py` 451-453). -/
structure St (ι σ : Type) where
  par : ι → ι → Finset σ
  chi : ι → ι → Finset σ
  old : ι → ι → Finset σ
  shared : ι → Bool

variable {ι σ : Type} [DecidableEq ι] [DecidableEq σ]

/-- No edges, no previous versions (`data_model/cell.py` 114-117). -/
def St.init : St ι σ where
  par := fun _ _ => ∅
  chi := fun _ _ => ∅
  old := fun _ _ => ∅
  shared := fun _ => false

/-- `self.prev.raw_parents`, taking sharing into account (`slicing/mixin.py` 309-313, `flow.py` 602-606). -/
def St.prevPar (s : St ι σ) (c : ι) : ι → Finset σ := if s.shared c then s.par c else s.old c

/-- `d[a][b] = v`. -/
def set2 (f : ι → ι → Finset σ) (a b : ι) (v : Finset σ) : ι → ι → Finset σ :=
  fun x y => if x = a ∧ y = b then v else f x y

/-- The self-edge case of `add_parent_edges`: inherit the common symbols of the previous version's parents,
`slicing/mixin.py` 307-314. -/
def inherit (s : St ι σ) (c : ι) (syms : Finset σ) : St ι σ :=
  { s with par := fun x p => if x = c then s.par c p ∪ (syms ∩ s.prevPar c p) else s.par x p }

/-- `add_parent_edges`, `slicing/mixin.py` 300-316. -/
def addParent (s : St ι σ) (c p : ι) (syms : Finset σ) : St ι σ :=
  if syms = ∅ then s
  else if s.chi c p ≠ ∅ then s
  else if p = c then inherit s c syms
  else { s with
    par := set2 s.par c p (s.par c p ∪ syms)
    chi := set2 s.chi p c (s.chi p c ∪ syms) }

/-- `remove_parent_edges`, `slicing/mixin.py` 321-334. -/
def removeParent (s : St ι σ) (c p : ι) (syms : Finset σ) : St ι σ :=
  { s with
    par := set2 s.par c p (s.par c p \ syms)
    chi := set2 s.chi p c (s.chi p c \ syms) }

/-- `Cell.create_and_track` on an id that already has a version: fresh parents, children dict carried over,
`data_model/cell.py` 390-417. -/
def rerun (s : St ι σ) (c : ι) : St ι σ :=
  { s with
    par := fun x => if x = c then fun _ => ∅ else s.par x
    old := fun x => if x = c then s.par c else s.old x
    shared := fun x => if x = c then false else s.shared x }

/-- A run with dataflow disabled: the new version takes over the dict of the previous one,
`shell/interactiveshell.py` 451-453. -/
def adopt (s : St ι σ) (c : ι) : St ι σ :=
  { s with
    par := fun x => if x = c then s.prevPar c else s.par x
    shared := fun x => if x = c then true else s.shared x }

/-- First loop of `_remove_dangling_parent_edges`, `flow.py` 597-600. The iterations touch pairwise different entries, so
they are applied together. -/
def dropDangling (s : St ι σ) (dangling : Finset σ) : St ι σ :=
  { s with
    par := fun c p => s.par c p \ dangling
    chi := fun p c => if s.par c p ≠ ∅ then s.chi p c \ dangling else s.chi p c }

/-- Second loop of `_remove_dangling_parent_edges`, `flow.py` 605-610: for each parent of the previous version remove the
symbols that the current version does not have. -/
def dropOld (s : St ι σ) (c : ι) : St ι σ :=
  { s with
    par := fun x p => if x = c then s.par c p \ (s.prevPar c p \ s.par c p) else s.par x p
    chi := fun p x => if x = c then s.chi p c \ (s.prevPar c p \ s.par c p) else s.chi p x }

/-- `_remove_dangling_parent_edges`, `flow.py` 596-610; `c` is the cell that just ran. -/
def cleanup (s : St ι σ) (c : ι) (dangling : Finset σ) : St ι σ := dropOld (dropDangling s dangling) c

/-- The operations that change cell edges (callers: `flow.py` 258, 441, 600, 608; `shell/interactiveshell.py` 452-453,
635, 637; `data_model/cell.py` 390-405). -/
inductive Op (ι σ : Type) where
  | add (c p : ι) (syms : Finset σ)
  | remove (c p : ι) (syms : Finset σ)
  | rerun (c : ι)
  | adopt (c : ι)
  | cleanup (c : ι) (dangling : Finset σ)

/-- One operation. -/
def step (s : St ι σ) : Op ι σ → St ι σ
  | .add c p syms => addParent s c p syms
  | .remove c p syms => removeParent s c p syms
  | .rerun c => Verif.Edges.rerun s c
  | .adopt c => Verif.Edges.adopt s c
  | .cleanup c d => Verif.Edges.cleanup s c d

/-- A history. -/
def run (s : St ι σ) (ops : List (Op ι σ)) : St ι σ := ops.foldl step s

/-! ## Statement override -/

/-- `replace_parent_edges`, `slicing/mixin.py` 339-347; a missing key is a `KeyError`. Statements are not re-run, so
`old` plays no role. -/
def replaceParent (s : St ι σ) (c p q : ι) : Except Err (St ι σ) :=
  let syms := s.par c p
  if syms = ∅ ∨ s.chi p c = ∅ then .error .crash
  else
    let par := set2 s.par c p ∅
    let chi := set2 s.chi p c ∅
    .ok { s with par := set2 par c q (par c q ∪ syms), chi := set2 chi q c (chi q c ∪ syms) }

/-- `replace_child_edges`, `slicing/mixin.py` 349-357. -/
def replaceChild (s : St ι σ) (p c d : ι) : Except Err (St ι σ) :=
  let syms := s.chi p c
  if syms = ∅ ∨ s.par c p = ∅ then .error .crash
  else
    let par := set2 s.par c p ∅
    let chi := set2 s.chi p c ∅
    .ok { s with par := set2 par d p (par d p ∪ syms), chi := set2 chi p d (chi p d ∪ syms) }

/-- The override loops of `Statement.create_and_track`, `data_model/statement.py` 141-145: `children` and `parents` are
the key lists of the replaced statement `p`, copied before each loop. -/
def overrideStmt (s : St ι σ) (p q : ι) (children parents : List ι) : Except Err (St ι σ) :=
  match children.foldlM (fun s c => replaceParent s c p q) s with
  | .error e => .error e
  | .ok s => parents.foldlM (fun s pp => replaceChild s pp p q) s

end Verif.Edges
