import Verif.Base.Assoc
import Verif.Sched.Model
import Mathlib.Data.Finset.Sort

/-!
# Links between cells that are saved in the notebook

The client saves which cells depend on which in the metadata of the notebook (`frontend/labextension/src/index.ts` 803-822, `utils.ts` 1-13) and gives the links back to the
kernel when it connects (`index.ts` 1007-1014). The kernel records them as edges labelled with a symbol of their own (`core/ipyflow/flow.py` 236-258, 366-371), next to the
edges that it finds itself (`slicing/mixin.py` 300-338, `flow.py` 427-447, 596-612, `data_model/cell.py` 364-416, 418-431), and reports the links it keeps (`frontend.py`
525-588, modelled in `Verif.Sched`) as soon as a cell has been run (`flow.py` 547-558).

Simplified: a connection starts with a new kernel; the notebook only has code cells; symbols that are collected as garbage stay in edges (`flow.py` 597-600); cells that are run
are cells of the notebook as last told; statements and slices are not modelled. What the schedule depends on besides edges, positions and runs is arbitrary in every message. -/

namespace Verif.Saved
open Verif Verif.Slice Verif.Sched

/-- Ids of cells. -/
abbrev Id := Nat

/-- Symbols that label edges; `none` is `fake_edge_sym`, `flow.py` 238-240. -/
abbrev Sym := Option Nat

/-- `raw_static_parents`, `raw_dynamic_parents`, `raw_static_children` and `raw_dynamic_children`, `slicing/mixin.py` 360-419. -/
abbrev Table := Ctx → Id → List (Id × Finset Sym)

/-- What the client saves in the notebook: `cell_parents` and `cell_children` of the metadata, `index.ts` 806-822. -/
structure Note where
  parents : List (Id × Finset Id)
  children : List (Id × Finset Id)
  deriving DecidableEq

/-- The kernel: cells in the order they became known and their edges, parents and children, with those of the previous run (`data_model/cell.py` 364-416), positions
(`data_model/cell.py` 418-431), counters (−1 for cells that were not run), the number of runs and the order of data flow (`config.py` 26-28). -/
structure Kern where
  cells : List Id
  par : Table
  chi : Table
  prev : Table
  pos : Id → Pos
  ctr : Id → Int
  runs : Nat
  flow : Flow

/-- What happens: a new kernel connects to the notebook; the client tells the cells of the notebook in order; a cell starts to run; an edge is found; a cell is done; a schedule
is computed and sent, for which the rest of what it depends on is arbitrary. -/
inductive Event where
  | connect (flow : Flow) (nb : List Id)
  | told (nb : List Id)
  | start (c : Id)
  | edge (x : Ctx) (c p : Id) (n : Nat)
  | done (c : Id)
  | sched (w : Sched.World Id Sym)

/-- `d.setdefault(b, set()).update(S)` for the edges of `a`, `slicing/mixin.py` 315-316. -/
def touch (t : Table) (x : Ctx) (a b : Id) (S : Finset Sym) : Table := fun y i =>
  if y = x ∧ i = a then Assoc.set (t y i) b ((Assoc.get (t y i) b).getD ∅ ∪ S) else t y i

/-- Removal of symbols from the edge of `a` to `b`, which goes if none is left, `slicing/mixin.py` 329-335. -/
def drop (t : Table) (x : Ctx) (a b : Id) (S : Finset Sym) : Table := fun y i =>
  if y = x ∧ i = a then
    match Assoc.get (t y i) b with
    | none => t y i
    | some T => if T \ S = ∅ then Assoc.erase (t y i) b else Assoc.set (t y i) b (T \ S)
  else t y i

/-- The parents of the previous run that are taken over for a symbol, `slicing/mixin.py` 309-314. -/
def inherit (t : Table) (x : Ctx) (c : Id) (s : Sym) : List (Id × Finset Sym) → Table
  | [] => t
  | (p, S) :: l => inherit (if s ∈ S then touch t x c p {s} else t) x c s l

/-- `add_parent_edge`, `slicing/mixin.py` 300-319. -/
def addEdge (k : Kern) (x : Ctx) (c p : Id) (s : Sym) : Kern :=
  if p ∈ Assoc.keys (k.chi x c) then k
  else if p = c then { k with par := inherit k.par x c s (k.prev x c) }
  else { k with par := touch k.par x c p {s}, chi := touch k.chi x p c {s} }

/-- `set_cell_positions` and `_create_untracked_cells_for_content`, `data_model/cell.py` 418-431, `flow.py` 522-528. Cells that are no longer told are at `float("inf")`. -/
def tell (k : Kern) (nb : List Id) : Kern :=
  { k with cells := k.cells ++ nb.filter (· ∉ k.cells), pos := fun i => if i ∈ nb then ((nb.idxOf i : Int) : Pos) else ⊤ }

/-- A new kernel, `flow.py` 219, `data_model/cell.py` 234-241. -/
def fresh (flow : Flow) : Kern :=
  { cells := [], par := fun _ _ => [], chi := fun _ _ => [], prev := fun _ _ => [], pos := fun _ => ⊤, ctr := fun _ => -1, runs := 0, flow := flow }

/-- The loop over the parents of a child, `flow.py` 253-258. -/
def initOne (k : Kern) (c : Id) : List Id → Kern
  | [] => k
  | p :: l => initOne (if p ∈ k.cells then addEdge k .static c p none else k) c l

/-- `_initialize_cell_parents`, `flow.py` 242-258. The order of the parents of a cell does not matter, so they are sorted. -/
def initParents (k : Kern) : List (Id × Finset Id) → Kern
  | [] => k
  | (c, L) :: l => initParents (if c ∈ k.cells then initOne k c (L.sort (· ≤ ·)) else k) l

/-- `initialize` for a kernel that has no interface yet, `flow.py` 260-371, with `comm.open`, `index.ts` 1007-1014. -/
def connect (flow : Flow) (nb : List Id) (saved : List (Id × Finset Id)) : Kern := initParents (tell (fresh flow) nb) saved

/-- `create_and_track` for a run, `data_model/cell.py` 364-416: the cell has no parents at first and keeps its children. -/
def start (k : Kern) (c : Id) : Kern :=
  { k with
    cells := if c ∈ k.cells then k.cells else k.cells ++ [c]
    par := fun x i => if i = c then [] else k.par x i
    prev := fun x i => if i = c then k.par x c else k.prev x i
    ctr := fun i => if i = c then (k.runs : Int) + 1 else k.ctr i
    runs := k.runs + 1 }

/-- `add_data_dep`, `flow.py` 427-441: the parent is a cell that was run, and so is the child of an edge found while cells run. -/
def found (k : Kern) (x : Ctx) (c p : Id) (n : Nat) : Kern :=
  if c ∈ k.cells ∧ 0 < k.ctr p ∧ (x = .dynamic → 0 < k.ctr c) then addEdge k x c p (some n) else k

/-- Loop body of `_remove_dangling_parent_edges`, `flow.py` 607-612: symbols of the previous run that are no longer in the edge are removed from both tables. -/
def dropGone (k : Kern) (x : Ctx) (c : Id) (e : Id × Finset Sym) : Kern :=
  let S := e.2 \ (Assoc.get (k.par x c) e.1).getD ∅
  if S = ∅ then k else { k with par := drop k.par x c e.1 S, chi := drop k.chi x e.1 c S }

/-- `_remove_dangling_parent_edges`, `flow.py` 601-612, for the cell that was run. -/
def done (k : Kern) (c : Id) : Kern :=
  (k.prev .static c).foldl (fun k e => dropGone k .static c e) ((k.prev .dynamic c).foldl (fun k e => dropGone k .dynamic c e) k)

/-- What the schedule is computed from. `fake_edge_sym` is never removed, written by a cell or updated in a run, and its name is not one of those of
`is_implicit_virtual` (`data_model/symbol.py` 583-587, `flow.py` 238-240). -/
def look (k : Kern) (w : Sched.World Id Sym) : Sched.World Id Sym :=
  { w with
    flowOrder := k.flow
    fake := none
    implicitVirtual := fun s => s.isSome && w.implicitVirtual s
    updatedCells := fun s => if s.isSome then w.updatedCells s else ∅
    pos := k.pos
    ctr := k.ctr
    parents := k.par
    removed := fun i => (w.removed i).erase none
    staticWrites := fun i => (w.staticWrites i).erase none }

/-- `to_json` of a table for the known cells, `frontend.py` 87-94. -/
def json (cells : List Id) (T : Id → Option (Finset Id)) : List (Id × Finset Id) := cells.filterMap fun i => (T i).map fun s => (i, s)

/-- `check_and_link_multiple_cells`, `flow.py` 547-558: nothing is reported before the tracer is there, which is when a cell is run (564-574). -/
def payload (k : Kern) (w : Sched.World Id Sym) : Except Err (List (Id × Finset Id) × List (Id × Finset Id)) :=
  if k.runs = 0 then .ok ([], [])
  else match filteredGraph (look k w) k.cells with
    | .error e => .error e
    | .ok (P, C) => .ok (json k.cells P, json k.cells C)

/-- `mergeMaps`, `utils.ts` 1-13. -/
def mergeMaps (priority backup : List (Id × Finset Id)) : List (Id × Finset Id) := priority.foldl (fun m e => Assoc.set m e.1 e.2) backup

/-- The notebook with its metadata, and the kernel. `state.cellParents` and `state.cellChildren` of the client are what it saves (`index.ts` 810-822). -/
structure State where
  note : Note
  kern : Kern

/-- One event. For schedules `index.ts` 803-822. -/
def step (σ : State) : Event → State
  | .connect flow nb => { σ with kern := connect flow nb σ.note.parents }
  | .told nb => { σ with kern := tell σ.kern nb }
  | .start c => { σ with kern := start σ.kern c }
  | .edge x c p n => { σ with kern := found σ.kern x c p n }
  | .done c => { σ with kern := done σ.kern c }
  | .sched w =>
    match payload σ.kern w with
    | .error _ => σ
    | .ok (P, C) => { σ with note := { parents := mergeMaps P σ.note.parents, children := mergeMaps C σ.note.children } }

/-- A history, newest event first, that starts with what is saved in a notebook. -/
def run (n : Note) : List Event → State
  | [] => { note := n, kern := fresh .inOrder }
  | e :: h => step (run n h) e

/-- The links the client goes by after a history: `state.cellParents` and `state.cellChildren`, `index.ts` 810-817. -/
def shown (n : Note) (h : List Event) : Note := (run n h).note

end Verif.Saved
