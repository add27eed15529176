import Verif.Base.Dfs
import Verif.Base.Timestamp
import Verif.Slice.Model
import Mathlib.Data.Finset.Lattice.Fold
import Mathlib.Data.Finset.Image
import Mathlib.Data.List.Sort
import Mathlib.Order.WithBot
import Mathlib.Data.Finset.Union

/-!
# The execution schedule sent to the client (`frontend.py`)

Python sets are `Finset`s; where a loop over a set is order dependent the order is an explicit list argument, so
theorems quantify over it. Python dicts used as maps are functions into `Option`.
-/

namespace Verif.Sched
open Verif Verif.Slice

/-- `ExecutionSchedule`, `config.py` 20-23. -/
inductive Schedule where
  | liveness
  | dag
  | hybrid
  deriving DecidableEq, Repr

/-- `FlowDirection`, `config.py` 26-28. -/
inductive Flow where
  | anyOrder
  | inOrder
  deriving DecidableEq, Repr

/-- A cell position: an index, or `float("inf")` for a cell that is no longer in the notebook
(`data_model/cell.py` 175-186, 428-429). -/
abbrev Pos := WithTop Int

/-- `CheckerResult` as far as the schedule reads it (`data_model/cell.py` 67-74, `frontend.py` 425-448).

* `waitingSyms` – the live symbols with `is_waiting_at_position(cell.position)` (432-436);
* `unresolved` – `len(unresolved_live_refs) > 0` (437, 443);
* `maxUsed`, `maxUsedReactive`, `maxUsedCascading` – the three calls of `get_max_used_live_symbol_cell_counter`
  (391, 213, 220);
* `liveTimes` – for each live symbol, `is_deep` and `timestamp` (425-428). -/
structure Check (σ : Type) where
  waitingSyms : Finset σ
  unresolved : Bool
  typechecks : Bool
  dead : Finset σ
  maxUsed : Int
  maxUsedReactive : Int
  maxUsedCascading : Int
  liveTimes : List (Bool × Timestamp)

/-- Everything `compute_frontend_checker_result` reads. `ι` are cell ids, `σ` symbols. It is a snapshot: the side
effects of `check_and_resolve_symbols` on the edge tables while the cells are being checked are not modelled; the tables
are those at the moment they are read. All ids that occur in edge tables are assumed known (`from_id` total); that ids of
edge tables are known is a property of the registry. -/
structure World (ι σ : Type) where
  -- settings
  schedule : Schedule
  flowOrder : Flow
  ctxs : List Ctx
  pull : Bool
  minTimestamp : Int
  minNewReady : Int
  minForcedReactive : Int
  cellCounter : Int
  -- symbols
  fake : σ
  shallowTs : σ → Timestamp
  visibleTs : σ → Option Timestamp
  implicitVirtual : σ → Bool
  updatedCells : σ → Finset Int
  -- cells
  pos : ι → Pos
  ctr : ι → Int
  wasReady : ι → Bool
  parents : Ctx → ι → List (ι × Finset σ)
  removed : ι → Finset σ
  staticWrites : ι → Finset σ
  lastModified : ι → Option (Finset σ)
  ownerOf : Int → Option ι
  check : ι → Option (Check σ)
  lastExecuted : Option ι

variable {ι σ : Type} [DecidableEq ι] [DecidableEq σ]

/-- `exec_schedule in (DAG_BASED, HYBRID_DAG_LIVENESS_BASED)`, `frontend.py` 169-172, 230-233, 317-320. -/
def World.dagLike (w : World ι σ) : Bool := w.schedule == .dag || w.schedule == .hybrid

/-- `Cell.directional_parents` in one slicing context, `data_model/cell.py` 188-198. -/
def World.directionalParents (w : World ι σ) (c : Ctx) (x : ι) : List (ι × Finset σ) :=
  if w.flowOrder = .inOrder then (w.parents c x).filter fun e => w.pos e.1 < w.pos x else w.parents c x

/-- `cell.directional_parents.keys()` over all enabled contexts. -/
def World.parentIds (w : World ι σ) (x : ι) : Finset ι :=
  (w.ctxs.flatMap fun c => (w.directionalParents c x).map Prod.fst).toFinset

/-! ## Latest parent per timestamp -/

/-- Loop body of `get_latest_parent_by_ts_map`, `data_model/cell.py` 217-225. The inner loop over the set `syms` assigns
the same parent to every timestamp it touches, so it is one simultaneous update. -/
def latestStep (w : World ι σ) (x : ι) (m : Timestamp → Option ι) (e : ι × Finset σ) : Timestamp → Option ι :=
  let syms := (e.2 \ w.removed x) \ {w.fake}
  fun t =>
    if t ∈ syms.image w.shallowTs then
      match m t with
      | none => some e.1
      | some q => if w.pos e.1 ≥ w.pos q then some e.1 else some q
    else m t

/-- `Cell.get_latest_parent_by_ts_map`, `data_model/cell.py` 211-226. -/
def latestParByTs (w : World ι σ) (x : ι) : Option (Timestamp → Option ι) :=
  if w.flowOrder ≠ .inOrder then none
  else some ((w.ctxs.flatMap fun c => w.directionalParents c x).foldl (latestStep w x) fun _ => none)

/-- The set comprehension `{latest_par_by_ts[sym.shallow_timestamp].cell_id for sym in syms}` tested for `pid`,
`frontend.py` 336-340, 541-545: `none` is a `KeyError`, otherwise whether `pid` is in it. -/
def isLatestFor (w : World ι σ) (m : Timestamp → Option ι) (pid : ι) (syms : Finset σ) : Except Err Bool :=
  if ∃ s ∈ syms, m (w.shallowTs s) = none then .error .crash
  else .ok (decide (∃ s ∈ syms, m (w.shallowTs s) = some pid))

/-- The condition `latest_par_by_ts is not None and fake_edge_sym not in syms and pid not in {...}`,
`frontend.py` 333-341, 538-546. -/
def notLatest (w : World ι σ) (latest : Option (Timestamp → Option ι)) (pid : ι) (syms : Finset σ) : Except Err Bool :=
  match latest with
  | none => .ok false
  | some m =>
    if w.fake ∈ syms then .ok false
    else match isLatestFor w m pid syms with
      | .error err => .error err
      | .ok b => .ok !b

/-! ## Readiness of one cell -/

/-- The `should_skip` loop of `_compute_readiness`, `frontend.py` 357-374, in context `c`. -/
def shadowed (w : World ι σ) (c : Ctx) (x par : ι) (syms : Finset σ) : Bool :=
  w.flowOrder == .inOrder && c == .static &&
    (w.directionalParents c x).any fun e =>
      !(decide (w.pos e.1 ≤ w.pos par)) && (decide (syms ⊆ e.2) || decide (w.fake ∈ e.2))

/-- What one parent entry does to the loop state: nothing (`continue`), mark ready, mark ready and stop this context
(`break` at 332), or mark newly ready and stop everything (`break` at 383 and 323). -/
inductive ParentVerdict where
  | skip
  | ready
  | readyBreak
  | newReady
  deriving DecidableEq, Repr

/-- Loop body of `_compute_readiness` for one parent entry in context `c`, `frontend.py` 327-383. -/
def parentVerdict (w : World ι σ) (latest : Option (Timestamp → Option ι)) (c : Ctx) (x : ι) (e : ι × Finset σ) :
    Except Err ParentVerdict :=
  let pid := e.1
  let syms := e.2 \ w.removed x
  if w.fake ∈ syms ∧ w.ctr x < 0 ∧ 0 < w.ctr pid then .ok .readyBreak
  else
    match notLatest w latest pid syms with
    | .error err => .error err
    | .ok true => .ok .skip
    | .ok false =>
      if (max (w.ctr x) w.minTimestamp < w.ctr pid ∧
            (w.pull ∨ w.ctr pid ∈ syms.image fun s => (w.shallowTs s).cellNum)) ∨
          (∃ s ∈ syms, ∃ v ∈ w.visibleTs s, v.cellNum ≠ (w.shallowTs s).cellNum ∧ v.cellNum = w.ctr pid) then
        if shadowed w c x pid syms then .ok .skip
        else if w.ctr pid ≥ w.minNewReady ∧ w.ctr x > 0 then .ok .newReady
        else .ok .ready
      else .ok .skip

/-- Inner loop over one context, `frontend.py` 327-383; state is `(is_ready, is_new_ready)`. -/
def readinessCtx (w : World ι σ) (latest : Option (Timestamp → Option ι)) (c : Ctx) (x : ι) :
    List (ι × Finset σ) → Bool × Bool → Except Err (Bool × Bool)
  | [], st => .ok st
  | e :: es, st =>
    match parentVerdict w latest c x e with
    | .error err => .error err
    | .ok .skip => readinessCtx w latest c x es st
    | .ok .ready => readinessCtx w latest c x es (true, st.2)
    | .ok .readyBreak => .ok (true, st.2)
    | .ok .newReady => .ok (true, true)

/-- Outer loop over contexts, `frontend.py` 322-326. -/
def readinessDag (w : World ι σ) (latest : Option (Timestamp → Option ι)) (x : ι) :
    List Ctx → Bool × Bool → Except Err (Bool × Bool)
  | [], st => .ok st
  | c :: cs, st =>
    if st.2 then .ok st
    else match readinessCtx w latest c x (w.directionalParents c x) st with
      | .error err => .error err
      | .ok st' => readinessDag w latest x cs st'

/-- `_compute_readiness`, `frontend.py` 306-401. -/
def computeReadiness (w : World ι σ) (waiting : Finset ι) (x : ι) (chk : Check σ) : Except Err (Bool × Bool) :=
  if x ∈ waiting then .ok (false, false)
  else
    match (if w.dagLike then readinessDag w (latestParByTs w x) x w.ctxs (false, false)
        else (.ok (false, false) : Except Err (Bool × Bool))) with
    | .error err => .error err
    | .ok st =>
      if !st.2 && (w.schedule == .liveness || (w.schedule == .hybrid && w.flowOrder == .inOrder)) then
        if chk.maxUsed > max (w.ctr x) w.minTimestamp then
          .ok (true, st.2 || (decide (w.ctr x > 0) && decide (chk.maxUsed ≥ w.minNewReady)))
        else .ok st
      else .ok st

/-! ## Checking all cells -/

/-- The fields of `FrontendCheckerResult` filled while checking cells, plus the loop's local dicts
(`frontend.py` 42-59, 599-602). `readyFlag` is `Cell._ready`. -/
structure Result (ι σ : Type) where
  waiting : Finset ι
  ready : Finset ι
  newReady : Finset ι
  typeErr : Finset ι
  forced : Finset ι
  cascading : Finset ι
  unsafeOrder : ι → Finset ι
  waitingSyms : ι → Finset σ
  killing : σ → Finset ι
  readyFlag : ι → Bool
  links : ι → Finset ι
  makers : ι → Finset ι

/-- `FrontendCheckerResult.empty`, `frontend.py` 61-81. -/
def Result.empty (w : World ι σ) : Result ι σ where
  waiting := ∅
  ready := ∅
  newReady := ∅
  typeErr := ∅
  forced := ∅
  cascading := ∅
  unsafeOrder := fun _ => ∅
  waitingSyms := fun _ => ∅
  killing := fun _ => ∅
  readyFlag := w.wasReady
  links := fun _ => ∅
  makers := fun _ => ∅

/-- The out-of-order part of `_check_one_cell`, `frontend.py` 424-430: owners of deep, initialized live timestamps that
stand below `x`. `ownerOf` is `at_timestamp` (`none`: `KeyError`). -/
def unsafeOwners (w : World ι σ) (x : ι) : List (Bool × Timestamp) → Except Err (Finset ι)
  | [] => .ok ∅
  | (deep, t) :: rest =>
    if !deep || !t.isInitialized then unsafeOwners w x rest
    else match w.ownerOf t.cellNum with
      | none => .error .crash
      | some u =>
        match unsafeOwners w x rest with
        | .error err => .error err
        | .ok s => .ok (if w.pos u > w.pos x then insert u s else s)

/-- `_check_one_cell`, `frontend.py` 403-477, for a cell whose check did not raise. Phantom-cell information and stale
parents are filled by separate functions and modelled separately. -/
def checkOneOk (w : World ι σ) (lastPos : Option Pos) (r : Result ι σ) (x : ι) (chk : Check σ) :
    Except Err (Result ι σ) :=
  match (if w.flowOrder = .inOrder then unsafeOwners w x chk.liveTimes else .ok ∅) with
  | .error err => .error err
  | .ok bad =>
    let r := { r with unsafeOrder := Function.update r.unsafeOrder x (r.unsafeOrder x ∪ bad) }
    let waitingSyms := if w.schedule = .liveness then chk.waitingSyms else ∅
    let unresolved := if w.schedule = .liveness then chk.unresolved else false
    let r := if waitingSyms.Nonempty then
        { r with waitingSyms := Function.update r.waitingSyms x waitingSyms } else r
    let r := if waitingSyms.Nonempty ∨ unresolved = true then { r with waiting := insert x r.waiting } else r
    let r := if chk.typechecks then r else { r with typeErr := insert x r.typeErr }
    let r := { r with killing := fun s => if s ∈ chk.dead then insert x (r.killing s) else r.killing s }
    match computeReadiness w r.waiting x chk with
    | .error err => .error err
    | .ok (isReady, isNewReady) =>
      let wasReady := r.readyFlag x
      let r := if isReady then { r with ready := insert x r.ready } else r
      let r := { r with readyFlag := Function.update r.readyFlag x isReady }
      if w.flowOrder = .inOrder ∧ (∃ p ∈ lastPos, w.pos x ≤ p) then .ok r
      else if isNewReady ∨ (w.ctr x > 0 ∧ wasReady = false ∧ isReady = true ∧ w.cellCounter ≥ w.minNewReady) then
        .ok { r with newReady := insert x r.newReady }
      else .ok r

/-- `_check_one_cell`, `frontend.py` 403-477; `check x = none` models an exception caught at 417-422. -/
def checkOne (w : World ι σ) (lastPos : Option Pos) (r : Result ι σ) (x : ι) : Except Err (Result ι σ) :=
  match w.check x with
  | none => .ok r
  | some chk => checkOneOk w lastPos r x chk

/-- `sorted(cells_to_check, key=lambda c: c.position)`, `frontend.py` 608. -/
def sortByPos (w : World ι σ) (cells : List ι) : List ι := cells.insertionSort fun a b => w.pos a ≤ w.pos b

/-! ## DAG-based waiters -/

/-- One pass of the inner `for` of `_compute_dag_based_waiters`, `frontend.py` 237-245; `ready` is not changed by it. -/
def dagPass (w : World ι σ) (cells : List ι) (ready waiting : Finset ι) : Finset ι :=
  cells.foldl (fun W x =>
    if x ∈ W then W
    else if (w.parentIds x ∩ (ready ∪ W)).Nonempty then insert x W else W) waiting

/-- The `while True` of `_compute_dag_based_waiters`, `frontend.py` 235-248; `none` when the fuel runs out. -/
def dagLoop (w : World ι σ) (cells : List ι) (ready : Finset ι) : Nat → Finset ι → Finset ι → Option (Finset ι)
  | 0, _, _ => none
  | n + 1, prev, waiting =>
    let waiting' := dagPass w cells ready waiting
    if prev = waiting' then some waiting' else dagLoop w cells ready n waiting' waiting'

/-- `_compute_dag_based_waiters`, `frontend.py` 228-252. -/
def dagWaiters (w : World ι σ) (cells : List ι) (fuel : Nat) (r : Result ι σ) : Except Err (Result ι σ) :=
  if !w.dagLike then .ok r
  else match dagLoop w cells r.ready fuel ∅ r.waiting with
    | none => .error .fuel
    | some W => .ok { r with
        waiting := W, ready := r.ready \ W, newReady := r.newReady \ W,
        readyFlag := fun x => if x ∈ W then false else r.readyFlag x }

/-! ## Forced reactive cells -/

/-- `_compute_reactive_cells_for_reactive_symbols`, `frontend.py` 197-226 (iteration order is irrelevant). -/
def reactiveCells (w : World ι σ) (checked : Finset ι) (lastPos : Pos) (r : Result ι σ) : Result ι σ :=
  let eligible := (r.ready ∩ checked).filter fun x => ¬ (w.flowOrder = .inOrder ∧ w.pos x < lastPos)
  { r with
    forced := r.forced ∪ eligible.filter fun x =>
      ∃ chk ∈ w.check x, Check.maxUsedReactive chk > max (w.ctr x) w.minForcedReactive
    cascading := r.cascading ∪ eligible.filter fun x =>
      ∃ chk ∈ w.check x, Check.maxUsedCascading chk > max (w.ctr x) w.minForcedReactive }

/-- The call guarded by `last_executed_cell_pos is not None`, `frontend.py` 622-625. -/
def maybeReactiveCells (w : World ι σ) (checked : Finset ι) (lastPos : Option Pos) (r : Result ι σ) : Result ι σ :=
  match lastPos with
  | none => r
  | some p => reactiveCells w checked p r

/-! ## Ready-making cells and links -/

/-- `_compute_ready_making_cells` for one waiting cell, `frontend.py` 167-195. -/
def readyMaking (w : World ι σ) (r : Result ι σ) (x : ι) : Finset ι :=
  let cand := if w.dagLike then w.parentIds x ∩ (r.ready ∪ r.waiting)
    else (r.waitingSyms x).biUnion r.killing
  let cand := if w.flowOrder = .inOrder then cand.filter fun c => w.pos c < w.pos x else cand
  match w.lastExecuted with
  | none => cand
  | some l => cand.erase l

/-- `_compute_ready_making_cells`, `frontend.py` 159-195. -/
def computeReadyMaking (w : World ι σ) (r : Result ι σ) : Result ι σ :=
  { r with links := fun x => if x ∈ r.waiting then readyMaking w r x else r.links x }

/-- Loop body for one waiting cell in `_compute_waiter_and_ready_maker_links`, `frontend.py` 142-153. The state is the
link table and whether a change was seen in this pass. -/
def linkStep (W : Finset ι) (st : (ι → Finset ι) × Bool) (x : ι) : (ι → Finset ι) × Bool :=
  let L := st.1
  let new := (L x ∪ ((L x).filter (· ∈ W)).biUnion L).erase x
  (Function.update L x new, st.2 || decide ((L x).card ≠ new.card))

/-- One pass of the `while` loop, `frontend.py` 141-153; `order` is the iteration order of the set of waiting cells. -/
def linkPass (W : Finset ι) (order : List ι) (L : ι → Finset ι) : (ι → Finset ι) × Bool :=
  order.foldl (linkStep W) (L, false)

/-- The `while waiter_link_changes` loop, `frontend.py` 138-153. -/
def linkLoop (W : Finset ι) (order : List ι) : Nat → (ι → Finset ι) → Option (ι → Finset ι)
  | 0, _ => none
  | n + 1, L =>
    let p := linkPass W order L
    if p.2 then linkLoop W order n p.1 else some p.1

/-- The final loop, `frontend.py` 154-157: waiting cells are removed from each link set, then ready-maker links are the
inverse. The loop interleaves the two per waiting cell; link sets of different cells do not influence each other. -/
def finishLinks (W : Finset ι) (L M : ι → Finset ι) : (ι → Finset ι) × (ι → Finset ι) :=
  let L' := fun x => if x ∈ W then L x \ W else L x
  (L', fun m => M m ∪ W.filter fun x => m ∈ L' x)

/-- `_compute_waiter_and_ready_maker_links`, `frontend.py` 137-157. -/
def waiterLinks (order : List ι) (fuel : Nat) (r : Result ι σ) : Except Err (Result ι σ) :=
  match linkLoop r.waiting order fuel r.links with
  | none => .error .fuel
  | some L =>
    let (L', M') := finishLinks r.waiting L r.makers
    .ok { r with links := L', makers := M' }

/-! ## Parents and children reported to the client -/

/-- Whether the entry `e` of cell `x` in context `c` is kept by `_compute_filtered_parents`, `frontend.py` 531-582. -/
def keepEntry (w : World ι σ) (latest : Option (Timestamp → Option ι)) (c : Ctx) (x : ι) (e : ι × Finset σ) :
    Except Err Bool :=
  let pid := e.1
  let syms := (e.2 \ w.removed x).filter fun s => w.implicitVirtual s = false
  if syms = ∅ then .ok false
  else match notLatest w latest pid syms with
    | .error err => .error err
    | .ok true => .ok false
    | .ok false =>
      if (∃ M ∈ w.lastModified pid, syms ⊆ w.staticWrites pid ∧ M ∩ syms = ∅) then .ok false
      else if w.ctr pid ≥ 0 ∧ ¬ ∃ s ∈ syms, w.ctr pid ∈ w.updatedCells s then .ok false
      else if w.flowOrder = .inOrder ∧ c = .static ∧ (∃ o ∈ w.directionalParents c x,
          ¬ (syms = {w.fake} ∧ o.2 = {w.fake}) ∧ ¬ w.pos o.1 ≤ w.pos pid ∧ (syms ⊆ o.2 ∨ w.fake ∈ o.2)) then .ok false
      else .ok true

/-- The loops of `_compute_filtered_parents` for one cell, `frontend.py` 528-582, over a list of (context, entry). -/
def keepAll (w : World ι σ) (latest : Option (Timestamp → Option ι)) (x : ι) :
    List (Ctx × (ι × Finset σ)) → Finset ι → Except Err (Finset ι)
  | [], acc => .ok acc
  | (c, e) :: rest, acc =>
    match keepEntry w latest c x e with
    | .error err => .error err
    | .ok b => keepAll w latest x rest (if b then insert e.1 acc else acc)

/-- `this_cell_parents`, `frontend.py` 528-582. -/
def filteredParents (w : World ι σ) (x : ι) : Except Err (Finset ι) :=
  keepAll w (latestParByTs w x) x (w.ctxs.flatMap fun c => (w.directionalParents c x).map fun e => (c, e)) ∅

/-- `self.cell_parents`, `frontend.py` 527-583. -/
def parentsTable (w : World ι σ) : List ι → (ι → Option (Finset ι)) → Except Err (ι → Option (Finset ι))
  | [], T => .ok T
  | x :: rest, T =>
    match filteredParents w x with
    | .error err => .error err
    | .ok s => parentsTable w rest (Function.update T x (some s))

/-- `d.setdefault(k, set()).add(v)` for every `k` in `ks` (`frontend.py` 585-586). -/
def addAll (d : ι → Option (Finset ι)) (ks : Finset ι) (v : ι) : ι → Option (Finset ι) :=
  fun k => if k ∈ ks then some (insert v ((d k).elim ∅ id)) else d k

/-- One iteration of `for cell_id, parents in self.cell_parents.items()`, `frontend.py` 584-586. -/
def addChild (T d : ι → Option (Finset ι)) (x : ι) : ι → Option (Finset ι) :=
  match T x with
  | some ps => addAll d ps x
  | none => d

/-- `self.cell_children`, `frontend.py` 584-588. The keys of `cell_parents` are the ids of `cells`. -/
def childrenTable (cells : List ι) (T : ι → Option (Finset ι)) : ι → Option (Finset ι) :=
  let d := cells.foldl (addChild T) fun _ => none
  cells.foldl (fun d x => if (d x).isSome then d else Function.update d x (some ∅)) d

/-- `_compute_filtered_parents`, `frontend.py` 525-588. -/
def filteredGraph (w : World ι σ) (cells : List ι) :
    Except Err ((ι → Option (Finset ι)) × (ι → Option (Finset ι))) :=
  match parentsTable w cells fun _ => none with
  | .error err => .error err
  | .ok T => .ok (T, childrenTable cells T)

/-! ## Putting it together -/

/-- `compute_frontend_checker_result` without `_compute_unsafe_order_usages` and `_compute_filtered_parents` (which only
write their own fields and are modelled separately), `frontend.py` 590-631. `cells` is `cells_to_check`, `tagForced` the
cells forced by reactive tags of the last executed cell (479-491), `order` the iteration order of the final set of
waiting cells. -/
def compute (w : World ι σ) (cells : List ι) (tagForced : Finset ι) (order : Finset ι → List ι) (fuel : Nat) :
    Except Err (Result ι σ) :=
  let lastPos := w.lastExecuted.map w.pos
  let sorted := sortByPos w cells
  let r0 := { Result.empty w with forced := tagForced }
  match sorted.foldlM (checkOne w lastPos) r0 with
  | .error err => .error err
  | .ok r1 =>
    match dagWaiters w sorted fuel r1 with
    | .error err => .error err
    | .ok r2 =>
      let checked := (sorted.filter fun x => (w.check x).isSome).toFinset
      let r3 := maybeReactiveCells w checked lastPos r2
      let r4 := computeReadyMaking w r3
      waiterLinks (order r4.waiting) fuel r4

/-- The `waiting_cells` entry of `to_json`, `frontend.py` 95. -/
def jsonWaiting (r : Result ι σ) : Finset ι := r.waiting ∪ r.typeErr

/-- The `ready_cells` entry of `to_json`, `frontend.py` 96. -/
def jsonReady (r : Result ι σ) : Finset ι := r.ready

/-- The `new_ready_cells` entry of `to_json`, `frontend.py` 97-99. -/
def jsonNewReady (allowNewReady : Bool) (r : Result ι σ) : Finset ι := if allowNewReady then r.newReady else ∅

end Verif.Sched
