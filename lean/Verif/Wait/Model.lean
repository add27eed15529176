import Verif.Base.Dfs

/-!
# Waiting symbols

Models `is_waiting`, `is_shallow_stale`, `_is_ready_or_waiting_at_position_impl` and `is_waiting_at_position` of `core/ipyflow/data_model/symbol.py` 414-416,
936-998, with the answers they keep. Of timestamps only the counter of the execution matters here. Symbols are of an arbitrary type; sets and tables are lists
in the order in which Python goes over them. -/

namespace Verif.Wait

variable {S : Type}

/-- What the functions look at. -/
structure World (S : Type) where
  /-- `disable_warnings or _temp_disable_warnings` -/
  off : S → Bool
  /-- `_timestamp.cell_num` -/
  ctr : S → Int
  /-- `required_timestamp.cell_num` -/
  required : S → Int
  /-- `flow().min_timestamp`, set by `%flow clear` (`line_magics.py` 124-126) -/
  minTs : Int
  /-- `namespace_waiting_symbols` of the namespace of the symbol's object, 271-274 -/
  waiting : S → List S
  /-- `parents`: symbols and the executions in which the dependency arose -/
  parents : S → List (S × List Int)
  /-- `updated_timestamps`, 224-230 -/
  updated : S → List Int
  /-- `cells().at_timestamp(..).position`; `none`: `KeyError` -/
  pos : Int → Option Int
  /-- `flow_order` is `ANY_ORDER` -/
  anyOrder : Bool

/-- `waiting_timestamp < required_timestamp.cell_num` and warnings are on: `is_shallow_stale`, 948-952, with `waiting_timestamp`, 414-416. -/
def shallow (w : World S) (s : S) : Bool := !w.off s && decide (max (w.ctr s) w.minTs < w.required s)

/-- `is_waiting`, 936-946. -/
def isWaiting (w : World S) : Nat → S → Except Err Bool
  | 0, _ => .error .fuel
  | n + 1, s =>
    if w.off s then .ok false
    else if shallow w s then .ok true
    else if w.minTs = -1 then .ok (!(w.waiting s).isEmpty)
    else (w.waiting s).foldlM (fun b q => if b then .ok true else isWaiting w n q) false

/-- The kept answers: `_last_computed_ready_or_waiting_cache_ts` and `_is_ready_or_waiting_at_position_cache`, 181-182. -/
structure Cache (S : Type) where
  stamp : S → Int
  entry : S → Int → Bool → Option Bool

variable [DecidableEq S]

/-- Answers of earlier executions are dropped, 989-991. -/
def Cache.enter (c : Cache S) (now : Int) (s : S) : Cache S :=
  if now > c.stamp s then
    { stamp := fun q => if q = s then now else c.stamp q
      entry := fun q p d => if q = s then none else c.entry q p d }
  else c

/-- An answer is kept, 995, 997. -/
def Cache.set (c : Cache S) (s : S) (p : Int) (d b : Bool) : Cache S :=
  { c with entry := fun q p' d' => if q = s ∧ p' = p ∧ d' = d then some b else c.entry q p' d' }

/-- A loop that ends with `return True` at the first hit. -/
def anyM {α C : Type} (f : C → α → Except Err (Bool × C)) : C → List α → Except Err (Bool × C)
  | c, [] => .ok (false, c)
  | c, a :: l =>
    match f c a with
    | .error e => .error e
    | .ok (true, c1) => .ok (true, c1)
    | .ok (false, c1) => anyM f c1 l

/-- One turn of the loop over the updates of a parent, 960-973. `self` is the recursive call. -/
def probeUpdate (w : World S) (self : Cache S → S → Int → Except Err (Bool × Cache S)) (par : S) (t p0 : Int) (c : Cache S) (u : Int) :
    Except Err (Bool × Cache S) :=
  match w.pos u with
  | none => .error .crash
  | some pu => if pu > p0 then .ok (false, c) else if u > t then .ok (true, c) else self c par p0

/-- One turn of the loop over the executions of a dependency, 956-973. -/
def probeTs (w : World S) (self : Cache S → S → Int → Except Err (Bool × Cache S)) (pos : Int) (par : S) (c : Cache S) (t : Int) :
    Except Err (Bool × Cache S) :=
  match w.pos t with
  | none => .error .crash
  | some p0 => if p0 > pos then .ok (false, c) else anyM (probeUpdate w self par t p0) c (w.updated par)

/-- `_is_ready_or_waiting_at_position_impl`, 954-978. -/
def impl (w : World S) (self : Cache S → S → Int → Except Err (Bool × Cache S)) (c : Cache S) (s : S) (pos : Int) (deep : Bool) :
    Except Err (Bool × Cache S) :=
  match anyM (fun c p => anyM (probeTs w self pos p.1) c p.2) c (w.parents s) with
  | .error e => .error e
  | .ok (true, c1) => .ok (true, c1)
  | .ok (false, c1) => if deep then anyM (fun c q => self c q pos) c1 (w.waiting s) else .ok (false, c1)

/-- `is_waiting_at_position`, 980-998. `now` is `cells().exec_counter()`; `m` is the fuel of `is_waiting`. -/
def waitsAt (w : World S) (now : Int) (m : Nat) : Nat → Cache S → S → Int → Bool → Except Err (Bool × Cache S)
  | 0, _, _, _, _ => .error .fuel
  | n + 1, c, s, pos, deep =>
    match (if deep then isWaiting w m s else .ok (shallow w s)) with
    | .error e => .error e
    | .ok false => .ok (false, c)
    | .ok true =>
      if w.anyOrder then .ok (true, c)
      else
        let c1 := c.enter now s
        match c1.entry s pos deep with
        | some b => .ok (b, c1)
        | none =>
          match impl w (fun c q p => waitsAt w now m n c q p true) (c1.set s pos deep false) s pos deep with
          | .error e => .error e
          | .ok (b, c2) => .ok (b, c2.set s pos deep b)

end Verif.Wait
