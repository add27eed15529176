/-!
# Requests of the client: dispatch, responses, and the active-cell marker

Models `core/ipyflow/comm_manager.py` (`CommManager`). Python exceptions are values; the state at the point of the
exception is kept, because later requests start from it.

Simplifications: strings are numbers; a response dictionary maps keys to values and its order is ignored; everything
that handlers do besides answering, failing, (un)registering handlers, and moving the active-cell marker is in an
unspecified component `X` of the state and is unconstrained; logging is left out. -/

namespace Verif.Comm

/-- Python exceptions: subclasses of `Exception` (with `str(e)`), `KeyError` separately because
`comm_manager.py` 166 names it, and the others (`KeyboardInterrupt`, `SystemExit`), which `except Exception`
does not catch. -/
inductive Exn where
  | error (msg : Nat)
  | keyError (msg : Nat)
  | base
  deriving DecidableEq, Repr

/-- `str(e)` of an exception which `except Exception` catches (`comm_manager.py` 91-95). -/
def Exn.text? : Exn → Option Nat
  | .error m | .keyError m => some m
  | .base => none

/-- Keys of a response dictionary. -/
inductive Key where
  | type
  | success
  | error
  | other (n : Nat)
  deriving DecidableEq, Repr

/-- Values in a response dictionary; `blob` is anything else, which may or may not be serialisable. -/
inductive Val where
  | bool (b : Bool)
  | text (n : Nat)
  | blob (n : Nat)
  deriving DecidableEq, Repr

/-- A response dictionary: `d.get(k)`. -/
abbrev Dict := Key → Option Val

/-- `d[k] = v` on a response dictionary (`comm_manager.py` 105-106). -/
def Dict.set (d : Dict) (k : Key) (v : Val) : Dict := fun k' => if k' = k then some v else d k'

/-- What a handler may return: `None`, the marker `CommManager.NO_RESPONSE` (`comm_manager.py` 31, 98), a dictionary,
or any other object (a dynamic handler, `comm_manager.py` 428-447, returns what the client's code returns). -/
inductive Ret where
  | none
  | noResponse
  | dict (d : Dict)
  | junk

/-- A request: `request.get("type")` and what the handlers look at; `body` is the rest of the request. -/
structure Req where
  /-- `request.get("type")` -/
  type : Option Nat
  /-- `request.get("active_cell_id")` -/
  activeId : Option Nat := none
  /-- `request.get("notify_content_changed", True)` -/
  notify : Bool := true
  /-- anything else -/
  body : Nat := 0

/-- State: the handler table `_comm_handlers`, the channel `_comm`, `debounced_exec_schedule_pending`
(`comm_manager.py` 35-39), `flow.active_cell_id` and `flow._saved_debug_message` (`flow.py` 516-517,
`comm_manager.py` 87), everything else, and the log of the messages sent on channels. -/
structure St (H X : Type) where
  table : Nat → Option H
  comm : Option Nat
  pending : Bool
  active : Option Nat
  debug : Option (Option Nat)
  rest : X
  sent : List (Nat × Dict)

/-- Outcome of a call with state: a value or an exception, and the state afterwards. -/
abbrev Out (H X A : Type) := Except Exn A × St H X

/-- `register_comm_handler` (`comm_manager.py` 69-78); message 1 is that of the `ValueError`. -/
def register {H X : Type} (t : Nat) (h : H) (overwrite : Bool) (s : St H X) : Out H X Unit :=
  if (s.table t).isSome && !overwrite then (.error (.error 1), s)
  else (.ok (), { s with table := fun t' => if t' = t then some h else s.table t' })

/-- `comm.send` (`ipykernel.comm`): raises `TypeError` for what is not serialisable, otherwise the message is sent. -/
def send {H X : Type} (ser : Dict → Bool) (c : Nat) (d : Dict) (s : St H X) : Out H X Unit :=
  if ser d then (.ok (), { s with sent := s.sent ++ [(c, d)] }) else (.error (.error 2), s)

/-- `{"success": False, "error": str(e)}` (`comm_manager.py` 92-95). -/
def failure (m : Nat) : Dict := fun
  | .success => some (.bool false)
  | .error => some (.text m)
  | _ => none

/-- `comm_manager.py` 105-106: fill in the type and the success flag unless present. -/
def complete (t : Nat) (d : Dict) : Dict :=
  let d := d.set .type ((d .type).getD (.text t))
  d.set .success ((d .success).getD (.bool true))

/-- `comm_manager.py` 98-112, after the handler: message 3 is the `AttributeError` of `response.get` on something that
is not a dictionary, message 4 the exception of line 110. -/
def respond {H X : Type} (ser : Dict → Bool) (t : Nat) (comm : Option Nat) (r : Ret) (s : St H X) : Out H X Unit :=
  match r with
  | .noResponse => (.ok (), s)
  | r =>
    match comm.or s.comm with
    | none => (.ok (), s)
    | some c =>
      match r with
      | .noResponse => (.ok (), s)
      | .junk => (.error (.error 3), s)
      | .none =>
        match send ser c (complete t fun _ => none) s with
        | (.ok u, s') => (.ok u, s')
        | (.error _, s') => (.error (.error 4), s')
      | .dict d =>
        match send ser c (complete t d) s with
        | (.ok u, s') => (.ok u, s')
        | (.error _, s') => (.error (.error 4), s')

/-- `CommManager.handle` (`comm_manager.py` 80-113); `run h` is the behaviour of handler `h`. -/
def handle {H X : Type} (run : H → Req → St H X → Out H X Ret) (ser : Dict → Bool) (q : Req) (comm : Option Nat)
    (s : St H X) : Out H X Unit :=
  match q.type with
  | none => (.error (.keyError 0), s)
  | some t =>
    match s.table t with
    | none => (.ok (), { s with debug := some q.type })
    | some h =>
      match run h q s with
      | (.ok r, s') => respond ser t comm r s'
      | (.error e, s') =>
        match e.text? with
        | none => (.error e, s')
        | some m => respond ser t comm (.dict (failure m)) s'

/-- The type name `"compute_exec_schedule"`. -/
def scheduleType : Nat := 1

/-- The type name `"notify_content_changed"`. -/
def notifyType : Nat := 2

/-- `_responder` of `_comm_target` (`comm_manager.py` 118-126). -/
def responder {H X : Type} (run : H → Req → St H X → Out H X Ret) (ser : Dict → Bool) (c : Nat) (q : Req)
    (s : St H X) : Out H X Unit :=
  if q.type = some scheduleType ∧ s.pending = true then (.ok (), s) else handle run ser q (some c) s

/-! ## The handler of schedule requests -/

/-- The operations `handle_compute_exec_schedule` calls which are not modelled here: whether dataflow is enabled,
`cells().current_cell()` with `is_placeholder_id` and `update_id` (`comm_manager.py` 152-154), the part of
`_handle_notify_content_changed_impl` up to the decision whether to recompute (278-345; `none`: bail out with a
failure response), `_add_parents_for_override_live_refs` (164), whether cell metadata is known (169-173), and the
check of the cells with the other fields of the response (180-211). Each may raise and change anything. -/
structure Ops (H X : Type) where
  dataflow : St H X → Bool
  linkActive : Nat → St H X → Out H X Unit
  content : Req → Bool → St H X → Out H X (Option Bool)
  addParents : St H X → Out H X Unit
  hasMetadata : Req → St H X → Bool
  check : Req → Bool → St H X → Out H X Dict

variable {H X : Type}

/-- `comm_manager.py` 148-154: take the active cell from the request if none is marked. -/
def linkStep (O : Ops H X) (q : Req) (s : St H X) : Out H X Unit :=
  match s.active with
  | some _ => (.ok (), s)
  | none =>
    match q.activeId with
    | none => (.ok (), s)
    | some a => O.linkActive a { s with active := some a }

/-- `_handle_compute_exec_schedule_impl` (`comm_manager.py` 139-211); `notify` stands for the call of
`_handle_notify_content_changed_impl` in 155-158, `none` for `notify_content_changed=False`. Messages 5 and 6 are the
error texts of 146 and 174-178. -/
def computeImpl (O : Ops H X) (notify : Option (Req → St H X → Out H X Ret)) (fresh : Bool) (q : Req) (s : St H X) :
    Out H X Ret :=
  if !O.dataflow s then (.ok (.dict (failure 5)), s)
  else match linkStep O q s with
  | (.error e, s1) => (.error e, s1)
  | (.ok _, s1) =>
    let r2 : Out H X Unit := match notify with
      | none => (.ok (), s1)
      | some f => if q.notify then (match f q s1 with
        | (.error e, s2) => (.error e, s2)
        | (.ok _, s2) => (.ok (), s2)) else (.ok (), s1)
    match r2 with
    | (.error e, s2) => (.error e, s2)
    | (.ok _, s2) =>
      let r3 : Out H X Unit := match O.addParents s2 with
        | (.error (.keyError _), s3) => (.ok (), s3)
        | r => r
      match r3 with
      | (.error e, s3) => (.error e, s3)
      | (.ok _, s3) =>
        if !O.hasMetadata q s3 then (.ok (.dict (failure 6)), s3)
        else match O.check q fresh s3 with
        | (.error e, s4) => (.error e, s4)
        | (.ok d, s4) => (.ok (.dict (d.set .type (.text scheduleType))), s4)

/-- `handle_compute_exec_schedule` (`comm_manager.py` 213-226): the `finally` clause. -/
def compute (O : Ops H X) (notify : Option (Req → St H X → Out H X Ret)) (fresh : Bool) (q : Req) (s : St H X) :
    Out H X Ret :=
  match computeImpl O notify fresh q s with
  | (r, s') => (r, { s' with active := none })

/-- `_handle_notify_content_changed_impl` (`comm_manager.py` 278-351); message 7 is the error text of 286. -/
def notifyImpl (O : Ops H X) (reactive : Bool) (q : Req) (s : St H X) : Out H X Ret :=
  match O.content q reactive s with
  | (.error e, s') => (.error e, s')
  | (.ok none, s') => (.ok (.dict (failure 7)), s')
  | (.ok (some true), s') => compute O none false q s'
  | (.ok (some false), s') => (.ok .none, s')

/-- The registered handlers of interest (`comm_manager.py` 44-62): those for schedule requests, content
notifications and `change_active_cell`, and all others, whose behaviour is a parameter. -/
inductive Hd (G : Type) where
  | schedule
  | notify
  | changeActive
  | other (g : G)

/-- The behaviour of the registered handlers. `reactive` is `request.get("is_reactively_executing", False)`
(`comm_manager.py` 147); `handle_notify_content_changed` (353-359) passes the default `False`;
`handle_change_active_cell` (132-137) raises `KeyError` without an id. -/
def runHd {G : Type} (reactive : Req → Bool) (O : Ops (Hd G) X) (other : G → Req → St (Hd G) X → Out (Hd G) X Ret) :
    Hd G → Req → St (Hd G) X → Out (Hd G) X Ret
  | .schedule, q, s => compute O (some fun q s => notifyImpl O (reactive q) q s) true q s
  | .notify, q, s => notifyImpl O false q s
  | .changeActive, q, s =>
    match q.activeId with
    | none => (.error (.keyError 8), s)
    | some a => (.ok .none, { s with active := some a })
  | .other g, q, s => other g q s

end Verif.Comm
