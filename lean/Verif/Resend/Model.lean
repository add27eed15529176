/-!
# What the client sends when the channel to the kernel was closed

Models `safeSend` and the handler that takes a connection away, `frontend/labextension/src/index.ts` 422-454, the part of `state.comm.onMsg` for the answer to an opened channel,
`index.ts` 782-801, with `notifyActiveCell`, 525-543, and `requestComputeExecSchedule`, `frontend/labextension/src/store.ts` 74-80, and the other end of the channel, `_comm_target`,
`core/ipyflow/comm_manager.py` 115-130.

Messages are numbers; what the kernel does with them is left out. One connection (`connectToComm`) is followed. The kernel takes messages in the order in which they were sent. A
kernel that goes away (a restart) takes along what was on the way to it and its answers; the library then disposes of the channel. Simplified: the kernel always answers an
opened channel (`initialize`, `comm_manager.py` 129, does not raise), and the callback that is read from a disposed channel (`index.ts` 443) is the one that was set. -/

namespace Verif.Resend

/-- What is on the way to the kernel: `comm.open` or `comm.send`, `index.ts` 444-451, 1007. -/
inductive Item where
  | opening
  | data (m : Nat)
  deriving DecidableEq

/-- The connection: `disconnected`, `state.comm.isDisposed`, `onEstablishPayload` (`index.ts` 421-422), what is on the way to the kernel, oldest first, how many answers are on
the way back, and which messages the running kernel has got, oldest first (`_responder`, `comm_manager.py` 118-126). -/
structure Sys where
  disconnected : Bool
  disposed : Bool
  held : Option Nat
  wire : List Item
  replies : Nat
  got : List Nat

/-- What happens. -/
inductive Event where
  /-- the client has a message to send, `index.ts` 479, 542, 986, `store.ts` 75 -/
  | send (m : Nat)
  /-- the kernel takes what was sent first -/
  | deliver
  /-- the kernel's answer arrives; `active` and `request` are the messages that the client then makes, `index.ts` 793, 801 -/
  | answer (active request : Nat)
  /-- the kernel goes away and another one starts -/
  | lost
  /-- the connection is given up, `index.ts` 424-431 -/
  | disconnect
  deriving DecidableEq

/-- The end of `connectToComm`: the channel is opened, `index.ts` 1005-1012. -/
def start : Sys := ⟨false, false, none, [.opening], 0, []⟩

/-- `safeSend`, `index.ts` 433-453. -/
def safeSend (σ : Sys) (m : Nat) : Sys :=
  if σ.disconnected then σ
  else if σ.disposed then { σ with held := some m, disposed := false, wire := σ.wire ++ [.opening] }
  else { σ with wire := σ.wire ++ [.data m] }

/-- The message that was kept, `index.ts` 796-800. -/
def sendHeld (σ : Sys) : Sys :=
  match σ.held with
  | none => σ
  | some p => safeSend { σ with held := none } p

/-- The answer to the opened channel, `index.ts` 782-801: `onActiveCellChange` (793) tells the active cell (569, 542). -/
def establish (σ : Sys) (active request : Nat) : Sys :=
  if σ.disconnected then σ else safeSend (sendHeld (safeSend σ active)) request

/-- The kernel takes what was sent first; for an opened channel it answers, `comm_manager.py` 115-130. -/
def takeOne (σ : Sys) : Sys :=
  match σ.wire with
  | [] => σ
  | .opening :: w => { σ with wire := w, replies := σ.replies + 1 }
  | .data m :: w => { σ with wire := w, got := σ.got ++ [m] }

/-- One event: an answer is one that the kernel has given, `comm_manager.py` 130; `commDisconnectHandler`, `index.ts` 424-431. -/
def step (σ : Sys) : Event → Sys
  | .send m => safeSend σ m
  | .deliver => takeOne σ
  | .answer a r => if σ.replies = 0 then σ else establish { σ with replies := σ.replies - 1 } a r
  | .lost => { σ with disposed := true, wire := [], replies := 0, got := [] }
  | .disconnect => { σ with disposed := true, disconnected := true }

/-- What has become of the connection, newest event first, `index.ts` 405-1015. -/
def run : List Event → Sys
  | [] => start
  | e :: h => step (run h) e

end Verif.Resend
