import Verif.Comm.Dispatch

/-! # Responses to the client (C37) and the active-cell marker (C38) -/

namespace Verif.Comm
variable {H X : Type}

/-! ## C37 -/

/-- The channel accepts every message made of strings and booleans only. -/
def Accepts (ser : Dict → Bool) : Prop := ∀ d : Dict, (∀ k n, d k ≠ some (.blob n)) → ser d = true

/-- A well-formed message: it has a type and a success flag. -/
def WellFormed (d : Dict) : Prop := (d .type).isSome ∧ (d .success).isSome

theorem complete_wf (t : Nat) (d : Dict) : WellFormed (complete t d) := by
  simp [WellFormed, complete, Dict.set]

theorem complete_type (t : Nat) (d : Dict) : complete t d .type = some ((d .type).getD (.text t)) := by
  simp [complete, Dict.set]

theorem complete_success (t : Nat) (d : Dict) : complete t d .success = some ((d .success).getD (.bool true)) := by
  simp [complete, Dict.set]

theorem complete_other (t : Nat) (d : Dict) (k : Key) (h : k ≠ .type) (h' : k ≠ .success) : complete t d k = d k := by
  simp [complete, Dict.set, h, h']

/-- **C37**, first half, for every handler behaviour: beyond what the handler itself sent, at most one message is
sent, it is well-formed, goes to the channel given or else to the open one, and nothing else of the state that the
handler left is changed. -/
theorem responses_at_most_one (run : H → Req → St H X → Out H X Ret) (ser : Dict → Bool) (q : Req) (t : Nat) (h : H)
    (comm : Option Nat) (s s1 : St H X) (r : Except Exn Ret) (hq : q.type = some t) (hh : s.table t = some h)
    (hr : run h q s = (r, s1)) :
    (handle run ser q comm s).2 = s1 ∨
      ∃ c d, comm.or s1.comm = some c ∧ WellFormed d ∧
        (handle run ser q comm s) = (.ok (), { s1 with sent := s1.sent ++ [(c, d)] }) := by
  have key : ∀ r', (respond ser t comm r' s1).2 = s1 ∨ ∃ c d, comm.or s1.comm = some c ∧ WellFormed d ∧
      (respond ser t comm r' s1) = (.ok (), { s1 with sent := s1.sent ++ [(c, d)] }) := by
    intro r'
    cases r' with
    | noResponse => left; rfl
    | junk =>
      left
      cases hc : comm.or s1.comm <;> simp [respond, hc]
    | none =>
      cases hc : comm.or s1.comm with
      | none => left; simp [respond, hc]
      | some c =>
        by_cases hs : ser (complete t fun _ => none) = true
        · right; exact ⟨c, complete t fun _ => none, rfl, complete_wf t _, by simp [respond, hc, send, hs]⟩
        · left; simp [respond, hc, send, hs]
    | dict d =>
      cases hc : comm.or s1.comm with
      | none => left; simp [respond, hc]
      | some c =>
        by_cases hs : ser (complete t d) = true
        · right; exact ⟨c, complete t d, rfl, complete_wf t _, by simp [respond, hc, send, hs]⟩
        · left; simp [respond, hc, send, hs]
  cases r with
  | ok r => simpa [handle, hq, hh, hr] using key r
  | error e =>
    cases he : e.text? with
    | none => left; simp [handle, hq, hh, hr, he]
    | some m => simpa [handle, hq, hh, hr, he] using key _

/-- **C37**, second half, the part which holds: over an open channel `c` which accepts plain messages,

* a handler which returns a dictionary that the channel accepts is answered by that dictionary, with the type of the
  request unless the handler chose a type itself, and with success unless the handler said otherwise;
* a handler which returns nothing is answered by success and the type of the request, and nothing else;
* a handler which raises an `Exception` is answered by failure, the error text and the type of the request;
* a handler which opts out is not answered.

Missing for the full statement (refuted below): the answer does not always carry the type of the request; handlers
that return other objects, return what the channel cannot serialise, or raise an exception which is not an
`Exception` get no answer; and schedule requests may be dropped before they reach a handler. -/
theorem response_partial (run : H → Req → St H X → Out H X Ret) (ser : Dict → Bool) (hser : Accepts ser) (q : Req)
    (t : Nat) (h : H) (comm : Option Nat) (c : Nat) (s s1 : St H X) (r : Except Exn Ret) (hq : q.type = some t)
    (hh : s.table t = some h) (hr : run h q s = (r, s1)) (hc : comm.or s1.comm = some c) :
    (∀ d, r = .ok (.dict d) → ser (complete t d) = true → ∃ d', (handle run ser q comm s) =
        (.ok (), { s1 with sent := s1.sent ++ [(c, d')] }) ∧ (d .type = none → d' .type = some (.text t)) ∧
        (∀ v, d .type = some v → d' .type = some v) ∧ (d .success = none → d' .success = some (.bool true)) ∧
        (∀ v, d .success = some v → d' .success = some v) ∧ (∀ k, k ≠ .type → k ≠ .success → d' k = d k)) ∧
    (r = .ok .none → ∃ d', (handle run ser q comm s) = (.ok (), { s1 with sent := s1.sent ++ [(c, d')] }) ∧
        d' .type = some (.text t) ∧ d' .success = some (.bool true) ∧ ∀ k, k ≠ .type → k ≠ .success → d' k = none) ∧
    (∀ e m, r = .error e → e.text? = some m →
      ∃ d', (handle run ser q comm s) = (.ok (), { s1 with sent := s1.sent ++ [(c, d')] }) ∧
        d' .type = some (.text t) ∧ d' .success = some (.bool false) ∧ d' .error = some (.text m)) ∧
    (r = .ok .noResponse → (handle run ser q comm s) = (.ok (), s1)) := by
  refine ⟨?_, ?_, ?_, ?_⟩
  · rintro d rfl hd
    refine ⟨complete t d, by simp [handle, hq, hh, hr, respond, hc, send, hd], ?_, ?_, ?_, ?_, ?_⟩
    · intro h0; simp [complete_type, h0]
    · intro v h0; simp [complete_type, h0]
    · intro h0; simp [complete_success, h0]
    · intro v h0; simp [complete_success, h0]
    · exact complete_other t d
  · rintro rfl
    have hs : ser (complete t fun _ => none) = true := by
      refine hser _ fun k n => ?_
      cases k <;> simp [complete, Dict.set]
    exact ⟨complete t fun _ => none, by simp [handle, hq, hh, hr, respond, hc, send, hs], by simp [complete_type],
      by simp [complete_success], fun k h1 h2 => complete_other t _ k h1 h2⟩
  · rintro e m rfl he
    have hs : ser (complete t (failure m)) = true := by
      refine hser _ fun k n => ?_
      cases k <;> simp [complete, Dict.set, failure]
    exact ⟨complete t (failure m), by simp [handle, hq, hh, hr, he, respond, hc, send, hs],
      by simp [complete_type, failure], by simp [complete_success, failure],
      by rw [complete_other t _ _ (by decide) (by decide)]; rfl⟩
  · rintro rfl
    simp [handle, hq, hh, hr, respond]

/-- **C37**: a request of unknown type gets no response and changes nothing but the saved message for debugging. -/
theorem unknown_no_response (run : H → Req → St H X → Out H X Ret) (ser : Dict → Bool) (q : Req) (t : Nat)
    (comm : Option Nat) (s : St H X) (hq : q.type = some t) (hh : s.table t = none) :
    (handle run ser q comm s).1 = .ok () ∧ (handle run ser q comm s).2.sent = s.sent ∧
      (handle run ser q comm s).2.active = s.active ∧ (handle run ser q comm s).2.table = s.table ∧
      (handle run ser q comm s).2.rest = s.rest := by
  simp [handle, hq, hh]

/-- **C37**: handlers are never replaced silently. -/
theorem register_keeps (t t' : Nat) (h h' : H) (overwrite : Bool) (s : St H X) (hs : s.table t' = some h') :
    ((register t h overwrite s).2.table t' = some h' ∧ (t = t' → overwrite = false →
      ∃ e, (register t h overwrite s).1 = .error e)) ∨
    (t = t' ∧ overwrite = true ∧ (register t h overwrite s).2.table t' = some h) := by
  by_cases ht : t = t'
  · subst ht
    cases overwrite
    · left; simp [register, hs]
    · right; simp [register]
  · left
    refine ⟨?_, fun h => absurd h ht⟩
    unfold register
    split
    · exact hs
    · simp [Ne.symm ht, hs]

/-! ### Concrete states used below -/

/-- No further handlers. -/
def noOther : Empty → Req → St (Hd Empty) Unit → Out (Hd Empty) Unit Ret := fun g => g.elim

/-- Operations which succeed; a content notification asks for a recomputation. -/
def ops0 : Ops (Hd Empty) Unit where
  dataflow _ := true
  linkActive _ s := (.ok (), s)
  content _ _ s := (.ok (some true), s)
  addParents s := (.error (.keyError 9), s)
  hasMetadata _ _ := true
  check _ _ s := (.ok (fun _ => none), s)

/-- The table of the handlers (`comm_manager.py` 44-50). -/
def table0 : Nat → Option (Hd Empty)
  | 0 => some .changeActive
  | 1 => some .schedule
  | 2 => some .notify
  | _ => none

/-- A state with an open channel 10. -/
def st0 : St (Hd Empty) Unit where
  table := table0
  comm := some 10
  pending := false
  active := none
  debug := none
  rest := ()
  sent := []

/-- A state with an open channel 10 and a single handler for everything. -/
def stU : St Unit Unit where
  table _ := some ()
  comm := some 10
  pending := false
  active := none
  debug := none
  rest := ()
  sent := []

/-- A channel which accepts strings and booleans only. -/
def plainOnly (d : Dict) : Bool :=
  match d .type, d .success, d .error, d (.other 0) with
  | some (.blob _), _, _, _ | _, some (.blob _), _, _ | _, _, some (.blob _), _ | _, _, _, some (.blob _) => false
  | _, _, _, _ => true

/-- The hypotheses of `response_partial` are satisfiable: a schedule request which fails inside the handler. -/
example : ∃ d, (handle (runHd (fun _ => false) { ops0 with check := fun _ _ s => (.error (.error 77), s) } noOther)
    (fun _ => true) { type := some scheduleType, activeId := some 5 } none st0).2.sent = [(10, d)] ∧
    d .success = some (.bool false) ∧ d .error = some (.text 77) ∧ d .type = some (.text scheduleType) :=
  ⟨_, rfl, rfl, rfl, rfl⟩

example : Accepts plainOnly := by
  intro d h
  unfold plainOnly
  split
  · rename_i n h1; exact absurd h1 (h .type n)
  · rename_i n h1 _; exact absurd h1 (h .success n)
  · rename_i n h1 _ _; exact absurd h1 (h .error n)
  · rename_i n h1 _ _ _; exact absurd h1 (h (.other 0) n)
  · rfl

/-- **C37 is violated** by the type: a `notify_content_changed` request which leads to a recomputation is answered by
a message of type `compute_exec_schedule` (`comm_manager.py` 194, 345-348 and 105). -/
theorem response_violated_type : ∃ d,
    (handle (runHd (fun _ => false) ops0 noOther) (fun _ => true) { type := some notifyType } none st0).2.sent
      = [(10, d)] ∧ d .type = some (.text scheduleType) ∧ scheduleType ≠ notifyType :=
  ⟨_, rfl, rfl, by decide⟩

/-- **C37 is violated** by dropped requests: a schedule request of the client which arrives while a delayed
recomputation is pending gets no response, though its type is known and the channel open (`comm_manager.py`
121-125). -/
theorem response_violated_dropped : (st0.table scheduleType).isSome ∧
    responder (runHd (fun _ => false) ops0 noOther) (fun _ => true) 10 { type := some scheduleType }
      { st0 with pending := true } = (.ok (), { st0 with pending := true }) :=
  ⟨rfl, rfl⟩

/-- **C37 is violated** by a (dynamic) handler that returns an object which is not a dictionary: `response.get`
raises out of `handle` and no response is sent (`comm_manager.py` 105). -/
theorem response_violated_junk : ∃ e, handle (H := Unit) (X := Unit) (fun _ _ s => (.ok .junk, s)) (fun _ => true)
    { type := some 3 } (some 10) stU = (.error e, stU) :=
  ⟨_, rfl⟩

/-- **C37 is violated** by a handler whose response cannot be serialised: no response is sent, not even that it
failed (`comm_manager.py` 107-112). -/
theorem response_violated_unserialisable : ∃ e s, handle (H := Unit) (X := Unit)
    (fun _ _ s => (.ok (.dict fun k => if k = .other 0 then some (.blob 0) else none), s)) plainOnly
    { type := some 3 } (some 10) stU = (.error e, s) ∧ s.sent = [] :=
  ⟨_, _, rfl, rfl⟩

/-- **C37 is violated** by an interrupt during a handler: no response is sent (`comm_manager.py` 91). -/
theorem response_violated_interrupt : ∃ s, handle (H := Unit) (X := Unit)
    (fun _ _ s => (.error .base, s)) plainOnly
    { type := some 3 } (some 10) stU = (.error .base, s) ∧ s.sent = [] :=
  ⟨_, rfl, rfl⟩

/-! ## C38 -/

theorem respond_active (ser : Dict → Bool) (t : Nat) (comm : Option Nat) (r : Ret) (s : St H X) :
    (respond ser t comm r s).2.active = s.active := by
  cases r with
  | noResponse => rfl
  | junk => cases hc : comm.or s.comm <;> simp [respond, hc]
  | none =>
    cases hc : comm.or s.comm with
    | none => simp [respond, hc]
    | some c => by_cases hs : ser (complete t fun _ => none) = true <;> simp [respond, hc, send, hs]
  | dict d =>
    cases hc : comm.or s.comm with
    | none => simp [respond, hc]
    | some c => by_cases hs : ser (complete t d) = true <;> simp [respond, hc, send, hs]

theorem handle_active (run : H → Req → St H X → Out H X Ret) (ser : Dict → Bool) (q : Req) (t : Nat) (h : H)
    (comm : Option Nat) (s : St H X) (hq : q.type = some t) (hh : s.table t = some h) :
    (handle run ser q comm s).2.active = (run h q s).2.active := by
  rcases hr : run h q s with ⟨r, s1⟩
  cases r with
  | ok r => simp [handle, hq, hh, hr, respond_active]
  | error e => cases he : e.text? <;> simp [handle, hq, hh, hr, he, respond_active]

theorem compute_active (O : Ops H X) (notify : Option (Req → St H X → Out H X Ret)) (fresh : Bool) (q : Req)
    (s : St H X) : (compute O notify fresh q s).2.active = none := by
  unfold compute
  rcases computeImpl O notify fresh q s with ⟨r, s'⟩
  rfl

/-- **C38**: a schedule request which is not dropped leaves no cell marked as active, whatever the request, the state
before it, and the behaviour of the operations of the handler, including those that raise (interrupts too), and of
the channel. Missing for the full statement (refuted below): requests that are dropped because a delayed recomputation
is pending. -/
theorem active_cleared_partial {G : Type} (reactive : Req → Bool) (O : Ops (Hd G) X)
    (other : G → Req → St (Hd G) X → Out (Hd G) X Ret) (ser : Dict → Bool) (c : Nat) (q : Req) (s : St (Hd G) X)
    (hq : q.type = some scheduleType) (hh : s.table scheduleType = some .schedule) (hp : s.pending = false) :
    (responder (runHd reactive O other) ser c q s).2.active = none := by
  have hn : ¬ (q.type = some scheduleType ∧ s.pending = true) := by simp [hp]
  rw [responder, if_neg hn, handle_active _ ser q _ _ _ s hq hh]
  exact compute_active O _ true q s

/-- **C38** for the requests which the kernel makes itself (`kernel/kernel.py` 124-134, `symbol.py` 73-80): these are
never dropped. -/
theorem active_cleared_internal {G : Type} (reactive : Req → Bool) (O : Ops (Hd G) X)
    (other : G → Req → St (Hd G) X → Out (Hd G) X Ret) (ser : Dict → Bool) (comm : Option Nat) (q : Req)
    (s : St (Hd G) X) (hq : q.type = some scheduleType) (hh : s.table scheduleType = some .schedule) :
    (handle (runHd reactive O other) ser q comm s).2.active = none := by
  rw [handle_active _ ser q _ _ _ s hq hh]
  exact compute_active O _ true q s

/-- A failing request: the handler marks cell 5 as active, then the check is interrupted; the marker is cleared. -/
example : (computeImpl { ops0 with check := fun _ _ s => (.error .base, s) } none true { type := some 1, activeId := some 5 } st0).2.active
      = some 5 ∧
    (responder (runHd (fun _ => false) { ops0 with
      content := fun _ _ s => (.ok (some false), s)
      check := fun _ _ s => (.error .base, s) } noOther)
      (fun _ => true) 10 { type := some scheduleType, activeId := some 5 } st0).2.active = none :=
  ⟨rfl, rfl⟩

/-- **C38 is violated** by dropped requests: the client marks cell 5 as active and asks for a schedule; while a delayed
recomputation is pending the marker stays. -/
theorem active_violated_dropped : ∃ s1, responder (runHd (fun _ => false) ops0 noOther) (fun _ => true) 10
      { type := some 0, activeId := some 5 } { st0 with pending := true } = (.ok (), s1) ∧
    (responder (runHd (fun _ => false) ops0 noOther) (fun _ => true) 10 { type := some scheduleType } s1).2.active
      = some 5 :=
  ⟨_, rfl, rfl⟩

end Verif.Comm
