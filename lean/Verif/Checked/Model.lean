/-!
# The cached verdict of the type checker

With `mark_typecheck_failures_unsafe` the kernel runs mypy on every cell of the notebook, on the
cell's text preceded by declarations of the variables it reads, and marks the cells that fail.
The verdict is kept with the cell until a variable that the cell reads gets a value of another
class.
-/

namespace Verif.Checked

/-- What is known of the type of a value: its class, which is what is compared when a variable is
assigned, and the annotation that is written for it, which also depends on the parts of the value:
core/ipyflow/data_model/symbol.py 571-573, 597-601.  Simplified: both are numbers. -/
structure Ty where
  cls : Nat
  ann : Nat
deriving DecidableEq, Repr

/-- The setting, the variables that a text reads and the type checker:
core/ipyflow/flow.py 78-81, core/ipyflow/data_model/cell.py 778-810 and 913.  Simplified: a text is
a number, and calls no function that is defined in another cell; declared references
(`override_live_refs`) are absent; the checker is any function of the declarations and the text. -/
structure Cfg where
  on : Bool
  reads : Nat → List Nat
  mypy : (Nat → Option Nat) → Nat → Bool

/-- A global variable: its type and the cell objects in which it is known to be live:
core/ipyflow/data_model/symbol.py 132-133, 178-179, 236-238.  Simplified: the deep and the shallow
set are one; the class that is cached is the class of the value. -/
structure Sym where
  ty : Ty
  live : List Nat
deriving DecidableEq, Repr

/-- A cell object: its identity, whether it stands for a run (its counter is not -1), its present
text and the verdict that is kept: core/ipyflow/data_model/cell.py 98-106, 128-130. -/
structure Cell where
  ref : Nat
  ran : Bool
  text : Nat
  kept : Option Bool
deriving DecidableEq, Repr

/-- The variables, the current cell object of each id and the next identity:
core/ipyflow/data_model/cell.py 411-415. -/
structure St where
  syms : Nat → Option Sym
  cur : Nat → Option Cell
  next : Nat

/-- What happens: a cell is run and assigns variables in order; a value is changed in place, so
that its annotation differs; a variable is deleted; the client sends the texts of all cells and
asks for the schedule: core/ipyflow/shell/interactiveshell.py 600, core/ipyflow/comm_manager.py
140-166.  Simplified: every text parses; no request is sent during a reactive execution. -/
inductive Ev where
  | run (id text : Nat) (ws : List (Nat × Ty))
  | change (v ann : Nat)
  | del (v : Nat)
  | ask (cs : List (Nat × Nat))
deriving DecidableEq, Repr

/-- Nothing has happened: core/ipyflow/data_model/cell.py 76-86. -/
def start : St := ⟨fun _ => none, fun _ => none, 0⟩

/-- A new cell object: core/ipyflow/data_model/cell.py 88-130, in particular 128-130 for the verdict
that is kept at first. -/
def fresh (K : Cfg) (st : St) (id text : Nat) (ran : Bool) : St :=
  { st with
    cur := fun j =>
      if j = id then some ⟨st.next, ran, text, if K.on then none else some true⟩ else st.cur j
    next := st.next + 1 }

/-- The declarations in front of the text: one for every variable that the text reads and that
exists: core/ipyflow/data_model/cell.py 880-899. -/
def decls (K : Cfg) (st : St) (text : Nat) : Nat → Option Nat :=
  fun v => if v ∈ K.reads text then (st.syms v).map (fun s => s.ty.ann) else none

/-- The cell is entered at every variable that it reads:
core/ipyflow/data_model/cell.py 850-855. -/
def enter (K : Cfg) (st : St) (c : Cell) : St :=
  { st with
    syms := fun v =>
      (st.syms v).map fun s =>
        if v ∈ K.reads c.text then { s with live := c.ref :: s.live } else s }

/-- What comes of checking a cell: there is none of this id, an exception, or a verdict:
core/ipyflow/data_model/cell.py 856-866, core/ipyflow/comm_manager.py 246-248. -/
inductive Res where
  | absent
  | raised
  | said (ok : Bool)
deriving DecidableEq, Repr

/-- A cell is checked: core/ipyflow/data_model/cell.py 812-866 and 901-917.  The text to be checked
is looked up by the counter of the cell (lines 885-889), and for a cell that was never run there is
nothing under its counter -1 (lines 490-491): a `KeyError`. -/
def check (K : Cfg) (st : St) (id : Nat) : St × Res :=
  match st.cur id with
  | none => (st, .absent)
  | some c =>
    match c.kept with
    | some ok => (enter K st c, .said ok)
    | none =>
      if c.ran then
        let ok := K.mypy (decls K st c.text) c.text
        ({ enter K st c with
            cur := fun j => if j = id then some { c with kept := some ok } else st.cur j },
          .said ok)
      else (enter K st c, .raised)

/-- A variable is assigned: core/ipyflow/data_model/symbol.py 710-735 for one that exists, where the
verdicts of the cells that read it are dropped if the class differs, and
core/ipyflow/data_model/scope.py 377-396 for the distinction. -/
def assign (K : Cfg) (st : St) (v : Nat) (ty : Ty) : St :=
  match st.syms v with
  | none => { st with syms := fun u => if u = v then some ⟨ty, []⟩ else st.syms u }
  | some s =>
    { st with
      cur := fun j =>
        (st.cur j).map fun c =>
          if K.on ∧ s.ty.cls ≠ ty.cls ∧ c.ref ∈ s.live then { c with kept := none } else c
      syms := fun u => if u = v then some ⟨ty, []⟩ else st.syms u }

/-- The assignments of a run: core/ipyflow/data_model/scope.py 365-396. -/
def assigns (K : Cfg) (st : St) : List (Nat × Ty) → St
  | [] => st
  | (v, ty) :: ws => assigns K (assign K st v ty) ws

/-- A cell is run: a new cell object is made, it is checked, it assigns, and it is checked again:
core/ipyflow/shell/interactiveshell.py 568-602 and 697-700, core/ipyflow/flow.py 564-576,
core/ipyflow/data_model/cell.py 364-416. -/
def exec (K : Cfg) (st : St) (id text : Nat) (ws : List (Nat × Ty)) : St :=
  (check K (assigns K (check K (fresh K st id text true) id).1 ws) id).1

/-- A value is changed in place: `update_obj_ref` is not called:
core/ipyflow/data_model/symbol.py 1100-1112. -/
def changed (st : St) (v ann : Nat) : St :=
  { st with
    syms := fun u =>
      (st.syms u).map fun s => if u = v then { s with ty := { s.ty with ann := ann } } else s }

/-- A variable is deleted: core/ipyflow/data_model/scope.py 442-449.  Its record is dropped, and a later
assignment makes a new one. -/
def deleted (st : St) (v : Nat) : St :=
  { st with syms := fun u => if u = v then none else st.syms u }

/-- The text of a cell is replaced by the text that the client sent; the verdict is kept:
core/ipyflow/comm_manager.py 249-251. -/
def retext (st : St) (id text : Nat) : St :=
  { st with
    cur := fun j => (st.cur j).map fun c => if j = id then { c with text := text } else c }

/-- The texts are taken over one after another and each cell is checked; an exception other than a
`SyntaxError` ends the request: core/ipyflow/comm_manager.py 228-276.  Simplified: the loop runs
also if no text and no counter differs, when the cells are checked afterwards anyway. -/
def retexts (K : Cfg) (st : St) : List (Nat × Nat) → St × Bool
  | [] => (st, true)
  | (id, text) :: cs =>
    match check K (retext st id text) id with
    | (st1, .raised) => (st1, false)
    | (st1, .absent) => retexts K st1 cs
    | (st1, .said _) => retexts K st1 cs

/-- Cell objects are made for the cells that have none: core/ipyflow/flow.py 522-528. -/
def creates (K : Cfg) (st : St) : List (Nat × Nat) → St
  | [] => st
  | (id, text) :: cs =>
    match st.cur id with
    | none => creates K (fresh K st id text false) cs
    | some _ => creates K st cs

/-- The cells are checked for the answer; those that fail are listed, and a cell whose check ends
with an exception is left out: core/ipyflow/frontend.py 403-424, 445-446, 607-616.  Simplified: in
the answer these cells are listed together with those that wait for another reason
(core/ipyflow/frontend.py 95). -/
def marks (K : Cfg) (st : St) : List (Nat × Nat) → St × List Nat
  | [] => (st, [])
  | (id, _) :: cs =>
    match check K st id with
    | (st1, .said false) => ((marks K st1 cs).1, id :: (marks K st1 cs).2)
    | (st1, .said true) => marks K st1 cs
    | (st1, .raised) => marks K st1 cs
    | (st1, .absent) => marks K st1 cs

/-- A request of the client and its answer, which is `none` if the request fails:
core/ipyflow/comm_manager.py 80-93, 140-192, 327-332, 345. -/
def ask (K : Cfg) (st : St) (cs : List (Nat × Nat)) : St × Option (List Nat) :=
  match retexts K st cs with
  | (st1, false) => (st1, none)
  | (st1, true) =>
    let m := marks K (creates K st1 cs) cs
    (m.1, some m.2)

/-- One event: see the definitions above. core/ipyflow/comm_manager.py 140-192 and
core/ipyflow/shell/interactiveshell.py 568-602. -/
def step (K : Cfg) (st : St) : Ev → St
  | .run id text ws => exec K st id text ws
  | .change v ann => changed st v ann
  | .del v => deleted st v
  | .ask cs => (ask K st cs).1

/-- The state after a history, newest event first: core/ipyflow/comm_manager.py 140-192 and
core/ipyflow/shell/interactiveshell.py 568-602. -/
def state (K : Cfg) : List Ev → St
  | [] => start
  | e :: h => step K (state K h) e

/-- The answer to a request: core/ipyflow/comm_manager.py 167-192. -/
def reply (K : Cfg) (h : List Ev) (cs : List (Nat × Nat)) : Option (List Nat) :=
  (ask K (state K h) cs).2

end Verif.Checked
