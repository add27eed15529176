import Verif.Live.Model

/-!
# What running code does to variables

The specification side of C34 and C35, independent of the analysis: the paths that running a piece of code can take, as
sequences of reads and writes of module variables. It follows the Python language reference (sections 6, 7 and 8), on the
syntax of `Verif.Live.Model`. An exception may end a path at any point, as an interrupt does. What happens inside called
functions is not part of the path.
-/

namespace Verif.Live
open Verif

/-- A read or a write of a variable. -/
inductive Ev where
  | rd (x : Nat)
  | wr (x : Nat)
  deriving DecidableEq

/-- The variable of an event. -/
def Ev.var : Ev → Nat
  | .rd x => x
  | .wr x => x

/-- How a path ends. -/
inductive Out where
  | norm
  | brk
  | cont
  | exc
  deriving DecidableEq

/-- Control flow: a regular language of events with jumps. -/
inductive Core where
  | nil
  | ev (e : Ev)
  | seq (p q : Core)
  /-- one of the two -/
  | alt (p q : Core)
  /-- any number of times `p`, then `q`; a `break` in `p` leaves the whole loop -/
  | loop (p q : Core)
  /-- `continue` ends `p` -/
  | uncont (p : Core)
  | brk
  | cont
  | raise
  /-- `p`, then `q` if `p` ended well, perhaps `h` if it raised -/
  | tryc (p h q : Core)
  /-- `p`, then `f` in any case -/
  | fin (p f : Core)
  /-- exceptions of `p` may be suppressed -/
  | suppress (p : Core)
  /-- `x` is a variable of its own inside `p` -/
  | mask (x : Nat) (p : Core)
  /-- a class body: what it writes is its own -/
  | loc (p : Core)

/-- What remains of a path of a class body outside. -/
def outside : List Nat → List Ev → List Ev
  | _, [] => []
  | own, .rd x :: t => if x ∈ own then outside own t else .rd x :: outside own t
  | own, .wr x :: t => outside (x :: own) t

/-- The paths. -/
inductive Runs : Core → List Ev → Out → Prop where
  | stop (p) : Runs p [] .exc
  | nil : Runs .nil [] .norm
  | ev (e) : Runs (.ev e) [e] .norm
  | seq {p q t u o} : Runs p t .norm → Runs q u o → Runs (.seq p q) (t ++ u) o
  | seqStop {p q t o} : Runs p t o → o ≠ .norm → Runs (.seq p q) t o
  | left {p q t o} : Runs p t o → Runs (.alt p q) t o
  | right {p q t o} : Runs q t o → Runs (.alt p q) t o
  | exit {p q t o} : Runs q t o → Runs (.loop p q) t o
  | again {p q t u o} : Runs p t .norm → Runs (.loop p q) u o → Runs (.loop p q) (t ++ u) o
  | leave {p q t} : Runs p t .brk → Runs (.loop p q) t .norm
  | loopStop {p q t o} : Runs p t o → o ≠ .norm → o ≠ .brk → Runs (.loop p q) t o
  | uncont {p t} : Runs p t .cont → Runs (.uncont p) t .norm
  | uncont' {p t o} : Runs p t o → o ≠ .cont → Runs (.uncont p) t o
  | brk : Runs .brk [] .brk
  | cont : Runs .cont [] .cont
  | raise : Runs .raise [] .exc
  | tryOk {p h q t u o} : Runs p t .norm → Runs q u o → Runs (.tryc p h q) (t ++ u) o
  | tryExc {p h q t u o} : Runs p t .exc → Runs h u o → Runs (.tryc p h q) (t ++ u) o
  | tryStop {p h q t o} : Runs p t o → o ≠ .norm → Runs (.tryc p h q) t o
  | fin {p f t u o} : Runs p t o → Runs f u .norm → Runs (.fin p f) (t ++ u) o
  | finStop {p f t u o o'} : Runs p t o → Runs f u o' → o' ≠ .norm → Runs (.fin p f) (t ++ u) o'
  | supp {p t} : Runs p t .exc → Runs (.suppress p) t .norm
  | supp' {p t o} : Runs p t o → Runs (.suppress p) t o
  | mask {p t o x} : Runs p t o → Runs (.mask x p) (t.filter (fun e => e.var ≠ x)) o
  | loc {p t o} : Runs p t o → Runs (.loc p) (outside [] t) o

/-- The writes of an augmented assignment to a name. -/
def augStore : Node → Core
  | .name x => .ev (.wr x)
  | _ => .nil

mutual

/-- The control flow of evaluating or executing a node. -/
def sem : Node → Core
  | .const _ => .nil
  | .name x => .ev (.rd x)
  | .pair a b => .seq (sem a) (sem b)
  | .cmp a b => .seq (sem a) (sem b)
  | .bin a b => .seq (sem a) (sem b)
  | .disp _ e => sem e
  | .fstr e => sem e
  | .cond c a b => .seq (sem c) (.alt (sem a) (sem b))
  | .boolop a b => .seq (sem a) (.alt .nil (sem b))
  | .attr e _ => sem e
  | .sub e i => .seq (sem e) (sem i)
  | .call f args => .seq (sem f) (sem args)
  | .lam d _ => sem d
  | .comp elt x iter ifs => .seq (sem iter) (.mask x (.loop (.seq (sem ifs) (.alt .nil (sem elt))) .nil))
  | .walrus x e => .seq (sem e) (.ev (.wr x))
  | .star e => sem e
  | .skip => .nil
  | .seq s t => .seq (sem s) (sem t)
  | .assign t e => .seq (sem e) (store t)
  | .assign2 t u e => .seq (sem e) (.seq (store t) (store u))
  | .aug t e => .seq (sem t) (.seq (sem e) (augStore t))
  | .ann t a e => .seq (sem e) (.seq (store t) (sem a))
  | .annOnly _ a => sem a
  | .imp x => .ev (.wr x)
  | .ite c s t => .seq (sem c) (.alt (sem s) (sem t))
  | .whil c s o => .seq (sem c) (.loop (.seq (.uncont (sem s)) (sem c)) (sem o))
  | .forr t it s o => .seq (sem it) (.loop (.seq (store t) (.uncont (sem s))) (sem o))
  | .withs sw e t s => .seq (sem e) (.seq (store t) (if sw then .suppress (sem s) else sem s))
  | .tryy s h o f => .fin (.tryc (sem s) (sem h) (sem o)) (sem f)
  | .defn f _ _ dflt kwd deco _ => .seq (sem deco) (.seq (sem dflt) (.seq (sem kwd) (.ev (.wr f))))
  | .cls x bases body => .seq (sem bases) (.seq (.loc (sem body)) (.ev (.wr x)))
  | .del t => sem t
  | .brk => .brk
  | .cont => .cont
  | .rais e => .seq (sem e) .raise

/-- The control flow of storing into a target. -/
def store : Node → Core
  | .name x => .ev (.wr x)
  | .attr e _ => sem e
  | .sub e i => .seq (sem e) (sem i)
  | .disp _ e => store e
  | .pair a b => .seq (store a) (store b)
  | .star e => store e
  | _ => .nil

end

/-- The path reads `x` before it writes it. -/
def ReadFirst (x : Nat) (t : List Ev) : Prop := ∃ pre post, t = pre ++ .rd x :: post ∧ Ev.wr x ∉ pre

/-- Some path of the code reads `x` before writing it. -/
def NeedsValue (code : Node) (x : Nat) : Prop := ∃ t o, Runs (sem code) t o ∧ ReadFirst x t

/-- Every path on which the code completes writes `x`. -/
def AlwaysWrites (code : Node) (x : Nat) : Prop := ∀ t, Runs (sem code) t .norm → Ev.wr x ∈ t

/-- The variable a reference starts from. -/
def rootOf : Ref → Option Nat
  | [] => none
  | a :: _ =>
    match a.value with
    | .str x => some x
    | .int _ => none

/-- `x` is reported live: some reported reference starts from it and is not marked as killed. -/
def ReportedLive (l : List LRef) (x : Nat) : Prop := ∃ r, (r, false) ∈ l ∧ rootOf r = some x

/-- `x` is reported as definitely assigned. -/
def ReportedDead (d : Finset Ref) (x : Nat) : Prop := [nm x] ∈ d

end Verif.Live
