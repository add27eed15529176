/-!
# Embedding a session in a program

`embed()` opens a session in the middle of a program; the program may have a shell already.

Models `embed` (`core/ipyflow/shell/interactiveshellembed.py` 20-103) on the table of instances that traitlets keeps for classes of singletons, the classes of shells
(`interactiveshellembed.py` 12-15, `core/ipyflow/shell/terminalinteractiveshell.py` 8-11, `core/ipyflow/shell/zmqshell.py` 8-11, `core/ipyflow/singletons.py` 20-23,
`core/ipyflow/utils/ipython_utils.py` 105-116), and what loading and unloading the extension does to the table (`core/ipyflow/shell/interactiveshell.py` 82-102).

traitlets and IPython are not part of the repository. Taken from them: `instance` and `clear_instance` of `SingletonConfigurable`; that a shell sets the prompts `sys.ps1` and
`sys.ps2` when it is made; that code in a session which raises does not end it, and that `%exit_raise` makes the session itself raise.
Simplified: the two prompts are both defined or both not; the configuration is left out. -/

namespace Verif.Embed

/-- Classes of IPython: `InteractiveShell` is `base`; those that are instantiated are told apart here (`interactiveshellembed.py` 4-5, `terminalinteractiveshell.py` 2, `zmqshell.py` 2). -/
inductive Plain where
  | terminal
  | zmq
  | embedded
  deriving DecidableEq, Repr

/-- Classes: IPython's, `IPyflowShell` (`singletons.py` 20), `IPyflowInteractiveShell` (`interactiveshell.py` 48), ipyflow's own versions of IPython's classes
(`interactiveshellembed.py` 12), and those generated when the extension is loaded (`interactiveshell.py` 82-85). -/
inductive Cls where
  | base
  | plain (p : Plain)
  | flowShell
  | flowBase
  | own (p : Plain)
  | gen (p : Plain)
  deriving DecidableEq, Repr

/-- IPython's classes and those above them, without `InteractiveShell` (`interactiveshellembed.py` 5). -/
def Plain.above : Plain → List Cls
  | .terminal => [.plain .terminal]
  | .zmq => [.plain .zmq]
  | .embedded => [.plain .embedded, .plain .terminal]

/-- The order in which attributes are looked up, and `_walk_mro`; `IPyflowInteractiveShell` is put before `InteractiveShell` (`ipython_utils.py` 105-116,
`interactiveshellembed.py` 12-13, `interactiveshell.py` 48). -/
def mro : Cls → List Cls
  | .base => [.base]
  | .plain p => p.above ++ [.base]
  | .flowShell => [.flowShell]
  | .flowBase => [.flowBase, .flowShell, .base]
  | .own p => .own p :: .flowShell :: p.above ++ [.flowBase, .base]
  | .gen p => .gen p :: .flowShell :: p.above ++ [.flowBase, .base]

/-- The class of an embedded session, `IPyflowInteractiveShellEmbed` (`interactiveshellembed.py` 12). -/
def flowEmbed : Cls := .own .embedded

/-- The state of the process: the attribute `_instance` of each class (`none` if the class has none of its own; otherwise a shell or `None`), the class of each shell, the
number of shells made so far, and the prompts (`interactiveshellembed.py` 70-80). -/
structure St where
  inst : Cls → Option (Option Nat)
  typ : Nat → Cls
  next : Nat
  ps : Option Nat

/-- Reading `_instance` along an order of lookup; `None` for `SingletonConfigurable` itself (`interactiveshellembed.py` 80). -/
def find (inst : Cls → Option (Option Nat)) : List Cls → Option Nat
  | [] => none
  | c :: cs => match inst c with
    | some v => v
    | none => find inst cs

/-- `c._instance` (`interactiveshellembed.py` 80). -/
def St.lookup (s : St) (c : Cls) : Option Nat := find s.inst (mro c)

/-- Setting `_instance` of a class (`interactiveshellembed.py` 100). -/
def St.put (s : St) (c : Cls) (v : Option Nat) : St := { s with inst := fun d => if d = c then some v else s.inst d }

/-- Setting `_instance` of several classes (`interactiveshellembed.py` 99-100, `interactiveshell.py` 89-90). -/
def St.putAll (s : St) (v : Option Nat) : List Cls → St
  | [] => s
  | c :: cs => (s.put c v).putAll v cs

/-- Whether a value is an instance of a class (traitlets' `clear_instance` and `instance`; used by `interactiveshellembed.py` 83, 85, 94, 98). -/
def St.isInst (s : St) (v : Option Nat) (c : Cls) : Bool :=
  match v with
  | some i => decide (c ∈ mro (s.typ i))
  | none => false

/-- The loop of `clear_instance` (`interactiveshellembed.py` 83, 94, 98). -/
def St.sweep (s : St) (c : Cls) : List Cls → St
  | [] => s
  | d :: ds => if s.isInst (s.lookup d) c then (s.put d none).sweep c ds else s.sweep c ds

/-- `clear_instance` (`interactiveshellembed.py` 83, 94, 98). -/
def St.clear (s : St) (c : Cls) : St := if s.lookup c = none then s else s.sweep c (mro c)

/-- Making a shell of a class: it becomes the instance of all classes above, and sets the prompts (to `0`) (`interactiveshellembed.py` 85-87). -/
def St.make (s : St) (c : Cls) : St :=
  St.putAll { s with typ := fun i => if i = s.next then c else s.typ i, next := s.next + 1, ps := some 0 } (some s.next) (mro c)

/-- `instance` of the class of embedded sessions; `none` if it raises `MultipleInstanceError` (`interactiveshellembed.py` 85-87). -/
def St.instance (s : St) : Option St :=
  match s.lookup flowEmbed with
  | none => some (s.make flowEmbed)
  | some i => if s.isInst (some i) flowEmbed then some s else none

/-- `embed`, with what the session does to the state and whether it raises (`interactiveshellembed.py` 68-103). -/
def embedWith (body : St → St × Bool) (s : St) : St × Bool :=
  let s1 := match s.lookup .base with
    | some i => s.clear (s.typ i)
    | none => s
  match s1.instance with
  | none => (s1, true)
  | some s2 =>
    if (body s2).2 then ((body s2).1, true)
    else
      let s4 := (body s2).1.clear flowEmbed
      let s5 := match s.lookup .base with
        | some i => (s4.clear (s4.typ i)).putAll (some i) (mro (s4.typ i))
        | none => s4
      (if s.ps.isSome then { s5 with ps := s.ps } else s5, false)

/-- An embedded session: it ends, raising or not, or it embeds another session and goes on (`interactiveshellembed.py` 88-93). -/
inductive Sess where
  | stop (raises : Bool)
  | embed (inner rest : Sess)
  deriving Repr

/-- What a session does (`interactiveshellembed.py` 88-93). -/
def live : Sess → St → St × Bool
  | .stop r, s => (s, r)
  | .embed inner rest, s => live rest (embedWith (live inner) s).1

/-- `embed()` in a program (`interactiveshellembed.py` 20). -/
def embed (x : Sess) (s : St) : St × Bool := embedWith (live x) s

/-- A program without a shell; `ps` are its prompts, if it is an interactive one (`interactiveshellembed.py` 70-78). -/
def fresh (ps : Option Nat) : St := ⟨fun _ => none, fun _ => .base, 0, ps⟩

/-- A program with a shell of some class (`interactiveshellembed.py` 80). -/
def started (c : Cls) : St := (fresh none).make c

/-- Loading the extension in a shell of IPython: it gets a generated class and becomes the instance of `IPyflowShell` (`interactiveshell.py` 82-96). -/
def load (p : Plain) (i : Nat) (s : St) : St := { (s.put .flowShell (some i)) with typ := fun j => if j = i then .gen p else s.typ j }

/-- Unloading it: the shell gets its class back (`interactiveshell.py` 98-102). -/
def unload (p : Plain) (i : Nat) (s : St) : St := { s with typ := fun j => if j = i then .plain p else s.typ j }

end Verif.Embed
