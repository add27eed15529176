/-!
# Loading and unloading the extension

`%load_ext ipyflow` gives the running shell, and the kernel if there is one, another class, generated for the occasion; `%unload_ext ipyflow` notes the class to go back to, and
the class is only changed when the run of a cell that began under the generated class ends. A run is taken to be a sequence of commands, some of which run code as a cell of its
own (`%%capture`, `run_cell`).

IPython itself (`load_extension`, `unload_extension`, `reload_extension`, `run_cell`, and the kernel's `do_execute`, which lets exceptions of `run_cell_async` through) is not part
of the repository and is taken to do what its documentation says.
-/

namespace Verif.Loading

/-- The class of the shell, or of the kernel: one without ipyflow, one generated by loading the extension (which may have a class to go back to in `replacement_class`), or one of
ipyflow's own, with which the session was started (`core/ipyflow/shell/interactiveshell.py` 48-50, `core/ipyflow/kernel/kernel.py` 83-84). The generated class has a
`prev_shell_class`, ipyflow's own has none. -/
inductive Cls where
  | plain
  | tracking (leaving : Bool)
  | own
  deriving DecidableEq, Repr

mutual
/-- What code of a cell may do: load, unload or reload the extension, register a tracer (`core/ipyflow/line_magics.py` 518-529), run code as a cell of its own
(`core/ipyflow/shell/interactiveshell.py` 334-363), raise, or anything else. -/
inductive Cmd where
  | load
  | unload
  | reload
  | register (n : Nat)
  | nested (cs : Cmds)
  | fail
  | other
/-- The commands of a cell, in order (`core/ipyflow/shell/interactiveshell.py` 395-456). -/
inductive Cmds where
  | nil
  | cons (c : Cmd) (cs : Cmds)
end

/-- The session: whether IPython takes the extension for loaded, the classes of shell and kernel (`core/ipyflow/__init__.py` 34-70), the tracers that are registered besides
ipyflow's own, as far as the shell has a list of them (`core/ipyflow/shell/interactiveshell.py` 58-62), and what the client was told last (`core/ipyflow/__init__.py` 47-53,
69-70). -/
structure St where
  loaded : Bool
  shell : Cls
  kernel : Option Cls
  tracers : Option (List Nat)
  told : Option Bool
  deriving DecidableEq, Repr

/-- `register_tracer` on the list of tracers (`core/ipyflow/line_magics.py` 494-529): those of the same name are removed. -/
def insert (n : Nat) (l : List Nat) : List Nat := n :: l.filter (· ≠ n)

/-- `_initialize`, as for the tracers (`core/ipyflow/shell/interactiveshell.py` 56-76): those of the configuration are registered, the last one first. -/
def setup : List Nat → List Nat
  | [] => []
  | n :: l => insert n (setup l)

/-- `load_ipython_extension` for the shell, with `inject` (`core/ipyflow/shell/__init__.py` 22-31, `core/ipyflow/shell/interactiveshell.py` 84-97). A class that is generated has
no previous class yet, so that `_initialize` is called each time. -/
def loadShell (cfg : List Nat) (s : St) : St :=
  match s.shell with
  | .plain => { s with shell := .tracking false, tracers := some (setup cfg) }
  | .tracking _ => { s with shell := .tracking false }
  | .own => s

/-- The class of the kernel after `load_ipython_extension` (`core/ipyflow/__init__.py` 39-45, `core/ipyflow/kernel/kernel.py` 137-151). -/
def loadKernel : Cls → Cls
  | .plain => .tracking false
  | .tracking _ => .tracking false
  | .own => .own

/-- `load_ipython_extension` (`core/ipyflow/__init__.py` 34-53). -/
def callLoad (cfg : List Nat) (s : St) : St :=
  let s1 := loadShell cfg s
  match s1.kernel with
  | none => s1
  | some k => { s1 with kernel := some (loadKernel k), told := some true }

/-- The class with which unloading goes on; none where one of the assertions fails (`core/ipyflow/shell/__init__.py` 34-38, `core/ipyflow/__init__.py` 62-64). -/
def leave : Cls → Option Cls
  | .plain => none
  | .tracking _ => some (.tracking true)
  | .own => none

/-- `unload_ipython_extension`, and whether it returns (`core/ipyflow/__init__.py` 56-70). -/
def callUnload (s : St) : St × Bool :=
  match leave s.shell with
  | none => (s, false)
  | some c =>
    match s.kernel with
    | none => ({ s with shell := c }, true)
    | some k =>
      match leave k with
      | none => ({ s with shell := c }, false)
      | some k' => ({ s with shell := c, kernel := some k', told := s.told.map fun _ => false }, true)

/-- `%load_ext ipyflow`: nothing happens if IPython takes the extension for loaded (`core/ipyflow/__init__.py` 34-53). -/
def doLoad (cfg : List Nat) (s : St) : St :=
  if s.loaded then s else { callLoad cfg s with loaded := true }

/-- `%unload_ext ipyflow`, and whether the cell goes on (`core/ipyflow/__init__.py` 56-70): nothing happens if the extension is not loaded. -/
def doUnload (s : St) : St × Bool :=
  if s.loaded then
    match callUnload s with
    | (s', true) => ({ s' with loaded := false }, true)
    | (s', false) => (s', false)
  else (s, true)

/-- `%reload_ext ipyflow`: unloading and loading again (`core/ipyflow/__init__.py` 34-70). -/
def doReload (cfg : List Nat) (s : St) : St × Bool :=
  match doUnload s with
  | (s', true) => (doLoad cfg s', true)
  | (s', false) => (s', false)

/-- The end of `run_cell_async` of a run that began while the shell had the given class, and whether it returns (`core/ipyflow/shell/interactiveshell.py` 392-393, 99-104; 441-456).
The shell without ipyflow has no such method and does nothing. If the shell has lost the class in the meantime, then `after_run_cell`, `on_exception` and `_maybe_eject` are not
there any more. -/
def finish (began : Cls) (s : St) : St × Bool :=
  match began with
  | .plain => (s, true)
  | _ =>
    match s.shell with
    | .plain => (s, false)
    | .tracking true => ({ s with shell := .plain }, true)
    | .tracking false => (s, true)
    | .own => (s, true)

mutual
/-- One command, and whether the commands after it are carried out (`core/ipyflow/shell/interactiveshell.py` 334-393, `core/ipyflow/line_magics.py` 518-529). What is raised in a
run inside a run is shown by IPython and does not leave that run. The command to register tracers exists once ipyflow has been loaded. -/
def step (cfg : List Nat) : Cmd → St → St × Bool
  | .load, s => (doLoad cfg s, true)
  | .unload, s => doUnload s
  | .reload, s => doReload cfg s
  | .register n, s =>
    match s.tracers with
    | none => (s, false)
    | some l => ({ s with tracers := some (insert n l) }, true)
  | .nested cs, s => ((finish s.shell (steps cfg cs s)).1, true)
  | .fail, s => (s, false)
  | .other, s => (s, true)
/-- The commands of a run, up to the first that raises (`core/ipyflow/shell/interactiveshell.py` 431-437). -/
def steps (cfg : List Nat) : Cmds → St → St
  | .nil, s => s
  | .cons c cs, s =>
    match step cfg c s with
    | (s', true) => steps cfg cs s'
    | (s', false) => s'
end

/-- The class of the kernel after its `_maybe_eject` (`core/ipyflow/kernel/kernel.py` 153-158). -/
def eject : Cls → Cls
  | .tracking true => .plain
  | c => c

/-- A cell, and whether its run returns: the kernel's `do_execute` around the shell's `run_cell_async` (`core/ipyflow/kernel/kernel.py` 183-205). If the latter raises, the
kernel's `_maybe_eject` is not reached; and a kernel without ipyflow has none. -/
def cell (cfg : List Nat) (cs : Cmds) (s : St) : St × Bool :=
  match finish s.shell (steps cfg cs s) with
  | (s', false) => (s', false)
  | (s', true) =>
    match s.kernel with
    | some .plain => (s', true)
    | _ => ({ s' with kernel := s'.kernel.map eject }, true)

/-- A session, as it was started: with ipyflow's own classes or without ipyflow, with a kernel or in a terminal, and with the tracers of the configuration
(`core/ipyflow/shell/interactiveshell.py` 52-76, `core/ipyflow/kernel/kernel.py` 87-90, `core/ipyflow/__init__.py` 93-105). -/
structure Start where
  own : Bool
  kernel : Bool
  cfg : List Nat

/-- The session when it was started (`core/ipyflow/shell/interactiveshell.py` 52-76, `core/ipyflow/kernel/kernel.py` 83-90). -/
def init (b : Start) : St :=
  let c := if b.own then Cls.own else .plain
  ⟨false, c, if b.kernel then some c else none, if b.own then some (setup b.cfg) else none, none⟩

/-- The session after cells, newest first (`core/ipyflow/kernel/kernel.py` 183-205). -/
def state (b : Start) : List Cmds → St
  | [] => init b
  | cs :: h => (cell b.cfg cs (state b h)).1

/-- The cell is run with ipyflow (`core/ipyflow/shell/interactiveshell.py` 365-393): decided by the class that the shell has when it begins. -/
def tracked (b : Start) (h : List Cmds) : Bool := (state b h).shell != .plain

/-- The run of the cell raises, whatever the code of the cell does (`core/ipyflow/shell/interactiveshell.py` 441-456, 392). -/
def broken (b : Start) (cs : Cmds) (h : List Cmds) : Bool := !(cell b.cfg cs (state b h)).2

end Verif.Loading
