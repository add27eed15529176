/-!
# What cells register to change the code of later cells

IPython changes the code of each cell by the functions in `input_transformers_post` and by the objects in `ast_transformers`.  Users and extensions put theirs
into these lists while a cell runs.  ipyflow puts its own there while a cell runs, and takes them out afterwards.

Models `ast_transformer_context` and `input_transformer_context` (`core/ipyflow/utils/ipython_utils.py` 28-48, 60-69) and where they are entered
(`core/ipyflow/shell/interactiveshell.py` 224-238, 244-306, 372-388, 415-424).

Simplified: cells reach the lists through the shell only and keep no reference to a list; a transformer that throws and is taken out by IPython is not modelled.
-/

namespace Verif.Addons

/-- A transformer: one of the user or of an extension, or one of ipyflow's own (`interactiveshell.py` 217-222, 292-294). -/
inductive T where
  | user (n : Nat)
  | own (k : Nat)
  deriving DecidableEq, Repr

/-- The two lists: `input_transformers_post` and `ast_transformers` (`ipython_utils.py` 32, 43). -/
inductive Which where
  | post
  | ast
  deriving DecidableEq, Repr

/-- How a run is wrapped. `bare`: not at all, for silent runs (`interactiveshell.py` 374-382), if dataflow is off (415-424), and without registered tracers (291-298).
`text own`: with `syntax_transforms_only` (255-260), only the first list, with ipyflow's augmenters, which are none for cell magics (229-236). `full own k`: both (300-305). -/
inductive Mode where
  | bare
  | text (own : List Nat)
  | full (own : List Nat) (k : Nat)
  deriving DecidableEq, Repr

/-- The code of a cell, as far as the lists matter: the user adds a transformer, removes one, assigns a list, loads an extension that adds transformers, raises an error,
or runs other code with `run_cell` before going on (`ipython_utils.py` 78-83). -/
inductive Code where
  | done
  | fail
  | add (w : Which) (n : Nat) (rest : Code)
  | remove (w : Which) (n : Nat) (rest : Code)
  | assign (w : Which) (ns : List Nat) (rest : Code)
  | load (e : Nat) (w : Which) (ns : List Nat) (rest : Code)
  | run (m : Mode) (body : Code) (rest : Code)
  deriving Repr

/-- The state of the shell: the two lists (`ipython_utils.py` 32, 43), the extensions that IPython has loaded, and for each run the transformers that its code
went through (`interactiveshell.py` 427). -/
structure St where
  post : List T
  ast : List T
  loaded : List Nat
  log : List (List T × List T)
  deriving DecidableEq, Repr

/-- A list of the shell (`ipython_utils.py` 32, 43). -/
def St.get (s : St) : Which → List T
  | .post => s.post
  | .ast => s.ast

/-- Changing a list of the shell (`ipython_utils.py` 33, 44). -/
def St.set (s : St) : Which → List T → St
  | .post, l => { s with post := l }
  | .ast, l => { s with ast := l }

/-- `old + transformers`, on the way into a run (`ipython_utils.py` 32-33, 43-44, `interactiveshell.py` 237, 305). -/
def enter (s : St) : Mode → St
  | .bare => s
  | .text own => { s with post := s.post ++ own.map .own }
  | .full own k => { s with post := s.post ++ own.map .own, ast := s.ast ++ [.own k] }

/-- The `finally` of the contexts, on the way out of a run: the lists are those of before (`ipython_utils.py` 36-37, 47-48). -/
def leave (old s : St) : Mode → St
  | .bare => s
  | .text _ => { s with post := old.post }
  | .full _ _ => { s with post := old.post, ast := old.ast }

/-- The code of a run goes through the transformers that are in the lists when it begins (`interactiveshell.py` 425-443). -/
def note (s : St) : St := { s with log := s.log ++ [(s.post, s.ast)] }

/-- Executing code. An error ends the code and not the code that has run it, since `run_cell` does not raise (`interactiveshell.py` 336-364); removing what is not there
is an error; an extension that was loaded is not loaded again. The contexts are those of `interactiveshell.py` 300-307. -/
def exec : Code → St → St
  | .done, s => s
  | .fail, s => s
  | .add w n rest, s => exec rest (s.set w (s.get w ++ [.user n]))
  | .remove w n rest, s => if T.user n ∈ s.get w then exec rest (s.set w ((s.get w).erase (.user n))) else s
  | .assign w ns rest, s => exec rest (s.set w (ns.map .user))
  | .load e w ns rest, s =>
    if e ∈ s.loaded then exec rest s
    else exec rest { s.set w (s.get w ++ ns.map .user) with loaded := s.loaded ++ [e] }
  | .run m body rest, s => exec rest (leave s (exec body (note (enter s m))) m)

/-- A session: the cells that are run, one after the other (`interactiveshell.py` 365-392). -/
def session : List (Mode × Code) → St → St
  | [], s => s
  | (m, c) :: cs, s => session cs (exec (.run m c .done) s)

end Verif.Addons
