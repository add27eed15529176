import Verif.Base.Assoc

/-!
# Who listens to a widget

Models what binding a name does to the observers of widgets: the beginning of `update_obj_ref`, `core/ipyflow/data_model/symbol.py` 710-716, the end of `update_deps`, 1131-1133, and
`_handle_possible_widget_creation`, 1157-1173. Names are those at top level; widgets are numbers. Simplified: the aliases of an object (`flow().aliases`, 1131) are the names bound to it.
Widgets keep a callback once however often it is added, and `unobserve_all` removes all of them (traitlets). -/

namespace Verif.Listen

/-- Whose callback it is: the symbol of a name (`_observe_widget`, `symbol.py` 1172), or the user. -/
inductive Who where
  | flow (n : Nat)
  | user (u : Nat)
  deriving DecidableEq

/-- The widgets that names are bound to (nothing for other objects), `_num_ipywidget_observers` of the symbols (`symbol.py` 191) and the callbacks of each widget. -/
structure Sys where
  names : List (Nat × Option Nat)
  count : List (Nat × Nat)
  callbacks : List (Nat × List Who)

/-- What happens: a name is bound to a widget or something else by an assignment that may use the name itself (`symbol.py` 1043-1046), or the user adds a callback to a widget. -/
inductive Event where
  | bind (n : Nat) (w : Option Nat) (self : Bool)
  | add (w u : Nat)

/-- The callbacks of a widget. `observe` and `unobserve_all` of traitlets, called in `symbol.py` 713, 1172, work on them. -/
def of (σ : Sys) (w : Nat) : List Who := (Assoc.get σ.callbacks w).getD []

/-- `observe`, called in `symbol.py` 1172 and by the user. -/
def observe (w : Nat) (x : Who) (σ : Sys) : Sys :=
  if x ∈ of σ w then σ else { σ with callbacks := Assoc.set σ.callbacks w (of σ w ++ [x]) }

/-- `update_obj_ref`, `symbol.py` 710-716. -/
def release (n : Nat) (σ : Sys) : Sys :=
  if 0 < (Assoc.get σ.count n).getD 0 then
    match (Assoc.get σ.names n).getD none with
    | none => { σ with count := Assoc.set σ.count n 0 }
    | some w => { σ with count := Assoc.set σ.count n 0, callbacks := Assoc.set σ.callbacks w [] }
  else σ

/-- `flow().aliases[obj_id]`, `symbol.py` 1131. -/
def aliases (σ : Sys) (w : Nat) : List Nat := (σ.names.filter fun p => p.2 = some w).map Prod.fst

/-- The end of `update_deps` and `_handle_possible_widget_creation`, `symbol.py` 1131-1132, 1157-1173. -/
def attach (n : Nat) (o : Option Nat) (self : Bool) (σ : Sys) : Sys :=
  match o with
  | none => σ
  | some w =>
    if self = false ∧ (aliases σ w).length = 1 then
      { observe w (.flow n) σ with count := Assoc.set σ.count n ((Assoc.get σ.count n).getD 0 + 1) }
    else σ

/-- One event; binding a name is `update_obj_ref` (`symbol.py` 710-734), then `update_deps` (1019-1133). -/
def step (σ : Sys) : Event → Sys
  | .bind n o self =>
    let σ := release n σ
    attach n o self { σ with names := Assoc.set σ.names n o }
  | .add w u => observe w (.user u) σ

/-- After a history, newest event first; nothing is bound and nobody listens at first (`symbol.py` 191). -/
def after : List Event → Sys
  | [] => ⟨[], [], []⟩
  | e :: h => step (after h) e

/-- A change of the widget's value reaches `_observe_widget`, `symbol.py` 1172, 1186. -/
def heard (σ : Sys) (w : Nat) : Bool := (of σ w).any fun x => match x with
  | .flow _ => true
  | .user _ => false

end Verif.Listen
