import Verif.Session.Model

/-! What the user relies on when they run cells. -/

namespace Verif.Session.Spec

/-- Nothing that was started is still to come to its end. -/
def Idle (s : St) : Prop := s.singles = 0 ∧ s.groups = 0 ∧ s.directs = 0 ∧ s.deferred = 0

/-- A run was put off, or carried out with all that depends on it. -/
def Leaky (l : List Run) : Prop := ∃ r ∈ l, r.kind = .deferred ∨ r.kind = .batch

/-- A run was carried out by the command of JupyterLab. -/
def Plain (l : List Run) : Prop := ∃ r ∈ l, r.kind = .single

/-- A run was carried out in alternate mode with incremental reactivity, or without a connection. -/
def Direct (l : List Run) : Prop := ∃ r ∈ l, r.kind = .direct

/-- The mode that the user has chosen: the last one, or the one at the beginning. -/
def chosen (m : Mode) : List Ev → Mode
  | [] => m
  | .setMode m' :: es => chosen m' es
  | _ :: es => chosen m es

/-- Batch or incremental reactivity is not changed. -/
def Steady (es : List Ev) : Prop := ∀ b, Ev.setBatch b ∉ es

/-- How often a schedule arrives with nothing to run. -/
def ends : List Ev → Nat
  | [] => 0
  | .schedule false :: es => ends es + 1
  | _ :: es => ends es

/-- No alternate mode and no slices. -/
def Ordinary (es : List Ev) : Prop := ∀ c, Ev.press c ∉ es ∧ Ev.slice c ∉ es

end Verif.Session.Spec
