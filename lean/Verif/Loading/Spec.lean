import Verif.Loading.Model

/-!
# When cells should be run with ipyflow
-/

namespace Verif.Loading

mutual
/-- Whether the extension is wanted after a command, and whether the next one is carried out: in sessions that were started without ipyflow. Only code that raises keeps the rest
of a run from being carried out; `reg` says whether the commands of ipyflow exist. -/
def want : Cmd → Bool → Bool → (Bool × Bool) × Bool
  | .load, _, _ => ((true, true), true)
  | .unload, _, reg => ((false, reg), true)
  | .reload, _, _ => ((true, true), true)
  | .register _, w, reg => ((w, reg), reg)
  | .nested cs, w, reg => (wants cs w reg, true)
  | .fail, w, reg => ((w, reg), false)
  | .other, w, reg => ((w, reg), true)
/-- Whether the extension is wanted after a run. -/
def wants : Cmds → Bool → Bool → Bool × Bool
  | .nil, w, reg => (w, reg)
  | .cons c cs, w, reg =>
    match want c w reg with
    | ((w', reg'), true) => wants cs w' reg'
    | ((w', reg'), false) => (w', reg')
end

/-- Whether the extension was asked for last, and whether it ever was. -/
def asked : List Cmds → Bool × Bool
  | [] => (false, false)
  | cs :: h => wants cs (asked h).1 (asked h).2

/-- The last that the cells asked for is that the extension be loaded. -/
def Wanted (h : List Cmds) : Prop := (asked h).1 = true

mutual
/-- A command that contains the loading of the extension. -/
def Loads : Cmd → Prop
  | .load => True
  | .reload => True
  | .nested cs => LoadsIn cs
  | _ => False
/-- Commands that contain the loading of the extension. -/
def LoadsIn : Cmds → Prop
  | .nil => False
  | .cons c cs => Loads c ∨ LoadsIn cs
end

/-- The commands include none that runs code as a cell of its own. -/
def Flat : Cmds → Prop
  | .nil => True
  | .cons (.nested _) _ => False
  | .cons _ cs => Flat cs

/-- The commands include none that raises or needs ipyflow. -/
def Calm : Cmds → Prop
  | .nil => True
  | .cons .fail _ => False
  | .cons (.register _) _ => False
  | .cons _ cs => Calm cs

/-- No cell that was begun while the extension was not wanted loaded it and then left it unwanted again. -/
def Settled : List Cmds → Prop
  | [] => True
  | cs :: h => (Wanted (cs :: h) ∨ Wanted h ∨ ¬ LoadsIn cs) ∧ Settled h

/-- A cell should be run with ipyflow if and only if the extension was asked for last; and its run should not raise by itself. -/
def TrackClaim : Prop :=
  ∀ kernel cfg h cs,
    (tracked ⟨false, kernel, cfg⟩ h = true ↔ Wanted h) ∧ broken ⟨false, kernel, cfg⟩ cs h = false

mutual
/-- A command that registers the tracer, at any depth. -/
def Registers (n : Nat) : Cmd → Prop
  | .register m => m = n
  | .nested cs => RegistersIn n cs
  | _ => False
/-- Commands that register the tracer. -/
def RegistersIn (n : Nat) : Cmds → Prop
  | .nil => False
  | .cons c cs => Registers n c ∨ RegistersIn n cs
end

/-- The tracer is in the list of the session. -/
def Has (s : St) (n : Nat) : Prop := ∃ l, s.tracers = some l ∧ n ∈ l

/-- A tracer that has been registered stays registered. -/
def KeepClaim : Prop :=
  ∀ kernel cfg h cs n, Has (state ⟨false, kernel, cfg⟩ h) n → Has (state ⟨false, kernel, cfg⟩ (cs :: h)) n

end Verif.Loading
