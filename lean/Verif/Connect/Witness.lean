import Verif.Connect.Props

/-! # C123: what goes wrong -/

namespace Verif.Connect

/-- A cell of notebook 0 is run before its kernel is connected; a schedule for notebook 1, without batches, makes the kernel of notebook 1 run it. -/
theorem elsewhere : (after [.opened 1 true true, .ready 1, .establish 1, .schedule 1 false, .opened 0 true true, .run 0 5, .schedule 1 false, .ready 0, .establish 0, .schedule 0 false]).log =
    [⟨1, ⟨0, 5⟩⟩] := by decide

/-- With batches the cell is not run at all. -/
theorem forgotten : (after [.opened 1 true true, .ready 1, .establish 1, .schedule 1 true, .opened 0 true true, .run 0 5, .schedule 1 true, .ready 0, .establish 0, .schedule 0 true]).log = [] ∧
    (after [.opened 1 true true, .ready 1, .establish 1, .schedule 1 true, .opened 0 true true, .run 0 5, .schedule 1 true, .ready 0, .establish 0, .schedule 0 true]).deferred = [] := by
  decide

/-- Without a kernel the command ends with an error. -/
theorem no_kernel : (after [.opened 0 true false, .run 0 1]).broken = [⟨0, 1⟩] := by decide

/-- As long as another kernel is starting, the command ends with an error. -/
theorem too_early : (after [.opened 0 false true, .run 0 1, .ready 0, .run 0 2]).broken = [⟨0, 1⟩] ∧ (after [.opened 0 false true, .run 0 1, .ready 0, .run 0 2]).log = [⟨0, ⟨0, 2⟩⟩] := by decide

end Verif.Connect
