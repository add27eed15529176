import Verif.Session.Props

/-! # C121, C122: what goes wrong -/

namespace Verif.Session

open Spec

/-- In the default mode a cell is run; then the user chooses `lazy`, and runs another cell: the client does not ask for a schedule after it. -/
theorem late_after_batch : Idle (after (init .reactive true) [.establish, .schedule false, .run true false, .groupDone, .schedule false, .setMode .lazy, .run true false, .singleDone]) ∧
    (after (init .reactive true) [.establish, .schedule false, .run true false, .groupDone, .schedule false, .setMode .lazy, .run true false, .singleDone]).unseen = true := by
  refine ⟨?_, by decide⟩
  simp only [Idle]; decide

/-- The first cell is run before the connection is there. After later runs in `lazy` mode the client does not ask for a schedule. -/
theorem late_after_deferred : Idle (after (init .lazy true) [.run true false, .establish, .schedule false, .groupDone, .schedule false, .run true false, .singleDone]) ∧
    (after (init .lazy true) [.run true false, .establish, .schedule false, .groupDone, .schedule false, .run true false, .singleDone]).unseen = true := by
  refine ⟨?_, by decide⟩
  simp only [Idle]; decide

/-- A run in alternate mode with incremental reactivity. -/
theorem late_direct : Idle (after (init .reactive false) [.establish, .schedule false, .press true, .directDone]) ∧
    (after (init .reactive false) [.establish, .schedule false, .press true, .directDone]).unseen = true := by
  refine ⟨?_, by decide⟩
  simp only [Idle]; decide

/-- The ordinary run after a run in alternate mode is in the other mode, too. -/
theorem lingers : (after (init .reactive false) [.establish, .schedule false, .press true, .directDone, .run true false]).log = [⟨.direct, .lazy⟩, ⟨.single, .lazy⟩] := by
  decide

/-- After two runs in alternate mode and an ordinary run, with its schedule, the kernel is still in the other mode. -/
theorem twice : (after (init .reactive false) [.establish, .schedule false, .press true, .directDone, .press true, .directDone, .run true false, .singleDone, .schedule false]).kmode =
    .lazy := by
  decide

/-- `%flow reactivity incremental` in a cell that is run in alternate mode leaves the kernel in the other mode for good; `%flow reactivity batch`, likewise. -/
theorem switched : (after (init .reactive true) [.establish, .schedule false, .press true, .setBatch false, .groupDone, .schedule false]).kmode = .lazy ∧
    (after (init .reactive true) [.establish, .schedule false, .press true, .setBatch false, .groupDone, .schedule false]).alts = 0 ∧
    (after (init .reactive false) [.establish, .schedule false, .press true, .setBatch true, .directDone, .tab, .schedule false]).kmode = .lazy ∧
    (after (init .reactive false) [.establish, .schedule false, .press true, .setBatch true, .directDone, .tab, .schedule false]).alts = 0 := by
  decide

/-- With incremental reactivity and in reactive mode the commands for slices run nothing. -/
theorem slice_lost : (after (init .reactive false) [.establish, .schedule false, .slice true]).log = [] ∧
    (after (init .reactive false) [.establish, .schedule false, .slice true]).bumps = 1 := by
  decide

end Verif.Session
