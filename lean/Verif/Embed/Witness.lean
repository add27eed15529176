import Verif.Embed.Props

/-!
# Embedding, examples
-/

namespace Verif.Embed.Witness

open Verif.Embed Spec

/-- A session in which another one is embedded that raises, and one that does not. -/
def busy : Sess := .embed (.stop true) (.embed (.embed (.stop false) (.stop false)) (.stop false))

/-- `restored_partial` applies to a notebook with the extension loaded. -/
example : Program (load .zmq 0 (started (.plain .zmq))) ∧ (seen (load .zmq 0 (started (.plain .zmq)))).1 = some 0 ∧
    ¬ Unloaded (load .zmq 0 (started (.plain .zmq))) ∧ ∀ x ∈ [busy, .stop false], Raises x = false := by
  refine ⟨.loaded _, rfl, fun ⟨p, h⟩ => ?_, by simp [busy, Raises]⟩
  have := congrArg (fun s => s.typ 0) h
  revert this
  simp [load, unload]

/-- During the session the shell is another one. -/
example : (seen (live busy ((started (.own .terminal)).clear (.own .terminal) |>.make flowEmbed)).1).1 = some 2 := by decide

example : seen (embed busy (started (.own .terminal))).1 = (some 0, some 0) := by decide

/-- `raising_left` applies to a terminal. -/
example : Program (started (.plain .terminal)) ∧ (started (.plain .terminal)).typ 0 ≠ flowEmbed ∧
    ¬ Unloaded (started (.plain .terminal)) ∧ Raises (.embed busy (.stop true)) = true := by
  refine ⟨.plain _, by decide, fun ⟨p, h⟩ => ?_, rfl⟩
  have := congrArg (fun s => s.inst .flowShell) h
  revert this
  cases p <;> simp [started, fresh, St.make, St.putAll, St.put, mro, Plain.above, load, unload]

/-- **C186, violated**: an embedded session that raises. -/
theorem restored_claim_false : ¬ Claim := by
  intro h
  have := h (started (.plain .terminal)) (.stop true) (.plain _)
  revert this
  decide

end Verif.Embed.Witness
