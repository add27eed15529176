import Verif.Embed.Model

/-!
# What embedding should leave behind
-/

namespace Verif.Embed.Spec

open Verif.Embed

/-- What a program sees: its shell, `InteractiveShell._instance`, and its prompts. -/
def seen (s : St) : Option Nat × Option Nat := (s.lookup .base, s.ps)

/-- Programs: without a shell, with a shell of IPython or of ipyflow, and one in which the extension was loaded and maybe unloaded again. -/
inductive Program : St → Prop
  | none (ps : Option Nat) : Program (fresh ps)
  | plain (p : Plain) : Program (started (.plain p))
  | own (p : Plain) : Program (started (.own p))
  | loaded (p : Plain) : Program (load p 0 (started (.plain p)))
  | unloaded (p : Plain) : Program (unload p 0 (load p 0 (started (.plain p))))

/-- Programs in which the extension was loaded and unloaded. -/
def Unloaded (s : St) : Prop := ∃ p, s = unload p 0 (load p 0 (started (.plain p)))

/-- The claim: when `embed()` has ended, with or without an error, the program has its shell and its prompts. -/
def Claim : Prop := ∀ (s : St) (x : Sess), Program s → seen (embed x s).1 = seen s

/-- Whether the session itself ends with an error, as with `%exit_raise`. -/
def Raises : Sess → Bool
  | .stop r => r
  | .embed _ rest => Raises rest

/-- Embedding several sessions one after the other. -/
def embeds : List Sess → St → St
  | [], s => s
  | x :: xs, s => embeds xs (embed x s).1

end Verif.Embed.Spec
