import Verif.Waiters.Model

/-!
# What the command that lists waiting variables should answer -/

namespace Verif.Waiters
open Verif
variable {S : Type}

/-- The symbol can be written down: neither it nor anything around it is without a name. -/
def HasName (w : World S) (s : S) : Prop := w.anonKind s = false ∧ true ∉ w.around s

/-- The line has a first word, which is the given one; other words may follow. -/
def Begins (word line : List Char) : Prop :=
  word ≠ [] ∧ (∀ c ∈ word, isSpace c = false) ∧
    ∃ pre rest, line = pre ++ word ++ rest ∧ (∀ c ∈ pre, isSpace c = true) ∧ (rest = [] ∨ ∃ c r, rest = c :: r ∧ isSpace c = true)

/-- The answer says that exactly the symbols with the given property wait, and says none twice. -/
def Says (a : Answer S) (P : S → Prop) : Prop :=
  match a with
  | .usage => False
  | .nothing => ∀ s, ¬P s
  | .waiting l => l ≠ [] ∧ l.Nodup ∧ ∀ s, s ∈ l ↔ P s

/-- **C199.** The whole claim: without words or with `global` the command names the variables of the notebook that wait, with `all` everything that waits and has a name; whatever
else is written is refused; and the command answers. -/
def ShowClaim : Prop := ∀ (S : Type) (_ : DecidableEq S) (w : World S) (waits : S → Prop), (∀ s b, w.judge s = .ok b → (b = true ↔ waits s)) →
  ((∀ c : List Char, (∀ x ∈ c, isSpace x = true) → ∃ a, showWaiting w c = .ok a ∧ Says a (fun s => s ∈ w.globals ∧ waits s ∧ HasName w s)) ∧
    (∀ word c : List Char, Begins word c → word ≠ "global".toList → word ≠ "all".toList → showWaiting w c = .ok .usage) ∧
    (∀ (word rest : List Char) (c : Char), Begins word word → c ∈ rest → isSpace c = false → showWaiting w (word ++ ' ' :: rest) = .ok .usage))

end Verif.Waiters
