import Verif.Connect.Model

/-! What the user relies on when they run cells of several notebooks. -/

namespace Verif.Connect.Spec

/-- The user has started the cell, in a notebook that was open. -/
def Started (es : List Ev) (c : Cell) : Prop := ∃ es₁ es₂, es = es₁ ++ .run c.nb c.id :: es₂ ∧ ∃ a k, Ev.opened c.nb a k ∈ es₁

/-- The notebook has a kernel; it is an `ipyflow` kernel, or the client has tried to connect to it and not given it up. -/
def Able (nb : Nb) : Prop := nb.status ≠ .absent ∧ (nb.native = true ∨ nb.status = .ready ∧ nb.entry ≠ none)

/-- Cells are only run in notebooks that are able to. -/
def AllAble (es : List Ev) : Prop := ∀ es₁ n id es₂, es = es₁ ++ .run n id :: es₂ → ∀ nb, Assoc.get (after es₁).nbs n = some nb → Able nb

/-- When a schedule arrives for a notebook, all cells that were put off belong to it. -/
def InTurn (es : List Ev) : Prop := ∀ es₁ n b es₂, es = es₁ ++ .schedule n b :: es₂ → ∀ c ∈ (after es₁).deferred, c.nb = n

/-- The notebook an event is about. -/
def about : Ev → Nat
  | .opened n _ _ => n
  | .ready n => n
  | .establish n => n
  | .load n => n
  | .unload n => n
  | .change n _ => n
  | .shutdown n => n
  | .schedule n _ => n
  | .run n _ => n

end Verif.Connect.Spec
