import Verif.Registry.Spec

/-! # Which cells are marked for a tag, in terms of what was done -/

namespace Verif.Registry.Marks
variable {ι τ : Type} [DecidableEq ι] [DecidableEq τ]

/-- What the user has done: the cell that was run last, the ids in use, and for which tags each cell was marked since it was last run. -/
structure Story (ι τ : Type) where
  last : Option ι
  known : ι → Prop
  marked : ι → τ → Prop

/-- Nothing was done. -/
def Story.init : Story ι τ := ⟨none, fun _ => False, fun _ _ => False⟩

open Classical in
/-- One more operation: a run forgets the marks of the cell, a mark is put on the cell that was run last, and a new id takes over what belongs to the old one. -/
noncomputable def Story.step (p : Story ι τ) : Op ι τ → Story ι τ
  | .exec id _ _ _ _ => ⟨some id, fun a => a = id ∨ p.known a, fun a t => a ≠ id ∧ p.marked a t⟩
  | .untracked id => { p with known := fun a => a = id ∨ p.known a }
  | .tag _ _ => p
  | .untag _ _ => p
  | .reactive t => { p with marked := fun a u => (p.last = some a ∧ u = t) ∨ p.marked a u }
  | .rename old new =>
    if p.known old ∧ ¬ p.known new then
      ⟨if p.last = some old then some new else p.last, fun a => a = new ∨ (a ≠ old ∧ p.known a),
        fun a t => if a = new then p.marked old t else a ≠ old ∧ p.marked a t⟩
    else p

/-- A history of operations. -/
noncomputable def story : Story ι τ → List (Op ι τ) → Story ι τ
  | p, [] => p
  | p, o :: ops => story (p.step o) ops

end Verif.Registry.Marks
