import Verif.Saved.Model

/-!
# What should become of saved links -/

namespace Verif.Saved
open Verif Verif.Slice Verif.Sched

/-- A map lists `p` under `c`. -/
def Lists (m : List (Id × Finset Id)) (c p : Id) : Prop := ∃ L, Assoc.get m c = some L ∧ p ∈ L

/-- The client has `p` as a parent of `c` after a history. -/
def Parent (n : Note) (h : List Event) (c p : Id) : Prop := Lists (shown n h).parents c p

/-- The client has `c` as a child of `p` after a history. -/
def Child (n : Note) (h : List Event) (p c : Id) : Prop := Lists (shown n h).children p c

/-- A notebook has one entry for each cell, as JSON objects do. -/
def Keyed (n : Note) : Prop := (Assoc.keys n.parents).Nodup

/-- Nothing of a history is a new connection. -/
def OneSession (s : List Event) : Prop := ∀ f nb, Event.connect f nb ∉ s

/-- A cell was run in a history. -/
def Ran (s : List Event) (c : Id) : Prop := Event.start c ∈ s

/-- Some cell was run in a history. -/
def AnyRan (s : List Event) : Prop := ∃ c, Ran s c

/-- The cells of the notebook as last told, if it had the cells `nb` before. -/
def now (nb : List Id) : List Event → List Id
  | [] => nb
  | .told l :: _ => l
  | _ :: s => now nb s

/-- `p` stands above `c` in a notebook. -/
def Above (l : List Id) (p c : Id) : Prop := c ∈ l ∧ l.idxOf p < l.idxOf c

/-- A cell was told or run in a history that began with the cells `nb`. -/
def Known (nb : List Id) (s : List Event) (i : Id) : Prop := i ∈ nb ∨ Ran s i ∨ ∃ l, Event.told l ∈ s ∧ i ∈ l

/-- The analysis of the code of `c` found that it reads something `p` wrote, after `p` was run. -/
def Reads (s : List Event) (c p : Id) : Prop := ∃ s₁ s₂ n, s = s₁ ++ Event.edge .static c p n :: s₂ ∧ Ran s₂ p

/-- The analysis of the code of `c` found nothing that it reads from other cells. -/
def ReadsNothing (s : List Event) (c : Id) : Prop := ∀ p n, Event.edge .static c p n ∉ s

/-- It was never found, neither from the code nor in a run, that `c` uses something of `p`. -/
def NeverUses (s : List Event) (c p : Id) : Prop := ∀ x n, Event.edge x c p n ∉ s

/-- A cell is not in the notebook in any event of a history. -/
def Absent (s : List Event) (c : Id) : Prop := (∀ f nb, Event.connect f nb ∈ s → c ∉ nb) ∧ (∀ nb, Event.told nb ∈ s → c ∉ nb) ∧ ¬Ran s c

end Verif.Saved
