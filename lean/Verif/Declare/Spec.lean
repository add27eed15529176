import Verif.Declare.Model

/-!
# What declared reads and writes should do -/

namespace Verif.Declare

/-- What the metadata of a cell says that it reads and writes. -/
def said (m : Meta) : Taken :=
  match m.live, m.dead with
  | none, none => .analysed
  | l, d => .declared (l.getD []) (d.getD [])

/-- The metadata names something that the cell reads or writes. -/
def Names (m : Meta) : Prop := (∃ r rs, m.live = some (r :: rs)) ∨ ∃ r rs, m.dead = some (r :: rs)

/-- The kernel has seen a cell: it was run, or it was a code cell of a message in which all cells that name something had been seen before. -/
def Seen : List Event → Id → Prop
  | [], _ => False
  | .run j :: h, i => i = j ∨ Seen h i
  | .told nb :: h, i => Seen h i ∨ ((∀ m ∈ nb, Names m → Seen h m.id) ∧ ∃ m ∈ nb, m.id = i ∧ m.code = true)

/-- All cells of a message that name something have been seen. -/
def Fine (h : List Event) (nb : List Meta) : Prop := ∀ m ∈ nb, Names m → Seen h m.id

/-- Nothing has been named for a cell since it was run last. -/
def Clean : List Event → Id → Prop
  | [], _ => True
  | .run j :: h, i => i = j ∨ Clean h i
  | .told nb :: h, i => Clean h i ∧ ∀ m ∈ nb, m.id = i → ¬Names m

/-- A message has one entry for each cell. -/
def Distinct (nb : List Meta) : Prop := (nb.map (·.id)).Nodup

end Verif.Declare
