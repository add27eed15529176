import Verif.Tracers.Props

/-!
# Concrete sessions for the theorems about tracers -/

namespace Verif.Tracers

/-- A tracer of the user, and a second class of the same name, as after its cell was run again. -/
def mine : Cls := ⟨7, 9⟩

/-- The class as defined again. -/
def again : Cls := ⟨8, 9⟩

/-- Two cells: the first registers the tracer, the second has a statement. -/
def twoCells : List Event := [.cell true [.stmt], .cell false [.register mine, .stmt]]

theorem twoCells_traced : Traced [] := ⟨rfl, fun h => h⟩

theorem twoCells_in : InTraced twoCells := ⟨Or.inr (by intro a ha; rw [List.mem_singleton] at ha; subst ha; exact fun h => h), Or.inl twoCells_traced, trivial⟩

/-- `sees_partial`: the tracer sees the statements of the third cell; it does not see those of the cell in which it was registered, nor those after it was
deregistered. -/
example : mine ∈ sees twoCells false [] :=
  (sees_partial twoCells_in (fun e => by cases e) false []).2 ⟨⟨rfl, fun h => h⟩, Or.inl rfl, Or.inl rfl, fun e => by cases e⟩

example : mine ∉ sees twoCells false [.deregister mine] := fun h => (sees_sound h).2.2.1.1 rfl

example : mine ∉ sees [] false [.register mine] := fun h => by
  have := (sees_sound h).2.1
  rcases this with e | e | e <;> cases e

/-- `after_change`: the class that was defined and registered again sees statements, the old one no more. -/
example : again ∈ sees [.cell false [.stmt, .register again], .cell false [.register mine]] false [] :=
  (after_change (h := [.cell false [.register mine]]) ⟨rfl, fun h => h⟩ false ⟨.register again, by decide, trivial⟩ false [] again).2
    ⟨⟨rfl, fun h => h⟩, Or.inl rfl, Or.inl rfl, fun e => by cases e⟩

example : mine ∉ sees [.cell false [.stmt, .register again], .cell false [.register mine]] false [] := fun h =>
  absurd (one_of_a_name h ((after_change (h := [.cell false [.register mine]]) ⟨rfl, fun h => h⟩ false ⟨.register again, by decide, trivial⟩ false [] again).2
    ⟨⟨rfl, fun h => h⟩, Or.inl rfl, Or.inl rfl, fun e => by cases e⟩) rfl) (by decide)

/-- `capture_first`: the first cell begins with `%%capture`; the output of the second is not recorded. -/
example : recorder ∉ sees [.cell true [.stmt]] false [] := by
  refine capture_first (h := [.cell true [.stmt]]) ⟨Or.inl twoCells_traced, trivial⟩ ?_ (d := dataflow) (Or.inr (Or.inl rfl)) (by decide) false []
  unfold firstSince
  rw [if_pos twoCells_traced, if_neg (by rintro ⟨a, ha, hc⟩; rw [List.mem_singleton] at ha; subst ha; exact hc)]
  rfl

example : Should [.cell true [.stmt]] false [] recorder := ⟨⟨rfl, fun h => h⟩, Or.inl rfl, Or.inl rfl, fun _ => rfl⟩

/-- `late_registration`: tracking is switched off by the first cell, a tracer registered by the second, tracking switched on by the third. -/
example : mine ∉ sees [.cell false [.on], .cell false [.register mine], .cell false [.off]] false [] := by
  refine late_registration (h := [.cell false [.off]]) (b := false) ⟨Or.inl twoCells_traced, trivial⟩ ?_ (d := dataflow) (Or.inr (Or.inl rfl)) (by decide)
    (fun h => by cases h.1) mine false false false []
  unfold firstSince
  rw [if_pos twoCells_traced, if_neg (by rintro ⟨a, ha, hc⟩; rw [List.mem_singleton] at ha; subst ha; exact hc)]
  rfl

example : Should [.cell false [.on], .cell false [.register mine], .cell false [.off]] false [] mine :=
  ⟨⟨rfl, fun h => h⟩, Or.inl rfl, Or.inl rfl, fun e => by cases e⟩

/-- `debugger_partial`: a debugger is attached, a cell is run, it is disconnected. -/
def debugged : List Event := [.disconnect, .cell false [.stmt], .attach, .cell false [.on], .cell false [.off]]

theorem debugged_plain : Plain debugged := by
  intro a ha
  rcases (show a = .stmt ∨ a = .on ∨ a = .off by simpa [debugged, log] using ha) with rfl | rfl | rfl <;> exact ⟨fun h => h, by decide⟩

theorem debugged_orderly : Orderly debugged := by simp [Orderly, debugged, wish, attached, onAfter]

example : dataflow ∈ sees debugged false [] := (debugger_partial debugged_plain debugged_orderly false).2 ⟨rfl, rfl⟩

/-- `disconnect_switches_on`: the user had switched tracking off. -/
example : dataflow ∈ sees [.disconnect, .attach, .cell false [.off]] false [] ∧ wish [.disconnect, .attach, .cell false [.off]] = false :=
  ⟨disconnect_switches_on (h := [.attach, .cell false [.off]]) (by
    intro a ha
    rcases (show a = .off by simpa [log] using ha) with rfl
    exact ⟨fun h => h, by decide⟩) false, rfl⟩

/-- `on_while_attached`. -/
example : dataflow ∈ sees [.cell false [.on], .attach] true [] ∧ attached [.cell false [.on], .attach] = true :=
  ⟨on_while_attached (h := []) (fun _ ha => by cases ha) false true, rfl⟩

end Verif.Tracers
