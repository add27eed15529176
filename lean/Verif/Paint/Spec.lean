import Verif.Paint.Model

/-! # What the marks on cells should say -/

namespace Verif.Paint
open Verif Store

/-- `c` is one of the cells, or is computed from them. -/
def Runs (d : Data) (start : List Nat) (c : Nat) : Prop := ∃ s ∈ start, Relation.ReflTransGen (Lists d.children) s c

/-- `c` is one of the cells of `R`, or they are computed from it. -/
def Feeds (d : Data) (R : Nat → Prop) (c : Nat) : Prop := ∃ r, R r ∧ Relation.ReflTransGen (Lists d.parents) r c

/-- The marks that a code cell should have if `R` are the cells that would be run. -/
def Shows (σ : State) (R : Nat → Prop) (c : Nat) : Mark → Prop
  | .classic => σ.classic = true
  | .sliceExecute => R c
  | .slice => Feeds σ.data R c ∧ ¬ R c
  | .waiting => σ.highlights ≠ .none ∧ σ.data.waiting c = true
  | .readyInput => σ.highlights ≠ .none ∧ σ.data.ready c = true ∧ ¬ σ.data.waiting c = true
  | .readyMaking => σ.highlights ≠ .none ∧ ¬ σ.reactive = true ∧ σ.makers c = true ∧ ¬ σ.data.waiting c = true
  | .ready => σ.highlights ≠ .none ∧ (σ.data.waiting c = true ∨ σ.data.ready c = true ∨ (¬ σ.reactive = true ∧ σ.makers c = true))

/-- The cells whose slice is shown: those selected, or the active cell if none is. -/
def Chosen (σ : State) (start : List Nat) : Prop :=
  (σ.selected ≠ [] ∧ start = σ.selected) ∨ (σ.selected = [] ∧ ∃ a, σ.active = some a ∧ start = [a.1])

/-- The marks of the cells of notebook `k` are those of the state `σ`. -/
def Painted (w : World) (k : Nat) (σ : State) (R : Nat → Prop) : Prop :=
  (∀ c m, (c, true) ∈ w.cells k → (w.marks k c m = true ↔ Shows σ R c m)) ∧
  ∀ c m, (c, true) ∉ w.cells k → (c, false) ∈ w.cells k → w.marks k c m = false

/-- The events after which the marks of notebook `k` should be up to date: no more cells are run, or a code cell becomes active. -/
inductive Refreshes (k : Nat) : Event → Prop where
  | schedule (p : Payload) : Refreshes k (.schedule k p .done)
  | activate (a : Nat) : Refreshes k (.activate k (some (a, true)))

/-- The events that do not refresh the marks of notebook `k`, while notebook `current` is shown. Cells may be added and removed. -/
inductive Quiet (k current : Nat) : Event → Prop where
  | deferred (j : Nat) (p : Payload) : Quiet k current (.schedule j p .deferred)
  | batch (j : Nat) (p : Payload) (ids : List Nat) : Quiet k current (.schedule j p (.batch ids))
  | one (j : Nat) (p : Payload) (id : Nat) : Quiet k current (.schedule j p (.one id))
  | done (j : Nat) (p : Payload) (h : j ≠ k ∨ current ≠ k) : Quiet k current (.schedule j p .done)
  | executed (j c : Nat) : Quiet k current (.executed j c)
  | finished (j : Nat) (ids : List Nat) : Quiet k current (.finished j ids)
  | text (j a : Nat) : Quiet k current (.activate j (some (a, false)))
  | active (j a : Nat) (h : j ≠ k ∨ current ≠ k) : Quiet k current (.activate j (some (a, true)))
  | select (ids : List Nat) (h : current ≠ k) : Quiet k current (.select ids)
  | cells (j : Nat) (l : List (Nat × Bool)) : Quiet k current (.cells j l)
  | switch (j : Nat) : Quiet k current (.switch j)
  | connect (j : Nat) (a : Nat × Bool) (h : j ≠ k ∨ current ≠ k) : Quiet k current (.connect j (some a))

/-- A run that never refreshes the marks of notebook `k`, and never removes its cell `c`. -/
inductive Idle (fl : Fuel) (k c : Nat) : World → List Event → World → Prop where
  | nil (w : World) : Idle fl k c w [] w
  | cons {w w1 w2 : World} {e : Event} {es : List Event} (hq : Quiet k w.current e) (hc : ∃ p ∈ w.cells k, p.1 = c)
      (h1 : step fl w e = .ok w1) (h : Idle fl k c w1 es w2) : Idle fl k c w (e :: es) w2

/-- The marks that go when a cell is executed. -/
def Mark.goes : Mark → Prop
  | .ready => True
  | .readyInput => True
  | _ => False

end Verif.Paint
