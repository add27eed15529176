import Verif.Base.Timestamp
import Verif.Base.Dfs
import Mathlib.Tactic.Common

/-! # C48: the order of timestamps, and the clock they are read from

The specification of the order is `Before`: the cell number decides, then the statement number. -/

namespace Verif.Clock
open Verif

/-- What a timestamp may be compared with. -/
inductive PyVal where
  | ts (t : Timestamp)
  | none
  | other

/-- `Timestamp.__eq__`, `data_model/timestamp.py` 88-96; comparison with a value of another type is a `TypeError`. -/
def eq (a : Timestamp) : PyVal → Except Err Bool
  | .none => .ok false
  | .other => .error .crash
  | .ts b => .ok (decide (a.cellNum = b.cellNum) && decide (a.stmtNum = b.stmtNum))

/-- `Timestamp.__ne__`, `data_model/timestamp.py` 98-99. -/
def ne (a : Timestamp) (v : PyVal) : Except Err Bool := (eq a v).map not

/-- `Cell.timestamp`, `data_model/cell.py` 153-155. -/
def cellTs (ctr : Int) : Timestamp := ⟨ctr, -1⟩

/-- Builtin `max(a, b)` over timestamps, as in `data_model/symbol.py` 330-336: the first one, unless the second one is greater. -/
def tsMax (a b : Timestamp) : Timestamp := if Timestamp.ltb a b then b else a

/-! ## Specification -/

/-- The order a user relies on. -/
def Before (a b : Timestamp) : Prop := a.cellNum < b.cellNum ∨ a.cellNum = b.cellNum ∧ a.stmtNum < b.stmtNum

/-- **C48**: comparison of timestamps is a strict total order; statements of earlier executions precede those of later ones; a cell's own
timestamp precedes all its statements and follows those of earlier executions; equality is what the order leaves open. -/
theorem order_strict_total :
    (∀ a b : Timestamp, Timestamp.ltb a b = true ↔ Before a b) ∧
    (∀ a, Timestamp.ltb a a = false) ∧
    (∀ a b c, Timestamp.ltb a b = true → Timestamp.ltb b c = true → Timestamp.ltb a c = true) ∧
    (∀ a b, eq a (.ts b) = .ok true ∨ Timestamp.ltb a b = true ∨ Timestamp.ltb b a = true) ∧
    (∀ a b, eq a (.ts b) = .ok true ↔ (Timestamp.ltb a b = false ∧ Timestamp.ltb b a = false)) ∧
    (∀ a b, eq a (.ts b) = .ok true ↔ a = b) := by
  have hlt : ∀ a b : Timestamp, Timestamp.ltb a b = true ↔ Before a b := fun a b => Timestamp.lt_def
  have hf : ∀ a b : Timestamp, Timestamp.ltb a b = false ↔ ¬ Before a b := fun a b => by rw [← hlt]; simp
  have he : ∀ a b : Timestamp, eq a (.ts b) = .ok true ↔ (a.cellNum = b.cellNum ∧ a.stmtNum = b.stmtNum) := fun a b => by
    simp [eq]
  refine ⟨hlt, fun a => (hf a a).2 ?_, fun a b c => ?_, fun a b => ?_, fun a b => ?_, fun a b => ?_⟩
  · unfold Before; omega
  · rw [hlt, hlt, hlt]; unfold Before; omega
  · rw [hlt, hlt, he]; unfold Before; omega
  · rw [hf, hf, he]; unfold Before; omega
  · rw [he, Timestamp.ext_iff]

/-- **C48**, cells: statements of execution `c` (numbers from 0) lie between the timestamp of `c` and the timestamps of later executions. -/
theorem cell_precedes (c d : Int) (i j : Int) (hi : 0 ≤ i) (h : c < d) :
    Timestamp.ltb (cellTs c) ⟨c, i⟩ = true ∧ Timestamp.ltb ⟨c, i⟩ (cellTs d) = true ∧ Timestamp.ltb ⟨c, i⟩ ⟨d, j⟩ = true := by
  refine ⟨?_, ?_, ?_⟩ <;> rw [order_strict_total.1] <;> unfold Before <;> simp [cellTs] <;> omega

example : Timestamp.ltb (cellTs 3) ⟨3, 0⟩ = true ∧ Timestamp.ltb ⟨3, 7⟩ (cellTs 4) = true ∧ Timestamp.ltb ⟨3, 7⟩ ⟨4, 0⟩ = true :=
  ⟨(cell_precedes 3 4 0 0 (by decide) (by decide)).1, (cell_precedes 3 4 7 0 (by decide) (by decide)).2⟩

/-- **C48**, other values: nothing that is not a timestamp equals one, `!=` is the negation, and only foreign values raise. -/
theorem eq_other (a : Timestamp) (v : PyVal) :
    (eq a v = .ok true ↔ ∃ b, v = .ts b ∧ a = b) ∧ (ne a v = .ok true ↔ eq a v = .ok false) ∧
    (ne a v = .ok false ↔ eq a v = .ok true) ∧ (eq a v = .error .crash ↔ v = .other) ∧ eq a .none = .ok false := by
  refine ⟨?_, ?_, ?_, ?_, rfl⟩
  · cases v with
    | ts b => rw [order_strict_total.2.2.2.2.2]; simp [eq_comm]
    | none => simp [eq]
    | other => simp [eq]
  · cases h : eq a v with
    | ok b => cases b <;> simp [ne, h, Except.map]
    | error e => simp [ne, h, Except.map]
  · cases h : eq a v with
    | ok b => cases b <;> simp [ne, h, Except.map]
    | error e => simp [ne, h, Except.map]
  · cases v <;> simp [eq]

/-- The greatest of several timestamps is an upper bound of them and one of them. -/
theorem max_exact (a : Timestamp) (l : List Timestamp) :
    (∀ t ∈ a :: l, ¬ Before (l.foldl tsMax a) t) ∧ l.foldl tsMax a ∈ a :: l := by
  have hlt : ∀ a b : Timestamp, Timestamp.ltb a b = true ↔ Before a b := order_strict_total.1
  induction l generalizing a with
  | nil => exact ⟨fun t ht => by rw [List.mem_singleton] at ht; subst ht; simp [Before], by simp⟩
  | cons b l ih =>
    rw [List.foldl_cons]
    by_cases h : Timestamp.ltb a b = true
    · have hm : tsMax a b = b := by simp [tsMax, h]
      rw [hm]
      obtain ⟨h1, h2⟩ := ih b
      refine ⟨fun t ht => ?_, List.mem_cons_of_mem _ h2⟩
      rcases List.mem_cons.1 ht with rfl | ht
      · have := h1 b (List.mem_cons_self ..)
        rw [hlt] at h
        unfold Before at *; omega
      · exact h1 t ht
    · have hm : tsMax a b = a := by simp [tsMax, h]
      rw [hm]
      obtain ⟨h1, h2⟩ := ih a
      refine ⟨fun t ht => ?_, ?_⟩
      · rcases List.mem_cons.1 ht with rfl | ht
        · exact h1 t (List.mem_cons_self ..)
        · rcases List.mem_cons.1 ht with rfl | ht
          · have := h1 a (List.mem_cons_self ..)
            rw [hlt] at h
            unfold Before at *; omega
          · exact h1 t (List.mem_cons_of_mem _ ht)
      · rcases List.mem_cons.1 h2 with h2 | h2
        · rw [h2]; exact List.mem_cons_self ..
        · exact List.mem_cons_of_mem _ (List.mem_cons_of_mem _ h2)

/-! ## The clock -/

/-- What happens to the clock: a cell is run (`data_model/cell.py` 373-375), the tracer is reset (`shell/interactiveshell.py` 275, which
sets the statement counter to 0, `tracing/ipyflow_tracer.py` 181), a top-level statement is finished (`tracing/ipyflow_tracer.py` 1578), a
timestamp is taken (`data_model/timestamp.py` 41-50, offsets 0). -/
inductive Tick where
  | run
  | reset
  | done
  | stamp
  deriving DecidableEq

/-- The two counters, and the timestamps taken so far, latest first. -/
structure Clk where
  cell : Int
  stmt : Int
  taken : List Timestamp
  deriving DecidableEq

/-- One step of the clock, see `Tick`. -/
def tick (s : Clk) : Tick → Clk
  | .run => { s with cell := s.cell + 1 }
  | .reset => { s with stmt := 0 }
  | .done => { s with stmt := s.stmt + 1 }
  | .stamp => { s with taken := ⟨s.cell, s.stmt⟩ :: s.taken }

/-- The tracer is reset only when a run has begun and no timestamp has been taken in it; `fresh` says that this is so now. -/
def ResetsFirst : Bool → List Tick → Prop
  | _, [] => True
  | _, .run :: l => ResetsFirst true l
  | fresh, .reset :: l => fresh = true ∧ ResetsFirst fresh l
  | fresh, .done :: l => ResetsFirst fresh l
  | _, .stamp :: l => ResetsFirst false l

/-- **C48**, the clock (partial): later timestamps are never smaller, provided none is taken between the start of a run and the reset of
the tracer. Missing: runs where one is. -/
theorem clock_partial (ts : List Tick) (c : Int) (h : ResetsFirst true ts) :
    (ts.foldl tick ⟨c, 0, []⟩).taken.Pairwise fun later earlier => ¬ Before later earlier := by
  suffices H : ∀ (ts : List Tick) (fresh : Bool) (s : Clk), ResetsFirst fresh ts →
      (s.taken.Pairwise fun later earlier => ¬ Before later earlier) →
      (∀ t ∈ s.taken, t.cellNum ≤ s.cell ∧ (fresh = true → t.cellNum < s.cell) ∧ ¬ Before ⟨s.cell, s.stmt⟩ t) →
      ((ts.foldl tick s).taken.Pairwise fun later earlier => ¬ Before later earlier) from
    H ts true ⟨c, 0, []⟩ h List.Pairwise.nil (by simp)
  intro ts
  induction ts with
  | nil => intro _ _ _ h _; exact h
  | cons e ts ih =>
    intro fresh s hr hp hs
    cases e with
    | run =>
      refine ih true (tick s .run) hr hp fun t ht => ?_
      have := hs t ht
      simp only [tick, Before] at this ⊢
      exact ⟨by omega, fun _ => by omega, by omega⟩
    | reset =>
      refine ih fresh (tick s .reset) hr.2 hp fun t ht => ?_
      have := hs t ht
      have h2 := this.2.1 hr.1
      simp only [tick, Before] at this ⊢
      exact ⟨this.1, this.2.1, by omega⟩
    | done =>
      refine ih fresh (tick s .done) hr hp fun t ht => ?_
      have := hs t ht
      simp only [tick, Before] at this ⊢
      exact ⟨this.1, this.2.1, by omega⟩
    | stamp =>
      refine ih false (tick s .stamp) hr ?_ fun t ht => ?_
      · simp only [tick]
        exact List.pairwise_cons.2 ⟨fun t ht => (hs t ht).2.2, hp⟩
      · simp only [tick] at ht ⊢
        rcases List.mem_cons.1 ht with rfl | ht
        · exact ⟨le_rfl, by simp, by simp [Before]⟩
        · exact ⟨(hs t ht).1, by simp, (hs t ht).2.2⟩

example : ResetsFirst true [.run, .reset, .stamp, .done, .stamp, .stamp, .run, .reset, .stamp] := by simp [ResetsFirst]

/-- The hypothesis is needed: the clock goes back if a timestamp is taken between the start of a run and the reset of the tracer (the
precheck runs there, `shell/interactiveshell.py` 593-596; it takes the times of static uses from the statements instead of the clock). -/
example : ¬ ([Tick.run, .reset, .done, .done, .run, .stamp, .reset, .stamp].foldl tick ⟨0, 0, []⟩).taken.Pairwise
    fun later earlier => ¬ Before later earlier := by
  have : ([Tick.run, .reset, .done, .done, .run, .stamp, .reset, .stamp].foldl tick ⟨0, 0, []⟩).taken = [⟨2, 0⟩, ⟨2, 2⟩] := by decide
  rw [this]
  simp [Before]

end Verif.Clock
