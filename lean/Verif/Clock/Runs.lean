import Verif.Clock.Props

/-!
# C73: the clock over whole runs

`Props` has the clock with the events that move it. Here the order of these events in a run is the one of the code, and the number of a run is the one that `create_and_track` gives it, with
the count that IPython keeps: `core/ipyflow/data_model/cell.py` 373-386, `core/ipyflow/utils/ipython_utils.py` 20-26 and 72-75, the reset of the tracer in
`core/ipyflow/shell/interactiveshell.py` 273-275.

Taken from IPython: its count is the number of the next run, it grows by one after every run that is kept in the history, and not after others. Simplified: every run is traced, none is
inside another one (for those see area Nest), and no timestamp is taken before the reset. -/

namespace Verif.Clock.Runs
open Verif Verif.Clock

/-- What happens in a run: a top-level statement is finished (`ipyflow_tracer.py` 1578), a timestamp is taken (`timestamp.py` 41-50). -/
inductive Do where
  | done
  | stamp
  deriving DecidableEq

/-- A run: whether it is kept in the history of IPython (`store_history`, `interactiveshell.py` 574), and what happens in it. -/
structure Run where
  stored : Bool
  body : List Do

/-- The counters of ipyflow, the count of IPython, and the timestamps taken so far, latest first; `cell.py` 80, `timestamp.py` 41-50. -/
structure Now where
  cell : Int
  stmt : Int
  host : Int
  taken : List Timestamp

/-- Before the first run: `cell.py` 80. -/
def start : Now := ⟨0, 0, 1, []⟩

/-- The number of a run, `cell.py` 373-386. -/
def number (s : Now) (stored : Bool) : Int :=
  if stored = true ∧ s.cell + 1 ≠ s.host then s.host else s.cell + 1

/-- One event in a run, `timestamp.py` 41-50, `ipyflow_tracer.py` 1578. -/
def act (s : Now) : Do → Now
  | .done => { s with stmt := s.stmt + 1 }
  | .stamp => { s with taken := ⟨s.cell, s.stmt⟩ :: s.taken }

/-- One run: numbered (`cell.py` 373-386), the tracer reset (`interactiveshell.py` 275), the code run, and IPython's count moved on. -/
def exec (s : Now) (r : Run) : Now :=
  let t := r.body.foldl act { s with cell := number s r.stored, stmt := 0 }
  { t with host := if r.stored then t.host + 1 else t.host }

/-- A history, oldest run first; the two counters of `timestamp.py` 41-50. -/
def after (rs : List Run) : Now := rs.foldl exec start

/-! ## Specification -/

/-- Of any two timestamps the one that was taken later is not smaller. -/
def NeverBack (l : List Timestamp) : Prop := l.Pairwise fun later earlier => ¬ Before later earlier

theorem act_cell (l : List Do) (s : Now) : (l.foldl act s).cell = s.cell ∧ (l.foldl act s).host = s.host ∧ s.stmt ≤ (l.foldl act s).stmt := by
  induction l generalizing s with
  | nil => exact ⟨rfl, rfl, le_refl _⟩
  | cons e l ih =>
    obtain ⟨a, b, c⟩ := ih (act s e)
    rw [List.foldl_cons]
    cases e <;> simp only [act] at a b c ⊢ <;> exact ⟨a, b, by omega⟩

theorem act_back (l : List Do) (s : Now) (hp : NeverBack s.taken) (hs : ∀ t ∈ s.taken, ¬ Before ⟨s.cell, s.stmt⟩ t) (hc : ∀ t ∈ s.taken, t.cellNum ≤ s.cell) :
    NeverBack (l.foldl act s).taken ∧ (∀ t ∈ (l.foldl act s).taken, t.cellNum ≤ s.cell) := by
  induction l generalizing s with
  | nil => exact ⟨hp, hc⟩
  | cons e l ih =>
    rw [List.foldl_cons]
    cases e with
    | done =>
      refine ih (act s .done) hp (fun t ht => ?_) hc
      have := hs t ht
      simp only [act, Before] at this ⊢
      omega
    | stamp =>
      refine ih (act s .stamp) (List.pairwise_cons.2 ⟨hs, hp⟩) (fun t ht => ?_) (fun t ht => ?_)
      · rcases List.mem_cons.1 ht with rfl | ht
        · simp [act, Before]
        · exact hs t ht
      · rcases List.mem_cons.1 ht with rfl | ht
        · simp [act]
        · exact hc t ht

theorem taken_prefix (l : List Do) (s : Now) : ∃ p, (l.foldl act s).taken = p ++ s.taken := by
  induction l generalizing s with
  | nil => exact ⟨[], rfl⟩
  | cons e l ih =>
    rw [List.foldl_cons]
    obtain ⟨p, hp⟩ := ih (act s e)
    cases e with
    | done => exact ⟨p, by rw [hp]; rfl⟩
    | stamp => exact ⟨p ++ [⟨s.cell, s.stmt⟩], by rw [hp]; simp [act]⟩

/-- A run that gets the next number does not move the clock back. -/
theorem exec_next {s : Now} {r : Run} (hn : number s r.stored = s.cell + 1) (hp : NeverBack s.taken) (hc : ∀ t ∈ s.taken, t.cellNum ≤ s.cell) :
    NeverBack (exec s r).taken ∧ (∀ t ∈ (exec s r).taken, t.cellNum ≤ (exec s r).cell) ∧ (exec s r).cell = s.cell + 1 ∧
      (exec s r).host = if r.stored then s.host + 1 else s.host := by
  have h := act_back r.body { s with cell := number s r.stored, stmt := 0 } hp (fun t ht => by
    have := hc t ht
    simp only [Before, hn]
    omega) (fun t ht => by
    have := hc t ht
    simp only [hn]
    omega)
  obtain ⟨h1, h2, h3⟩ := act_cell r.body { s with cell := number s r.stored, stmt := 0 }
  refine ⟨h.1, ?_, ?_, ?_⟩
  · intro t ht
    have := h.2 t ht
    simp only [exec, h1]
    exact this
  · exact h1.trans hn
  · simp only [exec, h2]

theorem stored_inv (rs : List Run) (h : ∀ r ∈ rs, r.stored = true) (s : Now) (hh : s.host = s.cell + 1) (hp : NeverBack s.taken) (hc : ∀ t ∈ s.taken, t.cellNum ≤ s.cell) :
    (rs.foldl exec s).host = (rs.foldl exec s).cell + 1 ∧ NeverBack (rs.foldl exec s).taken ∧ (∀ t ∈ (rs.foldl exec s).taken, t.cellNum ≤ (rs.foldl exec s).cell) ∧
      (rs.foldl exec s).cell = s.cell + rs.length := by
  induction rs generalizing s with
  | nil => exact ⟨hh, hp, hc, by simp⟩
  | cons r rs ih =>
    have hr := h r (by simp)
    obtain ⟨a, b, c, d⟩ := exec_next (s := s) (r := r) (by simp [number, hh]) hp hc
    obtain ⟨e, f, g, i⟩ := ih (fun x hx => h x (by simp [hx])) (exec s r) (by rw [d, c, hr]; simp [hh]) a b
    rw [List.foldl_cons]
    refine ⟨e, f, g, ?_⟩
    rw [i, c]
    simp
    omega

theorem unstored_inv (rs : List Run) (h : ∀ r ∈ rs, r.stored = false) (s : Now) (hp : NeverBack s.taken) (hc : ∀ t ∈ s.taken, t.cellNum ≤ s.cell) :
    NeverBack (rs.foldl exec s).taken := by
  induction rs generalizing s with
  | nil => exact hp
  | cons r rs ih =>
    obtain ⟨a, b, -, -⟩ := exec_next (s := s) (r := r) (by simp [number, h r (by simp)]) hp hc
    exact ih (fun x hx => h x (by simp [hx])) (exec s r) a b

/-- **C73** (partial): whatever happens in the runs, timestamps never go back, and the runs are numbered one by one, if no run that is kept in the history follows one that is not.

Full statement: for all runs. It is false, see `goes_back`. -/
theorem runs_partial (kept others : List Run) (hk : ∀ r ∈ kept, r.stored = true) (ho : ∀ r ∈ others, r.stored = false) :
    NeverBack (after (kept ++ others)).taken ∧ (after kept).cell = kept.length := by
  obtain ⟨-, b, c, d⟩ := stored_inv kept hk start rfl List.Pairwise.nil (by simp [start])
  refine ⟨?_, by
    change (after kept).cell = 0 + (kept.length : Int) at d
    omega⟩
  rw [after, List.foldl_append]
  exact unstored_inv others ho _ b c

theorem done_moves (l : List Do) (s : Now) (h : Do.done ∈ l) : s.stmt < (l.foldl act s).stmt := by
  induction l generalizing s with
  | nil => simp at h
  | cons e l ih =>
    rw [List.foldl_cons]
    cases e with
    | done =>
      have := (act_cell l (act s .done)).2.2
      simp only [act] at this ⊢
      omega
    | stamp =>
      have := ih (act s .stamp) (by simpa using h)
      simpa [act] using this

theorem back_step (s : Now) (a : s.host = s.cell + 1) (pre post : List Do) (hd : Do.done ∈ pre) :
    (exec (exec s ⟨false, pre ++ [.stamp]⟩) ⟨true, .stamp :: post⟩).cell = (exec s ⟨false, pre ++ [.stamp]⟩).cell ∧
      ¬ NeverBack (exec (exec s ⟨false, pre ++ [.stamp]⟩) ⟨true, .stamp :: post⟩).taken := by
  obtain ⟨h1, h2, -⟩ := act_cell pre { s with cell := s.cell + 1, stmt := 0 }
  have h3 := done_moves pre { s with cell := s.cell + 1, stmt := 0 } hd
  obtain ⟨t, ht⟩ : ∃ t, t = exec s ⟨false, pre ++ [.stamp]⟩ := ⟨_, rfl⟩
  have hcell : t.cell = s.cell + 1 := by
    rw [ht]
    simp only [exec, number, List.foldl_append, List.foldl_cons, List.foldl_nil, act, Bool.false_eq_true, false_and, if_false]
    exact h1
  have hhost : t.host = s.cell + 1 := by
    rw [ht]
    simp only [exec, number, List.foldl_append, List.foldl_cons, List.foldl_nil, act, Bool.false_eq_true, false_and, if_false]
    exact h2.trans a
  obtain ⟨n, q, hn, hq⟩ : ∃ n q, 0 < n ∧ t.taken = ⟨s.cell + 1, n⟩ :: q := by
    rw [ht]
    refine ⟨_, (pre.foldl act { s with cell := s.cell + 1, stmt := 0 }).taken, h3, ?_⟩
    simp only [exec, number, List.foldl_append, List.foldl_cons, List.foldl_nil, act, Bool.false_eq_true, false_and, if_false]
    rw [h1]
  have hnum : number t true = s.cell + 1 := by
    simp [number, hcell, hhost]
  rw [← ht]
  constructor
  · exact ((act_cell _ _).1.trans hnum).trans hcell.symm
  · obtain ⟨p, hp⟩ := taken_prefix post (act { t with cell := number t true, stmt := 0 } .stamp)
    have : (exec t ⟨true, .stamp :: post⟩).taken = p ++ ⟨s.cell + 1, 0⟩ :: ⟨s.cell + 1, n⟩ :: q := by
      refine hp.trans ?_
      simp only [act, hnum, hq]
    rw [this]
    intro hnb
    have h4 := (List.pairwise_append.1 hnb).2.1
    have h5 := (List.pairwise_cons.1 h4).1 ⟨s.cell + 1, n⟩ (by simp)
    exact h5 (.inr ⟨rfl, hn⟩)

/-- **C73** (violated): after a run that is not kept in the history the next one that is kept gets the same number. If a timestamp was taken after a finished statement of the first, then the
timestamp taken at the start of the second is smaller. -/
theorem goes_back (kept : List Run) (hk : ∀ r ∈ kept, r.stored = true) (pre post : List Do) (hd : Do.done ∈ pre) :
    (after (kept ++ [⟨false, pre ++ [.stamp]⟩, ⟨true, .stamp :: post⟩])).cell = (after (kept ++ [⟨false, pre ++ [.stamp]⟩])).cell ∧
      ¬ NeverBack (after (kept ++ [⟨false, pre ++ [.stamp]⟩, ⟨true, .stamp :: post⟩])).taken := by
  obtain ⟨a, -, -, -⟩ := stored_inv kept hk start rfl List.Pairwise.nil (by simp [start])
  have := back_step (after kept) a pre post hd
  simpa only [after, List.foldl_append, List.foldl_cons, List.foldl_nil] using this

/-- Two runs, a statement each; then one that is not kept, and one that is. -/
example : (after [⟨true, [.stamp, .done, .stamp]⟩, ⟨true, [.stamp, .done]⟩, ⟨false, [.done, .stamp]⟩, ⟨true, [.stamp]⟩]).taken = [⟨3, 0⟩, ⟨3, 1⟩, ⟨2, 0⟩, ⟨1, 1⟩, ⟨1, 0⟩] := by
  decide

example : (∀ r ∈ [(⟨true, [.stamp, .done, .stamp]⟩ : Run), ⟨true, [.stamp, .done]⟩], r.stored = true) ∧ Do.done ∈ [Do.done] := by simp

/-- **C73** (violated): that timestamps never go back is false. -/
theorem clock_claim_false : ¬ ∀ rs : List Run, NeverBack (after rs).taken := fun q =>
  (goes_back [⟨true, [.stamp, .done]⟩] (by simp) [.done] [] (by simp)).2 (q _)

end Verif.Clock.Runs
