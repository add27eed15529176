import Verif.Edges.Lemmas

set_option linter.unusedSectionVars false

/-! # Properties of the edge tables (C11, C12, C57, C58) -/

namespace Verif.Edges
open Verif
variable {ι σ : Type} [DecidableEq ι] [DecidableEq σ]

/-- C11, partial: in every history whose self edges are recorded while the cell's previous version is intact, a recorded
parent edge has the matching child edge. Missing from the full claim: histories with a self edge recorded after the
clean-up of a re-run, where it fails (`edges_symmetric_violated`). -/
theorem edges_symmetric_partial (ops : List (Op ι σ)) (hself : SelfEdgesEarly ops) (hadopt : AdoptsAtOnce ops)
    (c p : ι) (x : σ) (h : x ∈ (run St.init ops : St ι σ).par c p) : x ∈ (run St.init ops : St ι σ).chi p c :=
  (inv_run ops hself hadopt).sym c p h

/-- C57: once a run has finished its clean-up, a cell is listed as a child only by cells it lists as parents. No
restriction on self edges is needed. -/
theorem no_orphan_children (ops : List (Op ι σ)) (hfin : RunsFinish ops) (hadopt : AdoptsAtOnce ops)
    (c p : ι) (hdone : ¬ Pending ops c) (x : σ) (h : x ∈ (run St.init ops : St ι σ).chi p c) :
    x ∈ (run St.init ops : St ι σ).par c p := by
  rcases (invBack_run ops hfin hadopt).back c p x h with h' | h'
  · exact h'
  · exact absurd h'.1 hdone

/-- C12, first half: no cell is ever its own parent, whatever the history. -/
theorem no_self_parent (ops : List (Op ι σ)) (c : ι) : (run St.init ops : St ι σ).par c c = ∅ := (noSelf_run ops c).1

/-- C12, second half, partial: two cells are never each other's parent, in histories whose self edges are recorded while
the cell's previous version is intact. It fails otherwise (`two_cycle_violated`). -/
theorem no_two_cycle_partial (ops : List (Op ι σ)) (hself : SelfEdgesEarly ops) (hadopt : AdoptsAtOnce ops)
    (c p : ι) (h : (run St.init ops : St ι σ).par c p ≠ ∅) : (run St.init ops : St ι σ).par p c = ∅ :=
  (inv_run ops hself hadopt).two c p h

/-- C58: replacing statement `p` by a new statement `q` succeeds and yields the same graph with `q` in place of `p`. -/
theorem stmt_override_renames (s : St ι σ) (p q : ι) (hpq : p ≠ q) (hsym : ∀ x y, s.par x y = s.chi y x)
    (hself : s.par p p = ∅) (hnew : ∀ x, s.par q x = ∅ ∧ s.par x q = ∅)
    (children parents : List ι) (hcn : children.Nodup) (hpn : parents.Nodup)
    (hc : ∀ c, c ∈ children ↔ s.chi p c ≠ ∅) (hp : ∀ r, r ∈ parents ↔ s.par p r ≠ ∅) :
    ∃ s', overrideStmt s p q children parents = .ok s' ∧ (∀ x y, s'.par x y = s'.chi y x) ∧
      (∀ x, s'.par p x = ∅ ∧ s'.par x p = ∅) ∧
      ∀ x y, x ≠ p → y ≠ p → s'.par x y = s.par (if x = q then p else x) (if y = q then p else y) := by
  obtain ⟨s1, h1, hsym1, hpar1⟩ := replaceParents_ok p q hpq children s hcn hsym
    (fun c h => by rw [hsym]; exact (hc c).1 h) (fun c _ => (hnew c).2)
  have hpc : p ∉ children := by rw [hc, ← hsym]; simp [hself]
  have hqc : q ∉ children := by rw [hc, ← hsym]; simp [(hnew p).1]
  obtain ⟨s2, h2, hsym2, hpar2⟩ := replaceChildren_ok p q hpq parents s1 hpn hsym1
    (fun r h => by rw [hpar1, if_neg hpc]; exact (hp r).1 h) (fun r _ => by rw [hpar1, if_neg hqc]; exact (hnew r).1)
  have hcp : ∀ x, x ∉ children → s.par x p = ∅ := by
    intro x hx; rw [hc, ← hsym] at hx; simpa using hx
  have hpp : ∀ y, y ∉ parents → s.par p y = ∅ := by
    intro y hy; rw [hp] at hy; simpa using hy
  have hqp : q ∉ parents := by rw [hp]; simp [(hnew p).2]
  have hppar : p ∉ parents := by rw [hp]; simp [hself]
  refine ⟨s2, by unfold overrideStmt; rw [h1]; exact h2, hsym2, ?_, ?_⟩
  · intro x
    constructor
    · rw [hpar2, hpar1]
      split
      · simp
      · rename_i hx
        exact hpp x hx
    · rw [hpar2, if_neg hppar, hpar1]
      split
      · simp
      · rename_i hx; exact hcp x hx
  · intro x y hxp hyp
    rw [hpar2, hpar1, hpar1]
    by_cases hy : y ∈ parents
    · have hyq : y ≠ q := fun e => hqp (e ▸ hy)
      rw [if_pos hy, if_neg hxp, if_neg hyq]
      by_cases hx : x = q
      · simp [hx, hpc, hyq]
      · simp [hx, hyp, hyq]
    · rw [if_neg hy]
      by_cases hx : x = q
      · subst hx
        rw [if_neg hqc]
        by_cases hyq : y = x
        · subst hyq; simp [(hnew y).1, hself]
        · simp [hyq, hpp y hy, (hnew y).1]
      · simp only [hx, if_false, hyp]
        by_cases hyq : y = q
        · subst hyq
          simp only [if_true]
          by_cases hxc : x ∈ children
          · simp [hxc]
          · simp [hxc, hcp x hxc, (hnew x).2]
        · simp only [hyq, if_false, ite_self]

/-! ## Concrete cases -/

/-- Cells 1 and 2; symbol 0 is `x`. Cell 1 is `x = 0`, cell 2 is `x = x + 1`; cell 2 runs, is re-run with the self edge
recorded early, and cleaned up. -/
def earlyOps : List (Op Nat Nat) := [.add 2 1 {0}, .cleanup 2 ∅, .rerun 2, .add 2 2 {0}, .cleanup 2 ∅]

theorem earlyOps_self : SelfEdgesEarly earlyOps := by
  intro a c syms b h
  match a, h with
  | [], h => simp [earlyOps] at h; omega
  | [_], h => simp [earlyOps] at h
  | [_, _], h => simp [earlyOps] at h
  | [o1, o2, o3], h =>
    simp only [earlyOps, List.cons_append, List.nil_append, List.cons.injEq, Op.add.injEq] at h
    obtain ⟨rfl, rfl, rfl, ⟨rfl, _, rfl⟩, rfl⟩ := h
    exact .inr ⟨[.add 2 1 {0}, .cleanup 2 ∅], [], rfl, by simp⟩
  | [_, _, _, _], h => simp [earlyOps] at h
  | _ :: _ :: _ :: _ :: _ :: a, h =>
    have := congrArg List.length h
    simp [earlyOps] at this

theorem earlyOps_adopt : AdoptsAtOnce earlyOps := by
  intro a c b h
  have : Op.adopt c ∈ earlyOps := by rw [h]; simp
  simp [earlyOps] at this

/-- The history above meets the hypotheses of the two `_partial` theorems, and the edge is there. -/
example : SelfEdgesEarly earlyOps ∧ AdoptsAtOnce earlyOps ∧ (run St.init earlyOps).par 2 1 = {0} ∧
    (run St.init earlyOps).chi 1 2 = {0} := ⟨earlyOps_self, earlyOps_adopt, by decide, by decide⟩

/-- `x = 0` in cell 1, `x = x + 1` in cell 2, cell 2 run twice. In the second run the reads of `x` refer to the previous
version of cell 2, which is not current, so no edge is recorded (`flow.py` 440); the clean-up drops the child entry of
cell 1; the second check after the run records `x` as coming from cell 2 itself and inherits the parent. -/
def lateOps : List (Op Nat Nat) := [.add 2 1 {0}, .cleanup 2 ∅, .rerun 2, .cleanup 2 ∅, .add 2 2 {0}]

/-- C11 fails: cell 2 lists parent 1, but cell 1 does not list child 2. -/
theorem edges_symmetric_violated :
    ∃ ops : List (Op Nat Nat), AdoptsAtOnce ops ∧ RunsFinish ops ∧
      0 ∈ (run St.init ops).par 2 1 ∧ (run St.init ops).chi 1 2 = ∅ := by
  refine ⟨lateOps, ?_, ?_, by decide, by decide⟩
  · intro a c b h
    have : Op.adopt c ∈ lateOps := by rw [h]; simp
    simp [lateOps] at this
  · intro a c b h
    match a, h with
    | [], h => simp [lateOps] at h
    | [_], h => simp [lateOps] at h
    | [o1, o2], h =>
      simp only [lateOps, List.cons_append, List.nil_append, List.cons.injEq] at h
      obtain ⟨rfl, rfl, _⟩ := h
      rintro ⟨a', b', h', _⟩
      have : Op.rerun c ∈ ([.add 2 1 {0}, .cleanup 2 ∅] : List (Op Nat Nat)) := by rw [h']; simp
      simp at this
    | [_, _, _], h => simp [lateOps] at h
    | [_, _, _, _], h => simp [lateOps] at h
    | _ :: _ :: _ :: _ :: _ :: a, h =>
      have := congrArg List.length h
      simp [lateOps] at this

/-- C12 fails: after the history above cell 1 is edited to read symbol 1, written by cell 2; the edge is accepted because
cell 1 does not list child 2, and the two cells are each other's parent. -/
theorem two_cycle_violated :
    ∃ ops : List (Op Nat Nat), (run St.init ops).par 2 1 ≠ ∅ ∧ (run St.init ops).par 1 2 ≠ ∅ :=
  ⟨lateOps ++ [.rerun 1, .add 1 2 {1}], by decide, by decide⟩

/-- A case for `no_orphan_children`: after the re-run of cell 2 without reading `x`, cell 1 no longer lists it. -/
example : (run St.init ([.add 2 1 {0, 5}, .cleanup 2 ∅, .rerun 2, .add 2 1 {5}, .cleanup 2 ∅] : List (Op Nat Nat))).chi 1 2
    = {5} := by decide

/-- A case for `stmt_override_renames`: statement 1 with parent 0 and child 2 is replaced by statement 9. -/
example : ∃ s, overrideStmt (run St.init ([.add 1 0 {0}, .add 2 1 {1}] : List (Op Nat Nat))) 1 9 [2] [0] = .ok s ∧
    s.par 9 0 = {0} ∧ s.par 2 9 = {1} ∧ s.chi 0 9 = {0} ∧ s.par 2 1 = ∅ :=
  ⟨_, rfl, by decide, by decide, by decide, by decide⟩

end Verif.Edges
