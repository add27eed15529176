import Verif.Sched.Model
import Mathlib.Logic.Relation

/-!
# What the schedule should be

Relations over a notebook snapshot, written without the functions of the model: they read only the fields of `World`.
-/

namespace Verif.Sched
open Verif Verif.Slice

variable {ι σ : Type} [DecidableEq ι] [DecidableEq σ]

/-- Cell `x` records parent `p` for symbols `S` in context `c`, and the flow order lets it count. -/
def Entry (w : World ι σ) (c : Ctx) (x p : ι) (S : Finset σ) : Prop :=
  (p, S) ∈ w.parents c x ∧ (w.flowOrder = .inOrder → w.pos p < w.pos x)

/-- `x` depends directly on `p` in some enabled context. -/
def DependsOn (w : World ι σ) (x p : ι) : Prop := ∃ c ∈ w.ctxs, ∃ S, Entry w c x p S

/-- The symbols of an entry that count for `x`. -/
def Counts (w : World ι σ) (x : ι) (S : Finset σ) (s : σ) : Prop := s ∈ S ∧ s ∉ w.removed x

/-- An entry carries timestamp `t` if some counting, real symbol of it was last written at `t`. -/
def Carries (w : World ι σ) (x : ι) (S : Finset σ) (t : Timestamp) : Prop :=
  ∃ s, Counts w x S s ∧ s ≠ w.fake ∧ w.shallowTs s = t

/-- All entries of `x`, context after context. -/
def allEntries (w : World ι σ) (x : ι) : List (ι × Finset σ) :=
  w.ctxs.flatMap fun c => (w.parents c x).filter fun e => decide (w.flowOrder = .inOrder → w.pos e.1 < w.pos x)

/-- `p` is the lowest parent in the notebook that supplies timestamp `t` to `x`; among several at the same position the
one recorded last. -/
def IsLatest (w : World ι σ) (x : ι) (t : Timestamp) (p : ι) : Prop :=
  ∃ before S after, allEntries w x = before ++ (p, S) :: after ∧ Carries w x S t ∧
    (∀ e ∈ before, Carries w x e.2 t → w.pos e.1 ≤ w.pos p) ∧
    (∀ e ∈ after, Carries w x e.2 t → w.pos e.1 < w.pos p)

/-- Parent `p` has something newer for `x` than what `x` last saw. -/
def Fresher (w : World ι σ) (x p : ι) (S : Finset σ) : Prop :=
  (w.ctr x < w.ctr p ∧ w.minTimestamp < w.ctr p ∧
      (w.pull = true ∨ ∃ s, Counts w x S s ∧ (w.shallowTs s).cellNum = w.ctr p)) ∨
    ∃ s v, Counts w x S s ∧ w.visibleTs s = some v ∧ v.cellNum ≠ (w.shallowTs s).cellNum ∧ v.cellNum = w.ctr p

/-- In static in-order analysis a parent strictly below `p` supplies all the same symbols. -/
def Shadowed (w : World ι σ) (c : Ctx) (x p : ι) (S : Finset σ) : Prop :=
  w.flowOrder = .inOrder ∧ c = .static ∧
    ∃ q T, Entry w c x q T ∧ w.pos p < w.pos q ∧ ((∀ s, Counts w x S s → s ∈ T) ∨ w.fake ∈ T)

/-- In-order semantics considers `p` only if it is the lowest supplier of one of the symbols (or an inserted edge). -/
def Relevant (w : World ι σ) (x p : ι) (S : Finset σ) : Prop :=
  w.flowOrder = .inOrder → Counts w x S w.fake ∨ ∃ s, Counts w x S s ∧ IsLatest w x (w.shallowTs s) p

/-- `x` has a stale recorded input. -/
def StaleInput (w : World ι σ) (x : ι) : Prop :=
  ∃ c ∈ w.ctxs, ∃ p S, Entry w c x p S ∧
    ((Counts w x S w.fake ∧ w.ctr x < 0 ∧ 0 < w.ctr p) ∨
      (Relevant w x p S ∧ Fresher w x p S ∧ ¬ Shadowed w c x p S))

/-- `x` reads (according to the checker) a symbol newer than its own last run. -/
def StaleLive (w : World ι σ) (x : ι) (chk : Check σ) : Prop :=
  w.ctr x < chk.maxUsed ∧ w.minTimestamp < chk.maxUsed

/-- The liveness schedule makes `x` wait: it reads a stale or an unknown symbol. -/
def LiveWaits (w : World ι σ) (x : ι) : Prop :=
  w.schedule = .liveness ∧ ∃ chk, w.check x = some chk ∧ (chk.waitingSyms.Nonempty ∨ chk.unresolved = true)

/-- Cell `x` needs re-running, judged on its own. -/
def NeedsRerun (w : World ι σ) (x : ι) : Prop :=
  ∃ chk, w.check x = some chk ∧ ¬ LiveWaits w x ∧
    ((w.schedule ≠ .liveness ∧ StaleInput w x) ∨
      ((w.schedule = .liveness ∨ (w.schedule = .hybrid ∧ w.flowOrder = .inOrder)) ∧ StaleLive w x chk))

/-- One step downstream inside the checked cells. -/
def Downstream (w : World ι σ) (cells : List ι) (p x : ι) : Prop := x ∈ cells ∧ DependsOn w x p

/-- `x` is blocked: one or more dependency steps below a checked cell that needs re-running. -/
def Blocked (w : World ι σ) (cells : List ι) (x : ι) : Prop :=
  ∃ s ∈ cells, NeedsRerun w s ∧ Relation.TransGen (Downstream w cells) s x

/-- Every deep, initialized live timestamp of `x` belongs to a cell the registry knows. -/
def OwnersKnown (w : World ι σ) (x : ι) : Prop :=
  w.flowOrder = .inOrder → ∀ chk, w.check x = some chk → ∀ t, (true, t) ∈ chk.liveTimes → t.isInitialized = true →
    ∃ u, w.ownerOf t.cellNum = some u

/-- `x` uses a fully resolved symbol last updated by `u`, which stands below `x`. -/
def UsesFromBelow (w : World ι σ) (x u : ι) : Prop :=
  w.flowOrder = .inOrder ∧ ∃ chk t, w.check x = some chk ∧ (true, t) ∈ chk.liveTimes ∧ t.isInitialized = true ∧
    w.ownerOf t.cellNum = some u ∧ w.pos x < w.pos u

/-- Running `m` can make the waiting cell `x` runnable: under the DAG-like schedules `m` is an unsettled dependency of `x`;
under the liveness schedule `m` overwrites a stale symbol that `x` reads. The flow order must allow it, and the cell that
was just run does not count. `ready` and `waiting` are the reported sets. -/
def MadeReadyBy (w : World ι σ) (cells : List ι) (ready waiting : Finset ι) (x m : ι) : Prop :=
  ((w.schedule ≠ .liveness ∧ DependsOn w x m ∧ (m ∈ ready ∨ m ∈ waiting)) ∨
    (w.schedule = .liveness ∧ x ∈ cells ∧ m ∈ cells ∧ ∃ chk chk' s, w.check x = some chk ∧ s ∈ chk.waitingSyms ∧
      w.check m = some chk' ∧ s ∈ chk'.dead)) ∧
  (w.flowOrder = .inOrder → w.pos m < w.pos x) ∧ w.lastExecuted ≠ some m

/-- `r` can be reached from `x` by following `R` through cells of `W`. -/
inductive LinkReach {ι : Type} (W : Finset ι) (R : ι → ι → Prop) : ι → ι → Prop
  | direct {x r} : R x r → LinkReach W R x r
  | through {x y r} : R x y → y ∈ W → LinkReach W R y r → LinkReach W R x r

end Verif.Sched
