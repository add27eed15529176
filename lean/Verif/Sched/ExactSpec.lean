import Verif.Sched.Spec

/-!
# What newly ready, forced and linked should mean

Relations over a notebook snapshot that read only the fields of `World`, like those of `Verif.Sched.Spec`.
-/

namespace Verif.Sched
open Verif Verif.Slice

variable {ι σ : Type} [DecidableEq ι] [DecidableEq σ]

/-- `x` has a stale recorded input from a run that belongs to what is going on: not before run `minNewReady`. -/
def NewInput (w : World ι σ) (x : ι) : Prop :=
  ∃ c ∈ w.ctxs, ∃ p S, Entry w c x p S ∧ Relevant w x p S ∧ Fresher w x p S ∧ ¬ Shadowed w c x p S ∧ w.minNewReady ≤ w.ctr p

/-- `x` is outdated because of a run that belongs to what is going on. -/
def NewsFor (w : World ι σ) (x : ι) : Prop :=
  (w.schedule ≠ .liveness ∧ NewInput w x) ∨
    ((w.schedule = .liveness ∨ (w.schedule = .hybrid ∧ w.flowOrder = .inOrder)) ∧
      ∃ chk, w.check x = some chk ∧ StaleLive w x chk ∧ w.minNewReady ≤ chk.maxUsed)

/-- The cell stands below the one that was run last, if the order matters. -/
def Below (w : World ι σ) (x : ι) : Prop := w.flowOrder = .inOrder → ∀ l, w.lastExecuted = some l → w.pos l < w.pos x

/-- `x` reads a symbol newer than its own last run, in one of the two ways of reading that force a cell (`used`), and not older than what forces cells now. A cell has
been run, and `x` does not stand above it if the order matters. -/
def ForcedBy (w : World ι σ) (used : Check σ → Int) (x : ι) : Prop :=
  ∃ l chk, w.lastExecuted = some l ∧ w.check x = some chk ∧ (w.flowOrder = .inOrder → w.pos l ≤ w.pos x) ∧
    w.ctr x < used chk ∧ w.minForcedReactive < used chk

/-- The symbols of an entry that count for a link: those that have a name in the program. -/
def Seen (w : World ι σ) (x : ι) (S : Finset σ) (s : σ) : Prop := Counts w x S s ∧ w.implicitVirtual s = false

/-- What `p` is recorded to give to `x` is no longer in the text of `p`. -/
def Edited (w : World ι σ) (x p : ι) (S : Finset σ) : Prop :=
  ∃ M, w.lastModified p = some M ∧ (∀ s, Seen w x S s → s ∈ w.staticWrites p) ∧ ∀ s, Seen w x S s → s ∉ M

/-- A cell that stands between `p` and `x` gives `x` all that `p` gives. -/
def Overtaken (w : World ι σ) (c : Ctx) (x p : ι) (S : Finset σ) : Prop :=
  w.flowOrder = .inOrder ∧ c = .static ∧ ∃ q T, Entry w c x q T ∧ w.pos p < w.pos q ∧
    ¬ ((∀ s, Seen w x S s ↔ s = w.fake) ∧ T = {w.fake}) ∧ ((∀ s, Seen w x S s → s ∈ T) ∨ w.fake ∈ T)

/-- `x` is linked with `p`: it takes a named symbol from `p` that the last run of `p` has set, if it has been run; if the order matters, `p` is the lowest that gives one of
them, and nothing between the two gives them all; and the text of `p` still sets one of them. -/
def Linked (w : World ι σ) (x p : ι) : Prop :=
  ∃ c ∈ w.ctxs, ∃ S, Entry w c x p S ∧ (∃ s, Seen w x S s) ∧
    (w.flowOrder = .inOrder → Seen w x S w.fake ∨ ∃ s, Seen w x S s ∧ IsLatest w x (w.shallowTs s) p) ∧
    ¬ Edited w x p S ∧ (w.ctr p < 0 ∨ ∃ s, Seen w x S s ∧ w.ctr p ∈ w.updatedCells s) ∧ ¬ Overtaken w c x p S

end Verif.Sched
