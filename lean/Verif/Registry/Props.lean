import Verif.Registry.Lemmas

set_option linter.unusedSectionVars false

/-! # Properties of the registry of cells: C20, C42 -/

namespace Verif.Registry
open Verif
variable {ι τ : Type} [DecidableEq ι] [DecidableEq τ]

/-- C20, partial. After any history in which runs that take their number from the host find it ahead of all numbers
given out:

* counters of executions strictly increase in the order of execution,
* looking up a counter gives the execution that got it, and nothing for any other number,
* the history of a cell id is strictly increasing and lists exactly the counters of the executions of that id,
* one step back in the chain of versions of a cell goes to an object of the same id created earlier, with a smaller
  counter, and the version with an older one is itself an execution.

Missing: histories with a run that does not store history, see `exec_counters_violated`. -/
theorem exec_counters_partial (ops : List (Op ι τ)) (hops : HostAhead Reg.init ops) :
    let s := run (Reg.init : Reg ι τ) ops
    (∀ r r' id id' n n', r < r' → IsExec s r id n → IsExec s r' id' n' → n < n') ∧
    (∀ n r, s.byCtr n = some r ↔ ∃ id, IsExec s r id n) ∧
    (∀ id r, s.current id = some r → ∃ o, s.heap[r]? = some o ∧ o.id = id ∧ o.history.Pairwise (· < ·) ∧
      ∀ n, n ∈ o.history ↔ ∃ r', IsExec s r' id n) ∧
    (∀ r q, PrevVersion s r q → q < r ∧ ∃ o o', s.heap[r]? = some o ∧ s.heap[q]? = some o' ∧ o'.id = o.id ∧
      o'.ctr < o.ctr ∧ IsExec s r o.id o.ctr) ∧
    (∀ r id n, IsExec s r id n → ∃ q, s.current id = some q ∧ Relation.ReflTransGen (PrevVersion s) q r) := by
  intro s
  have h : Inv s := inv_run inv_init hops
  refine ⟨?_, ?_, ?_, ?_, ?_⟩
  · rintro r r' id id' n n' hlt ⟨o, ho, _, rfl, h0⟩ ⟨o', ho', _, rfl, h0'⟩
    exact h.mono r r' o o' hlt ho ho' h0 h0'
  · intro n r
    rw [h.byCtr]
    constructor
    · rintro ⟨o, ho, h'⟩; exact ⟨o.id, o, ho, rfl, h'⟩
    · rintro ⟨id, o, ho, _, h'⟩; exact ⟨o, ho, h'⟩
  · intro id r hr
    obtain ⟨o, ho, hid⟩ := h.cur id r hr
    exact ⟨o, ho, hid, h.histSorted r o ho, h.hist id r o hr ho⟩
  · rintro r q ⟨o, ho, hp⟩
    obtain ⟨h1, h2, o', h3, h4, h5⟩ := h.prev r o q ho hp
    exact ⟨h1, o, o', ho, h3, h4, h5, o, ho, rfl, rfl, h2⟩
  · rintro r id n ⟨o, ho, rfl, _⟩
    exact h.chain r o ho

/-- A notebook with a re-run, a placeholder cell that gets its real id, and a skipped host number. -/
def c20Ops : List (Op Nat Nat) :=
  [.exec 10 ∅ true 1 false, .untracked 20, .exec 30 {5} true 2 true, .rename 30 31, .exec 10 ∅ true 4 false,
   .exec 31 ∅ true 5 false, .tag none 7]

example : HostAhead Reg.init c20Ops := by
  refine ⟨?_, trivial, ?_, trivial, ?_, ?_, trivial, trivial⟩ <;> (show (_ : Int) > _; decide)
example : (run Reg.init c20Ops).byCtr 5 = some 4 ∧ ((run Reg.init c20Ops).heap[4]?).map (·.history) = some [2, 5] ∧
    PrevVersion (run Reg.init c20Ops) 4 2 := by
  refine ⟨by decide, by decide, ?_⟩
  exact ⟨_, rfl, rfl⟩

/-- A stored run, a run with `store_history=False` (whose number is not taken from the host and not counted by it), and
another stored run, for which the host offers the number just used. -/
def c20Bad : List (Op Nat Nat) := [.exec 10 ∅ true 1 false, .exec 20 ∅ false 2 false, .exec 20 ∅ true 2 false]

/-- C20 fails with runs that do not store history: two executions get the same counter, the counter stops leading to the
first of them, and the newer execution of a cell does not become its current version. -/
theorem exec_counters_violated :
    let s := run (Reg.init : Reg Nat Nat) c20Bad
    IsExec s 1 20 2 ∧ IsExec s 2 20 2 ∧ s.byCtr 2 = some 2 ∧ s.current 20 = some 1 := by
  refine ⟨⟨_, rfl, rfl, rfl, by decide⟩, ⟨_, rfl, rfl, rfl, by decide⟩, by decide, by decide⟩

theorem mem_fromTag {s : Reg ι τ} {t : τ} {r : Nat} : r ∈ fromTag s t ↔ ∃ a, (r, a) ∈ s.byTag t := by
  simp [fromTag]

/-- C42, completeness. After any history of executions, tag commands, untag commands and renames, every current cell
that carries a tag is found by looking the tag up. -/
theorem tag_lookup_complete (ops : List (Op ι τ)) (hops : HostAhead Reg.init ops) (r : Nat) (t : τ)
    (h : CurrentWithTag (run Reg.init ops) r t) : r ∈ fromTag (run Reg.init ops) t :=
  mem_fromTag.2 (tagsFound_run inv_init (by rintro r t ⟨o, ho, _⟩; simp [Reg.init] at ho) hops r t h)

example : HostAhead Reg.init c20Ops ∧ CurrentWithTag (run Reg.init c20Ops) 4 5 ∧ CurrentWithTag (run Reg.init c20Ops) 4 7 := by
  refine ⟨?_, ⟨_, rfl, by decide, by decide⟩, ⟨_, rfl, by decide, by decide⟩⟩
  refine ⟨?_, trivial, ?_, trivial, ?_, ?_, trivial, trivial⟩ <;> (show (_ : Int) > _; decide)

/-- C42, partial. Without untagging, renaming and tagging of older versions, looking up a tag returns exactly the
current cells that carry it.

Missing: those three, for which `tag_lookup_violated` shows that cells are returned that should not be. -/
theorem tag_lookup_exact_partial (ops : List (Op ι τ)) (hops : HostAhead Reg.init ops) (hp : TagsPlain Reg.init ops)
    (r : Nat) (t : τ) : r ∈ fromTag (run Reg.init ops) t ↔ CurrentWithTag (run Reg.init ops) r t := by
  constructor
  · intro h
    obtain ⟨a, ha⟩ := mem_fromTag.1 h
    obtain ⟨o, ho, hid, hc, ht⟩ := tagsExact_run inv_init (by intro r t a h; simp [Reg.init] at h) hops hp r t a ha
    exact ⟨o, ho, by rw [hid]; exact hc, ht⟩
  · exact tag_lookup_complete ops hops r t

/-- Two cells with tags, one of them run twice. -/
def c42Ops : List (Op Nat Nat) :=
  [.exec 10 {1} true 1 false, .exec 20 {1, 2} true 2 false, .tag (some 1) 3, .exec 10 ∅ true 3 false, .reactive 2]

example : HostAhead Reg.init c42Ops ∧ TagsPlain Reg.init c42Ops ∧ fromTag (run Reg.init c42Ops) 1 = {1, 2} ∧
    fromTag (run Reg.init c42Ops) 3 = {2} := by
  refine ⟨?_, ?_, by decide, by decide⟩
  · refine ⟨?_, ?_, trivial, ?_, trivial, trivial⟩ <;> (show (_ : Int) > _; decide)
  · refine ⟨trivial, trivial, ?_, trivial, trivial, trivial⟩
    intro r ob hr ho
    have : r = 0 := Option.some.inj (hr.symm.trans (by decide : _ = some 0))
    subst this
    injection ho with ho
    subst ho
    decide

/-- C42 fails three ways: the lookup still returns a cell whose tag was removed, it returns an old version that was
tagged by its counter, and it returns an old version of a renamed cell after that cell ran again. -/
theorem tag_lookup_violated :
    (let s := run (Reg.init : Reg Nat Nat) [.exec 10 {1} true 1 false, .untag none 1]
     0 ∈ fromTag s 1 ∧ ¬ CurrentWithTag s 0 1) ∧
    (let s := run (Reg.init : Reg Nat Nat) [.exec 10 ∅ true 1 false, .exec 10 ∅ true 2 false, .tag (some 1) 1]
     0 ∈ fromTag s 1 ∧ ¬ CurrentWithTag s 0 1) ∧
    (let s := run (Reg.init : Reg Nat Nat) [.exec 10 {1} true 1 true, .rename 10 11, .exec 11 {1} true 2 false]
     0 ∈ fromTag s 1 ∧ ¬ CurrentWithTag s 0 1) := by
  refine ⟨⟨by decide, ?_⟩, ⟨by decide, ?_⟩, ⟨by decide, ?_⟩⟩
  · rintro ⟨o, ho, hc, ht⟩
    injection ho with ho; subst ho; revert ht; decide
  · rintro ⟨o, ho, hc, ht⟩
    injection ho with ho; subst ho; revert hc; decide
  · rintro ⟨o, ho, hc, ht⟩
    injection ho with ho; subst ho; revert hc; decide

end Verif.Registry
