import Verif.Client.Model
import Verif.Store.Pull
import Verif.Store.Topo

/-! # C78-C80: reactive runs -/

namespace Verif.Client
open Verif Verif.Store

/-! ## Specification -/

/-- Schedules that each made the client execute something, with what it executed. -/
inductive Run (n : Nat) : St → List Payload → List (List Nat) → St → Prop
  | nil (s : St) : Run n s [] [] s
  | cons {s s' s'' : St} {p : Payload} {l : List Nat} {ps : List Payload} {ls : List (List Nat)} :
    step n s p = .ok (s', .run l) → Run n s' ps ls s'' → Run n s (p :: ps) (l :: ls) s''

/-- In incremental mode, the schedule after an execution is one that was computed after it. -/
def Answers (ps : List Payload) (ls : List (List Nat)) : Prop :=
  ∀ i p q l, ps[i]? = some p → ps[i + 1]? = some q → ls[i]? = some l → p.batch = false → ∃ x ∈ l, q.last = some x

/-! ## Lemmas -/

theorem mem_union {a b : List Nat} {x : Nat} : x ∈ union a b ↔ x ∈ a ∨ x ∈ b := by unfold union; rw [mem_setOf, List.mem_append]

theorem pull_nodup (d : Data) (cousins : Bool) (n m k : Nat) (ids c C : List Nat) (hc : c.Nodup) (hi : ∀ x ∈ ids, x ∈ c)
    (hci : ∀ x ∈ c, x ∈ ids) (h : rounds d cousins n m k ids c = .ok C) : C.Nodup ∧ c ⊆ C := by
  cases n with
  | zero =>
    cases k with
    | zero => simp [rounds] at h
    | succ k =>
      unfold rounds at h
      cases ids with
      | nil =>
        have : c = [] := List.eq_nil_iff_forall_not_mem.2 fun x hx => by simpa using hci x hx
        subst this
        simp only [pushAll, List.foldlM_nil, pure, Except.pure, bind, Except.bind] at h
        have : sweep d 0 m 0 [] = .ok [] := by unfold sweep; rfl
        rw [this] at h
        simp at h
        subst h
        exact ⟨List.nodup_nil, fun _ h => h⟩
      | cons a ids => simp [pushAll, push, bind, Except.bind] at h
  | succ n =>
    have := rounds_post d cousins n m k ids c C h hi hci hc
    exact ⟨this.2.1, this.1⟩

/-- A closure has no repetition and contains the start cells. -/
theorem raw_nodup (d : Data) (o : Opts) (n m k : Nat) (start out : List Nat) (h : raw d o n m k start true false = .ok out) :
    out.Nodup ∧ start ⊆ out := by
  unfold raw at h
  simp only [Bool.false_eq_true, if_false] at h
  by_cases hp : o.pull = true
  · rw [if_pos hp] at h
    cases h1 : rounds d o.cousins n m k start (setOf start) with
    | error e => rw [h1] at h; simp [bind, Except.bind] at h
    | ok C =>
      rw [h1] at h
      simp [bind, Except.bind, pure, Except.pure] at h
      subst h
      have := pull_nodup d o.cousins n m k start (setOf start) C (nodup_setOf start) (fun x hx => mem_setOf.2 hx)
        (fun x hx => mem_setOf.1 hx) h1
      exact ⟨this.1, fun x hx => this.2 (mem_setOf.2 hx)⟩
  · rw [if_neg hp] at h
    cases h1 : pushAll d.children n (setOf start) start with
    | error e => rw [h1] at h; simp [bind, Except.bind] at h
    | ok C =>
      rw [h1] at h
      simp [bind, Except.bind, pure, Except.pure] at h
      subst h
      cases n with
      | zero =>
        cases start with
        | nil => simp [pushAll, pure, Except.pure] at h1; subst h1; exact ⟨nodup_setOf [], by simp⟩
        | cons a l => simp [pushAll, push, bind, Except.bind] at h1
      | succ n =>
        obtain ⟨g1, g2⟩ := pushAll_exact d.children n start C h1
        exact ⟨g1, fun x hx => (g2 x).2 ⟨x, hx, .refl⟩⟩

theorem toCells_perm (cs : Cells) (children : Nat → Option (List Nat)) (anyOrder : Bool) (n : Nat) (ids out : List Nat)
    (h : toCells cs children anyOrder n ids = .ok (some out)) :
    out.Perm ((ids.filter fun x => x ∈ cs.keys).filter fun x => (cs.pos x).isSome) := by
  unfold toCells at h
  cases anyOrder with
  | false =>
    simp only [Bool.false_eq_true, if_false, bind, Except.bind, pure, Except.pure, Except.ok.injEq] at h
    exact (sortBy_spec _ _ _ h).1
  | true =>
    simp only [if_true] at h
    cases h1 : topoOrder cs children n with
    | error e => rw [h1] at h; simp [Except.map, bind, Except.bind] at h
    | ok order =>
      rw [h1] at h
      simp only [Except.map, bind, Except.bind, pure, Except.pure, Except.ok.injEq] at h
      exact (sortBy_spec _ _ _ h).1

theorem closure_spec (p : Payload) (n : Nat) (start l : List Nat) (h : closure p n start = .ok (some l)) :
    l.Nodup ∧ (∀ x ∈ l, x ∈ p.cells.keys) ∧ ∀ x ∈ start, x ∈ p.cells.keys → (p.cells.pos x).isSome → x ∈ l := by
  unfold closure at h
  cases h1 : raw p.tables p.opts n n n start true false with
  | error e => rw [h1] at h; simp [bind, Except.bind] at h
  | ok c =>
    rw [h1] at h
    simp only [bind, Except.bind] at h
    obtain ⟨g1, g2⟩ := raw_nodup _ _ _ _ _ _ _ h1
    have hp := toCells_perm _ _ _ _ _ _ h
    refine ⟨hp.nodup_iff.2 ((g1.filter _).filter _), fun x hx => ?_, fun x hx hk hpos => hp.mem_iff.2 ?_⟩
    · have := hp.mem_iff.1 hx
      simp only [List.mem_filter, decide_eq_true_eq] at this
      exact this.1.2
    · simp only [List.mem_filter, decide_eq_true_eq]
      exact ⟨⟨g2 hx, hk⟩, hpos⟩

/-- What batch mode executes when reactive. -/
theorem batch_spec (p : Payload) (n : Nat) (s : St) (l : List Nat) (hr : p.reactive = true) (h : batchCells p n s = .ok (some l)) :
    l.Nodup ∧ (∀ x ∈ l, x ∉ s.executed ∧ x ∈ p.cells.keys) ∧
      ∀ x, x ∈ s.newReady ∨ x ∈ s.forced ∨ x ∈ s.cascading → x ∈ p.cells.keys → (p.cells.pos x).isSome → x ∉ s.executed → x ∈ l := by
  unfold batchCells at h
  cases h1 : closure p n (s.cascading.filter fun x => x ∉ s.executed) with
  | error e => rw [h1] at h; simp [bind, Except.bind] at h
  | ok c =>
    rw [h1] at h
    simp only [bind, Except.bind] at h
    cases c with
    | none => simp [pure, Except.pure] at h
    | some casc =>
      simp only [hr, if_true] at h
      cases h2 : closure p n ((s.newReady ++ s.forced ++ casc).filter fun x => x ∉ s.executed) with
      | error e => rw [h2] at h; simp at h
      | ok c =>
        rw [h2] at h
        simp only at h
        cases c with
        | none => simp [pure, Except.pure] at h
        | some l' =>
          simp only [pure, Except.pure, Except.ok.injEq, Option.some.injEq] at h
          subst h
          obtain ⟨g1, g2, g3⟩ := closure_spec p n _ l' h2
          obtain ⟨_, _, g5⟩ := closure_spec p n _ casc h1
          refine ⟨g1.filter _, fun x hx => ?_, fun x hx hk hpos hne => ?_⟩
          · simp only [List.mem_filter, decide_eq_true_eq] at hx
            exact ⟨hx.2, g2 x hx.1⟩
          · simp only [List.mem_filter, decide_eq_true_eq]
            refine ⟨g3 x ?_ hk hpos, hne⟩
            simp only [List.mem_filter, List.mem_append, decide_eq_true_eq]
            refine ⟨?_, hne⟩
            rcases hx with hx | hx | hx
            · exact .inl (.inl hx)
            · exact .inl (.inr hx)
            · exact .inr (g5 x (by simp [hx, hne]) hk hpos)

/-- What incremental mode picks, and what it means that it picks nothing. -/
theorem pick_spec (p : Payload) (s : St) (l : List Nat) : ∀ (seen : Bool) (pending : Option Nat),
    (∀ x, pick p s seen pending l = some x → pending = some x ∨ x ∈ l ∧ x ∉ s.executed ∧ p.cells.code x = true ∧ (x ∈ s.forced ∨ x ∈ s.newReady)) ∧
    (pick p s seen pending l = none → pending = none ∧
      (p.ordered = false → p.reactive = true → ∀ x ∈ l, p.cells.code x = true → x ∈ s.forced ∨ x ∈ s.newReady → x ∈ s.executed)) := by
  induction l with
  | nil => intro seen pending; exact ⟨fun x h => .inl h, fun h => ⟨h, by simp⟩⟩
  | cons a l ih =>
    intro seen pending
    have hel : ∀ seen, eligible p s seen a = true → a ∉ s.executed ∧ p.cells.code a = true ∧ (a ∈ s.forced ∨ a ∈ s.newReady) := by
      intro seen h
      unfold eligible at h
      simp only [Bool.and_eq_true, Bool.or_eq_true, List.contains_iff_mem, decide_eq_true_eq] at h
      exact ⟨h.1.2, h.1.1.2, h.2.imp id (fun h => h.1)⟩
    unfold pick
    by_cases he : eligible p s seen a = true
    · simp only [he, if_true]
      obtain ⟨e1, e2, e3⟩ := hel seen he
      cases pending with
      | none =>
        simp only
        by_cases ho : p.ordered = true
        · rw [if_pos ho]
          refine ⟨fun x h => ?_, fun h => by cases h⟩
          injection h with h; subst h
          exact .inr ⟨List.mem_cons_self .., e1, e2, e3⟩
        · rw [if_neg ho]
          refine ⟨fun x h => ?_, fun h => ?_⟩
          · rcases (ih _ _).1 x h with h1 | ⟨h1, h2⟩
            · injection h1 with h1; subst h1
              exact .inr ⟨List.mem_cons_self .., e1, e2, e3⟩
            · exact .inr ⟨List.mem_cons_of_mem _ h1, h2⟩
          · exact absurd ((ih _ _).2 h).1 (by simp)
      | some y =>
        simp only
        cases hc : p.count a with
        | none =>
          simp only
          refine ⟨fun x h => ?_, fun h => absurd ((ih _ _).2 h).1 (by simp)⟩
          rcases (ih _ _).1 x h with h1 | ⟨h1, h2⟩
          · exact .inl h1
          · exact .inr ⟨List.mem_cons_of_mem _ h1, h2⟩
        | some k =>
          simp only
          refine ⟨fun x h => ?_, fun h => absurd ((ih _ _).2 h).1 (by simp)⟩
          rcases (ih _ _).1 x h with h1 | ⟨h1, h2⟩
          · injection h1 with h1
            by_cases hk : k < (p.count y).getD 0
            · rw [if_pos hk] at h1; subst h1
              exact .inr ⟨List.mem_cons_self .., e1, e2, e3⟩
            · rw [if_neg hk] at h1; rw [h1]; exact .inl rfl
          · exact .inr ⟨List.mem_cons_of_mem _ h1, h2⟩
    · rw [if_neg he]
      refine ⟨fun x h => ?_, fun h => ?_⟩
      · rcases (ih _ _).1 x h with h1 | ⟨h1, h2⟩
        · exact .inl h1
        · exact .inr ⟨List.mem_cons_of_mem _ h1, h2⟩
      · obtain ⟨h1, h2⟩ := (ih _ _).2 h
        refine ⟨h1, fun ho hr x hx hcode hrep => ?_⟩
        rcases List.mem_cons.1 hx with rfl | hx
        · by_contra hne
          refine he ?_
          unfold eligible
          simp only [ho, hr, hcode, Bool.not_false, Bool.or_true, Bool.true_and, Bool.and_true, Bool.and_eq_true, Bool.or_eq_true,
            List.contains_iff_mem, decide_eq_true_eq]
          exact ⟨hne, hrep⟩
        · exact h2 ho hr x hx hcode hrep

/-- A step that executes something. -/
theorem step_run (n : Nat) (s s' : St) (p : Payload) (l : List Nat) (h : step n s p = .ok (s', .run l)) (hr : p.batch = true → p.reactive = true) :
    l ≠ [] ∧ l.Nodup ∧ (∀ x ∈ l, x ∉ s.executed ∧ p.last ≠ some x ∧ (x ∈ p.cells.keys ∨ x ∈ p.widgets)) ∧
      (∀ x, x ∈ s'.executed ↔ x ∈ s.executed ∨ p.last = some x ∨ p.batch = true ∧ x ∈ l) ∧
      (p.batch = false → ∃ x, l = [x]) ∧ s'.newReady = (absorb s p).newReady ∧ p.failed = false := by
  unfold step at h
  have hex : ∀ x, x ∈ (absorb s p).executed ↔ x ∈ s.executed ∨ p.last = some x := by
    intro x
    unfold absorb
    rw [mem_union]
    simp
  by_cases h1 : p.deferred ≠ []
  · simp only [if_pos h1, Except.ok.injEq, Prod.mk.injEq, reduceCtorEq, and_false] at h
  · simp only [if_neg h1] at h
    by_cases h2 : p.failed = true
    · simp only [if_pos h2, Except.ok.injEq, Prod.mk.injEq, reduceCtorEq, and_false] at h
    · simp only [if_neg h2] at h
      have h2' : p.failed = false := by simpa using h2
      by_cases h3 : p.batch = true
      · simp only [if_pos h3] at h
        cases h4 : batchCells p n (absorb s p) with
        | error e => rw [h4] at h; simp [bind, Except.bind] at h
        | ok c =>
          rw [h4] at h
          simp only [bind, Except.bind] at h
          match c, h with
          | none, h => simp [pure, Except.pure] at h
          | some [], h => simp [pure, Except.pure] at h
          | some (a :: t), h =>
            simp only [pure, Except.pure, Except.ok.injEq, Prod.mk.injEq, Act.run.injEq] at h
            obtain ⟨rfl, rfl⟩ := h
            obtain ⟨g1, g2, _⟩ := batch_spec p n _ _ (hr h3) h4
            refine ⟨by simp, g1, fun x hx => ?_, fun x => ?_, fun hb => (by simp [h3] at hb), rfl, h2'⟩
            · obtain ⟨e1, e2⟩ := g2 x hx
              rw [hex, not_or] at e1
              exact ⟨e1.1, e1.2, .inl e2⟩
            · show x ∈ union (absorb s p).executed (a :: t) ↔ _
              rw [mem_union, hex]
              simp [h3, or_assoc]
      · simp only [if_neg h3] at h
        cases h4 : pick p (absorb s p) false none p.widgets with
        | none => rw [h4] at h; simp at h
        | some x =>
          rw [h4] at h
          simp only [Except.ok.injEq, Prod.mk.injEq, Act.run.injEq] at h
          obtain ⟨rfl, rfl⟩ := h
          rcases (pick_spec p (absorb s p) p.widgets false none).1 x h4 with e | ⟨e1, e2, e3, e4⟩
          · cases e
          · rw [hex, not_or] at e2
            refine ⟨by simp, by simp, fun y hy => ?_, fun y => ?_, fun _ => ⟨x, rfl⟩, rfl, h2'⟩
            · rw [List.mem_singleton] at hy; subst hy
              exact ⟨e2.1, e2.2, .inr e1⟩
            · rw [hex]; simp [h3]

theorem answers_tail {p : Payload} {ps : List Payload} {l : List Nat} {ls : List (List Nat)} (h : Answers (p :: ps) (l :: ls)) :
    Answers ps ls := fun i p' q l' h1 h2 h3 => h (i + 1) p' q l' (by simpa using h1) (by simpa using h2) (by simpa using h3)

/-- **C78** (partial: batch mode only when reactive, and in incremental mode schedules computed after the execution they follow). In a
reactive run, no cell is executed twice, and none that was executed before its schedule arrived. -/
theorem once_partial (n : Nat) (s s' : St) (ps : List Payload) (ls : List (List Nat)) (h : Run n s ps ls s')
    (hr : ∀ p ∈ ps, p.batch = true → p.reactive = true) (ha : Answers ps ls) :
    ls.flatten.Nodup ∧ ∀ x ∈ ls.flatten, x ∉ s.executed ∧ ∀ p ∈ ps.head?, p.last ≠ some x := by
  induction h with
  | nil s => simp
  | @cons s s1 s2 p l ps ls hs hrun ih =>
    obtain ⟨_, h2, h3, h4, h5, _, _⟩ := step_run n s s1 p l hs (hr p (List.mem_cons_self ..))
    obtain ⟨i1, i2⟩ := ih (fun q hq => hr q (List.mem_cons_of_mem _ hq)) (answers_tail ha)
    have hrest : ∀ x ∈ ls.flatten, x ∉ s.executed ∧ p.last ≠ some x ∧ x ∉ l := by
      intro x hx
      obtain ⟨e1, e2⟩ := i2 x hx
      rw [h4, not_or, not_or] at e1
      refine ⟨e1.1, e1.2.1, fun hxl => ?_⟩
      by_cases hb : p.batch = true
      · exact e1.2.2 ⟨hb, hxl⟩
      · obtain ⟨y, rfl⟩ := h5 (by simpa using hb)
        rw [List.mem_singleton] at hxl
        subst hxl
        cases ps with
        | nil => cases hrun; simp at hx
        | cons q ps =>
          obtain ⟨z, hz, hq⟩ := ha 0 p q [x] rfl rfl rfl (by simpa using hb)
          rw [List.mem_singleton] at hz
          subst hz
          exact e2 q (by simp) hq
    refine ⟨?_, ?_⟩
    · rw [List.flatten_cons, List.nodup_append]
      refine ⟨h2, i1, fun a ha' b hb' e => ?_⟩
      subst e
      exact (hrest a hb').2.2 ha'
    · intro x hx
      rw [List.flatten_cons, List.mem_append] at hx
      rcases hx with hx | hx
      · exact ⟨(h3 x hx).1, fun q hq => by simp at hq; subst hq; exact (h3 x hx).2.1⟩
      · exact ⟨(hrest x hx).1, fun q hq => by simp at hq; subst hq; exact (hrest x hx).2.1⟩

/-- **C79** (partial: as `once_partial`). A reactive run ends after at most as many rounds as there are cells, whatever the kernel
reports. -/
theorem bounded_partial (n : Nat) (s s' : St) (ps : List Payload) (ls : List (List Nat)) (h : Run n s ps ls s')
    (hr : ∀ p ∈ ps, p.batch = true → p.reactive = true) (ha : Answers ps ls) (U : Finset Nat)
    (hU : ∀ p ∈ ps, ∀ x, x ∈ p.cells.keys ∨ x ∈ p.widgets → x ∈ U) : ps.length ≤ U.card := by
  have hn := (once_partial n s s' ps ls h hr ha).1
  have key : ps.length ≤ ls.flatten.length ∧ ∀ x ∈ ls.flatten, x ∈ U := by
    clear hn ha
    induction h with
    | nil s => simp
    | @cons s s1 s2 p l ps ls hs hrun ih =>
      obtain ⟨h1, _, h3, _⟩ := step_run n s s1 p l hs (hr p (List.mem_cons_self ..))
      obtain ⟨i1, i2⟩ := ih (fun q hq => hr q (List.mem_cons_of_mem _ hq)) (fun q hq => hU q (List.mem_cons_of_mem _ hq))
      have hl : 0 < l.length := List.length_pos_iff.2 h1
      refine ⟨by simp only [List.flatten_cons, List.length_append, List.length_cons]; omega, fun x hx => ?_⟩
      rw [List.flatten_cons, List.mem_append] at hx
      rcases hx with hx | hx
      · exact hU p (List.mem_cons_self ..) x (h3 x hx).2.2
      · exact i2 x hx
  exact key.1.trans (length_le_card U ls.flatten hn key.2)

/-- The set kept by the client is what was executed. -/
theorem run_executed (n : Nat) (s s' : St) (ps : List Payload) (ls : List (List Nat)) (h : Run n s ps ls s')
    (hr : ∀ p ∈ ps, p.batch = true → p.reactive = true) (x : Nat) (hx : x ∈ s'.executed) :
    x ∈ s.executed ∨ x ∈ ls.flatten ∨ ∃ p ∈ ps, p.last = some x := by
  induction h with
  | nil s => exact .inl hx
  | @cons s s1 s2 p l ps ls hs hrun ih =>
    obtain ⟨_, _, _, h4, _⟩ := step_run n s s1 p l hs (hr p (List.mem_cons_self ..))
    rcases ih (fun q hq => hr q (List.mem_cons_of_mem _ hq)) hx with h | h | ⟨q, hq, h⟩
    · rcases (h4 x).1 h with h | h | h
      · exact .inl h
      · exact .inr (.inr ⟨p, List.mem_cons_self .., h⟩)
      · exact .inr (.inl (by rw [List.flatten_cons, List.mem_append]; exact .inl h.2))
    · exact .inr (.inl (by rw [List.flatten_cons, List.mem_append]; exact .inr h))
    · exact .inr (.inr ⟨q, List.mem_cons_of_mem _ hq, h⟩)

theorem run_newReady (n : Nat) (s s' : St) (ps : List Payload) (ls : List (List Nat)) (h : Run n s ps ls s')
    (hr : ∀ p ∈ ps, p.reactive = true) (x : Nat) (hx : x ∈ s.newReady ∨ ∃ p ∈ ps, x ∈ p.newReady) : x ∈ s'.newReady := by
  induction h with
  | nil s => simpa using hx
  | @cons s s1 s2 p l ps ls hs hrun ih =>
    obtain ⟨_, _, _, _, _, h6, _⟩ := step_run n s s1 p l hs (fun _ => hr p (List.mem_cons_self ..))
    refine ih (fun q hq => hr q (List.mem_cons_of_mem _ hq)) ?_
    have h7 : ∀ y, y ∈ s1.newReady ↔ y ∈ s.newReady ∨ y ∈ p.newReady := by
      intro y
      rw [h6]
      unfold absorb
      simp only [hr p (List.mem_cons_self ..), if_true]
      exact mem_union
    rcases hx with hx | ⟨q, hq, hx⟩
    · exact .inl ((h7 x).2 (.inl hx))
    · rcases List.mem_cons.1 hq with rfl | hq
      · exact .inl ((h7 x).2 (.inr hx))
      · exact .inr ⟨q, hq, hx⟩

/-- **C80** (partial: reactive schedules; in incremental mode neither in-order semantics nor a strict schedule). A run that ends without
an error has executed every code cell of the notebook that was reported as newly ready during the run. -/
theorem covered_partial (n : Nat) (s s' s'' : St) (ps : List Payload) (ls : List (List Nat)) (h : Run n s ps ls s')
    (hs : s.executed = []) (hr : ∀ p ∈ ps, p.reactive = true) (p : Payload) (hp : p.reactive = true) (hf : p.failed = false)
    (hb : p.batch = true ∨ p.ordered = false) (hstep : step n s' p = .ok (s'', .done)) (q : Payload) (hq : q ∈ ps ∨ q = p) (x : Nat)
    (hx : x ∈ q.newReady) (hin : x ∈ p.cells.keys ∧ (p.cells.pos x).isSome ∧ x ∈ p.widgets ∧ p.cells.code x = true) :
    x ∈ ls.flatten ∨ ∃ r, (r ∈ ps ∨ r = p) ∧ r.last = some x := by
  have hnew : x ∈ (absorb s' p).newReady := by
    unfold absorb
    simp only [hp, if_true]
    rw [mem_union]
    rcases hq with hq | rfl
    · exact .inl (run_newReady n s s' ps ls h hr x (.inr ⟨q, hq, hx⟩))
    · exact .inr hx
  have hexec : x ∈ (absorb s' p).executed := by
    unfold step at hstep
    by_cases h1 : p.deferred ≠ []
    · simp only [if_pos h1, Except.ok.injEq, Prod.mk.injEq, reduceCtorEq, and_false] at hstep
    · simp only [if_neg h1, hf, Bool.false_eq_true, if_false] at hstep
      by_cases h3 : p.batch = true
      · simp only [if_pos h3] at hstep
        cases h4 : batchCells p n (absorb s' p) with
        | error e => rw [h4] at hstep; simp [bind, Except.bind] at hstep
        | ok c =>
          rw [h4] at hstep
          simp only [bind, Except.bind] at hstep
          match c, hstep, h4 with
          | none, h, _ => simp [pure, Except.pure] at h
          | some (a :: t), h, _ => simp [pure, Except.pure] at h
          | some [], _, h4 =>
            by_contra hne
            have := (batch_spec p n _ _ hp h4).2.2 x (.inl hnew) hin.1 hin.2.1 hne
            simp at this
      · simp only [if_neg h3] at hstep
        cases h4 : pick p (absorb s' p) false none p.widgets with
        | some y => rw [h4] at hstep; simp at hstep
        | none => exact ((pick_spec p (absorb s' p) p.widgets false none).2 h4).2 (hb.resolve_left h3) hp x hin.2.2.1 hin.2.2.2 (.inr hnew)
  have : x ∈ s'.executed ∨ p.last = some x := by
    unfold absorb at hexec
    rw [mem_union] at hexec
    simpa using hexec
  rcases this with h1 | h1
  · rcases run_executed n s s' ps ls h (fun q hq _ => hr q hq) x h1 with h2 | h2 | ⟨r, hr', h2⟩
    · rw [hs] at h2; simp at h2
    · exact .inl h2
    · exact .inr ⟨r, .inl hr', h2⟩
  · exact .inr ⟨p, .inr rfl, h1⟩

/-! ## Cases -/

/-- A chain of three cells, each using the one before. -/
def chain : Payload :=
  { tables := simple [(0, []), (1, [0]), (2, [1])] [(0, [1]), (1, [2])] []
    cells := ⟨[0, 1, 2], fun _ => true, fun x => if x < 3 then some x else none⟩
    widgets := [0, 1, 2]
    count := fun _ => none
    opts := ⟨true, true⟩
    anyOrder := true
    ordered := false
    batch := true
    reactive := true
    newReady := [1]
    forced := []
    cascading := []
    last := some 0
    failed := false
    deferred := [] }

/-- The client before a run. -/
def idle : St := ⟨[], [], [], [], 0⟩

/-- The user ran 0, which made 1 ready: 1 and 2 are executed, and after the next schedule the run ends although 2 is ready. -/
example : step 10 idle chain = .ok (⟨[0, 1, 2], [1], [], [], 0⟩, .run [1, 2]) ∧
    (step 10 ⟨[0, 1, 2], [1], [], [], 0⟩ { chain with newReady := [2], last := some 2 }).map Prod.snd = .ok .done := by
  constructor
  · rfl
  · rfl

/-- The same in incremental mode, one cell after the other. -/
example : (step 10 idle { chain with batch := false }).map Prod.snd = .ok (.run [1]) ∧
    (step 10 ⟨[0], [1], [], [], 0⟩ { chain with batch := false, newReady := [2], last := some 1 }).map Prod.snd = .ok (.run [2]) :=
  ⟨rfl, rfl⟩

/-- **C78 is violated** in incremental mode: a schedule that the client asked for before the execution (for instance because a cell was
edited) arrives after it was started, and the cell is executed again. -/
theorem once_violated : ∃ (p q : Payload) (s : St), p.reactive = true ∧ p.batch = false ∧ q = p ∧ Run 10 idle [p, q] [[1], [1]] s :=
  ⟨{ chain with batch := false }, _, ⟨[0], [1], [], [], 0⟩, rfl, rfl, rfl, .cons rfl (.cons rfl (.nil _))⟩

/-- **C78 is violated** when the kernel is not in reactive mode: a cell that uses a variable with `$` and depends on a cell that uses one
with `$$` is executed twice in a row. -/
theorem once_violated_forced : ∃ (p : Payload) (s : St), p.reactive = false ∧ p.forced = [2] ∧ p.cascading = [1] ∧
    Run 10 idle [p] [[1, 2, 2]] s :=
  ⟨{ chain with reactive := false, newReady := [], forced := [2], cascading := [1] }, _, rfl, rfl, rfl, .cons rfl (.nil _)⟩

/-- **C80 is violated** with in-order semantics in incremental mode: a newly ready cell before the executed one is passed over (as in-order
semantics asks for). -/
theorem covered_violated : ∃ (p : Payload) (s : St), p.reactive = true ∧ 0 ∈ p.newReady ∧ p.last = some 1 ∧ step 10 idle p = .ok (s, .done) :=
  ⟨{ chain with batch := false, ordered := true, newReady := [0], last := some 1 }, _, rfl, by simp, rfl, rfl⟩

end Verif.Client
