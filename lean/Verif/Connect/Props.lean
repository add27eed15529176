import Verif.Connect.Spec
import Mathlib.Data.List.Induction
import Mathlib.Data.List.Infix

/-!
# C123: A cell is run by the kernel of its own notebook -/

namespace Verif.Connect

open Spec

theorem after_snoc (es : List Ev) (e : Ev) : after (es ++ [e]) = step (after es) e := List.foldl_append

/-- What a step leaves alone. -/
theorem setEntry_rest (n : Nat) (e : Option Entry) (s : St) :
    (setEntry n e s).deferred = s.deferred ∧ (setEntry n e s).log = s.log ∧ (setEntry n e s).broken = s.broken ∧ (setEntry n e s).lost = s.lost := by
  unfold setEntry
  split <;> exact ⟨rfl, rfl, rfl, rfl⟩

/-- Only schedules and runs touch more than the table. -/
theorem step_rest (s : St) {e : Ev} (h1 : ∀ n b, e ≠ .schedule n b) (h2 : ∀ n id, e ≠ .run n id) :
    (step s e).deferred = s.deferred ∧ (step s e).log = s.log ∧ (step s e).broken = s.broken ∧ (step s e).lost = s.lost := by
  cases e with
  | opened n a k => simp only [step]; split <;> exact ⟨rfl, rfl, rfl, rfl⟩
  | ready n => simp only [step]; split; split; all_goals exact ⟨rfl, rfl, rfl, rfl⟩
  | establish n => simp only [step]; split; exacts [⟨rfl, rfl, rfl, rfl⟩, setEntry_rest _ _ _]
  | load n => exact setEntry_rest _ _ _
  | unload n => exact setEntry_rest _ _ _
  | change n a => simp only [step]; split <;> exact ⟨rfl, rfl, rfl, rfl⟩
  | shutdown n => simp only [step]; split <;> exact ⟨rfl, rfl, rfl, rfl⟩
  | schedule n b => exact absurd rfl (h1 n b)
  | run n id => exact absurd rfl (h2 n id)

theorem get_setEntry (n m : Nat) (e : Option Entry) (s : St) :
    Assoc.get (setEntry n e s).nbs m = if m = n then (Assoc.get s.nbs n).map (fun nb => { nb with entry := e }) else Assoc.get s.nbs m := by
  unfold setEntry
  split
  · rename_i h
    split
    · rename_i h'; subst h'; rw [h]; rfl
    · rfl
  · rename_i nb h
    rw [Assoc.get_set, h]
    rfl

/-- A notebook stays open. -/
theorem open_step (s : St) (e : Ev) {n : Nat} (h : (Assoc.get s.nbs n).isSome = true) : (Assoc.get (step s e).nbs n).isSome = true := by
  have hs : ∀ m (nb : Nb), (Assoc.get (Assoc.set s.nbs m nb) n).isSome = true := by
    intro m nb
    rw [Assoc.get_set]
    split
    · rfl
    · exact h
  have he : ∀ m x (t : St), t.nbs = s.nbs → (Assoc.get (setEntry m x t).nbs n).isSome = true := by
    intro m x t ht
    rw [get_setEntry, ht]
    split
    · rename_i hm; subst hm; simpa using h
    · exact h
  cases e with
  | opened m a k => simp only [step]; split; exacts [h, hs _ _]
  | ready m => simp only [step]; split; split; exacts [hs _ _, h, h]
  | establish m => simp only [step]; split; exacts [h, he _ _ _ rfl]
  | load m => exact he _ _ _ rfl
  | unload m => exact he _ _ _ rfl
  | change m a => simp only [step]; split; exacts [h, hs _ _]
  | shutdown m => simp only [step]; split; exacts [h, hs _ _]
  | schedule m b =>
    simp only [step, onSchedule]
    split
    · exact h
    · unfold release
      split <;> exact he _ _ _ rfl
  | run m id => simp only [step, onRun]; split; exact h; split <;> exact h

theorem open_after {es : List Ev} {n : Nat} {a k : Bool} (h : Ev.opened n a k ∈ es) : (Assoc.get (after es).nbs n).isSome = true := by
  induction es using List.reverseRecOn with
  | nil => simp at h
  | append_singleton es e ih =>
    rw [after_snoc]
    rcases List.mem_append.1 h with h | h
    · exact open_step _ _ (ih h)
    · simp only [List.mem_singleton] at h
      subst h
      simp only [step]
      split
      · rename_i h'; rw [h']; rfl
      · simp [Assoc.get_set_self]

/-- A cell that was put off, run, or failed. -/
def Known (s : St) (c : Cell) : Prop := c ∈ s.deferred ∨ (∃ k, ⟨k, c⟩ ∈ s.log) ∨ c ∈ s.broken ∨ c ∈ s.lost

theorem known_step {s : St} {c : Cell} (e : Ev) (h : Known s c) : Known (step s e) c := by
  by_cases h1 : ∃ n b, e = .schedule n b
  · obtain ⟨n, b, rfl⟩ := h1
    simp only [step, onSchedule]
    split
    · exact h
    · rename_i x hx
      obtain ⟨d1, d2, d3, d4⟩ := setEntry_rest n (some { x with batch := b }) s
      unfold release
      split
      · simp only [Known, d1, d2, d3, d4, List.mem_append]
        rcases h with h | ⟨k, h⟩ | h | h
        · by_cases hc : c.nb = n
          · exact .inr (.inl ⟨n, .inr (by simp [h, hc])⟩)
          · exact .inr (.inr (.inr (.inr (by simp [h, hc]))))
        · exact .inr (.inl ⟨k, .inl h⟩)
        · exact .inr (.inr (.inl h))
        · exact .inr (.inr (.inr (.inl h)))
      · simp only [Known, d1, d2, d3, d4, List.mem_append]
        rcases h with h | ⟨k, h⟩ | h | h
        · exact .inr (.inl ⟨n, .inr (by simp [h])⟩)
        · exact .inr (.inl ⟨k, .inl h⟩)
        · exact .inr (.inr (.inl h))
        · exact .inr (.inr (.inr h))
  by_cases h2 : ∃ n id, e = .run n id
  · obtain ⟨n, id, rfl⟩ := h2
    simp only [step, onRun]
    split
    · exact h
    split <;> simp only [Known, List.mem_append]
    · rcases h with h | h | h | h
      exacts [.inl h, .inr (.inl h), .inr (.inr (.inl (.inl h))), .inr (.inr (.inr h))]
    · rcases h with h | h | h | h
      exacts [.inl (.inl h), .inr (.inl h), .inr (.inr (.inl h)), .inr (.inr (.inr h))]
    · rcases h with h | ⟨k, h⟩ | h | h
      exacts [.inl h, .inr (.inl ⟨k, .inl h⟩), .inr (.inr (.inl h)), .inr (.inr (.inr h))]
  · obtain ⟨d1, d2, d3, d4⟩ := step_rest s (fun n b hh => h1 ⟨n, b, hh⟩) (fun n id hh => h2 ⟨n, id, hh⟩)
    unfold Known
    rw [d1, d2, d3, d4]
    exact h

/-- Whatever happens, a cell that the user has started is put off, was run, was not run because of an error, or was forgotten. -/
theorem known (es : List Ev) (c : Cell) (h : Started es c) : Known (after es) c := by
  obtain ⟨es₁, es₂, rfl, a, k, ho⟩ := h
  induction es₂ using List.reverseRecOn with
  | nil =>
    rw [after_snoc]
    obtain ⟨nb, hn⟩ := Option.isSome_iff_exists.1 (open_after ho)
    simp only [step, onRun, hn]
    split
    · exact .inr (.inr (.inl (by simp)))
    · exact .inl (by simp)
    · exact .inr (.inl ⟨c.nb, by simp⟩)
  | append_singleton es e ih =>
    rw [← List.cons_append, ← List.append_assoc, after_snoc]
    exact known_step e ih

/-- In a notebook that is able to, the command does not fail. -/
theorem way_able {nb : Nb} (h : Able nb) : way nb ≠ .error := by
  obtain ⟨h1, h2⟩ := h
  simp only [way, if_neg h1]
  rcases h2 with h2 | ⟨h2, h3⟩
  · generalize (if nb.status = .ready then nb.entry else none) = st
    cases st with
    | none => simp [h2]
    | some e => split <;> simp
  · simp only [h2, if_true]
    cases he : nb.entry with
    | none => exact absurd he h3
    | some e => split <;> simp

/-- Cells are run by the kernel of their notebook and by no other, and none is forgotten, if all that is put off when a schedule arrives belongs to the notebook of the schedule. -/
theorem own_partial (es : List Ev) (h : InTurn es) : (∀ r ∈ (after es).log, r.kernel = r.cell.nb) ∧ (after es).lost = [] := by
  induction es using List.reverseRecOn with
  | nil => exact ⟨by simp [after], rfl⟩
  | append_singleton es e ih =>
    obtain ⟨i1, i2⟩ := ih (fun es₁ n b es₂ he => h es₁ n b (es₂ ++ [e]) (by rw [he]; simp))
    rw [after_snoc]
    by_cases h1 : ∃ n b, e = .schedule n b
    · obtain ⟨n, b, rfl⟩ := h1
      have hd := h es n b [] rfl
      simp only [step, onSchedule]
      split
      · exact ⟨i1, i2⟩
      · rename_i x hx
        obtain ⟨d1, d2, d3, d4⟩ := setEntry_rest n (some { x with batch := b }) (after es)
        unfold release
        split
        · simp only [d1, d2, d4, i2]
          refine ⟨fun r hr => ?_, ?_⟩
          · rcases List.mem_append.1 hr with hr | hr
            · exact i1 r hr
            · obtain ⟨c, hc, rfl⟩ := List.mem_map.1 hr
              have := List.of_mem_filter (List.mem_dedup.1 hc)
              simp only [decide_eq_true_eq] at this
              exact this.symm
          · simp only [List.nil_append, List.filter_eq_nil_iff]
            intro c hc
            simp [hd c hc]
        · simp only [d1, d2, d4, i2]
          refine ⟨fun r hr => ?_, trivial⟩
          rcases List.mem_append.1 hr with hr | hr
          · exact i1 r hr
          · obtain ⟨c, hc, rfl⟩ := List.mem_map.1 hr
            exact (hd c hc).symm
    by_cases h2 : ∃ n id, e = .run n id
    · obtain ⟨n, id, rfl⟩ := h2
      simp only [step, onRun]
      split
      · exact ⟨i1, i2⟩
      split
      · exact ⟨i1, i2⟩
      · exact ⟨i1, i2⟩
      · refine ⟨fun r hr => ?_, i2⟩
        rcases List.mem_append.1 hr with hr | hr
        · exact i1 r hr
        · simp only [List.mem_singleton] at hr
          subst hr
          rfl
    · obtain ⟨_, d2, _, d4⟩ := step_rest (after es) (fun n b hh => h1 ⟨n, b, hh⟩) (fun n id hh => h2 ⟨n, id, hh⟩)
      rw [d2, d4]
      exact ⟨i1, i2⟩

/-- Commands do not fail in notebooks that are able to. -/
theorem unbroken (es : List Ev) (h : AllAble es) : (after es).broken = [] := by
  induction es using List.reverseRecOn with
  | nil => rfl
  | append_singleton es e ih =>
    have i := ih (fun es₁ n id es₂ he => h es₁ n id (es₂ ++ [e]) (by rw [he]; simp))
    rw [after_snoc]
    by_cases h1 : ∃ n b, e = .schedule n b
    · obtain ⟨n, b, rfl⟩ := h1
      simp only [step, onSchedule]
      split
      · exact i
      · rename_i x hx
        obtain ⟨_, _, d3, _⟩ := setEntry_rest n (some { x with batch := b }) (after es)
        unfold release
        split <;> simp only [d3, i]
    by_cases h2 : ∃ n id, e = .run n id
    · obtain ⟨n, id, rfl⟩ := h2
      simp only [step, onRun]
      split
      · exact i
      · rename_i nb hn
        have := way_able (h es n id [] rfl nb hn)
        split
        · rename_i hw; exact absurd hw this
        · exact i
        · exact i
    · obtain ⟨_, _, d3, _⟩ := step_rest (after es) (fun n b hh => h1 ⟨n, b, hh⟩) (fun n id hh => h2 ⟨n, id, hh⟩)
      rw [d3, i]

/-- Each cell that the user starts is run by the kernel of its notebook, or is put off – if a schedule arrives only for the notebook that the cells that were put off belong to, and cells are
only run in notebooks that are able to. What is missing: several notebooks (`elsewhere`, `forgotten`), notebooks without a kernel (`no_kernel`), or whose kernel is still starting and
not an `ipyflow` kernel (`too_early`), or from which the extension was unloaded (`unloaded`). -/
theorem run_partial (es : List Ev) (c : Cell) (hs : Started es c) (hi : InTurn es) (ha : AllAble es) : ⟨c.nb, c⟩ ∈ (after es).log ∨ c ∈ (after es).deferred := by
  obtain ⟨h1, h2⟩ := own_partial es hi
  rcases known es c hs with h | ⟨k, h⟩ | h | h
  · exact .inr h
  · have := h1 _ h
    simp only at this
    rw [this] at h
    exact .inl h
  · rw [unbroken es ha] at h; simp at h
  · rw [h2] at h; simp at h

/-- What was put off is not put off any longer when a schedule arrives. -/
theorem released (es : List Ev) (n : Nat) (b : Bool) (nb : Nb) (h : Assoc.get (after es).nbs n = some nb) (he : nb.entry ≠ none) : (after (es ++ [.schedule n b])).deferred = [] := by
  rw [after_snoc]
  simp only [step, onSchedule, h, Option.bind_some]
  split
  · rename_i hx; exact absurd hx he
  · unfold release
    split <;> rfl

/-- With one notebook, schedules are for the cells that were put off. -/
theorem one_notebook (es : List Ev) (n : Nat) (h : ∀ e ∈ es, about e = n) : InTurn es := by
  intro es₁ m b es₂ he c hc
  have key : ∀ es₁ : List Ev, (∀ e ∈ es₁, about e = n) → ∀ c ∈ (after es₁).deferred, c.nb = n := by
    intro es₁
    induction es₁ using List.reverseRecOn with
    | nil => intro _ c hc; simp [after] at hc
    | append_singleton es e ih =>
      intro h c hc
      have i := ih (fun e he => h e (by simp [he]))
      rw [after_snoc] at hc
      by_cases h1 : ∃ n b, e = .schedule n b
      · obtain ⟨n, b, rfl⟩ := h1
        simp only [step, onSchedule] at hc
        split at hc
        · exact i c hc
        · unfold release at hc
          split at hc <;> simp at hc
      by_cases h2 : ∃ n id, e = .run n id
      · obtain ⟨k, id, rfl⟩ := h2
        have hk : k = n := h (.run k id) (by simp)
        simp only [step, onRun] at hc
        split at hc
        · exact i c hc
        split at hc
        · exact i c hc
        · rcases List.mem_append.1 hc with hc | hc
          · exact i c hc
          · simp only [List.mem_singleton] at hc
            rw [hc]
            exact hk
        · exact i c hc
      · obtain ⟨d1, _, _, _⟩ := step_rest (after es) (fun n b hh => h1 ⟨n, b, hh⟩) (fun n id hh => h2 ⟨n, id, hh⟩)
        rw [d1] at hc
        exact i c hc
  rw [key es₁ (fun e he' => h e (by rw [he]; simp [he'])) c hc]
  exact (h (.schedule m b) (by rw [he]; simp)).symm

/-- Two cells are run before the connection is there, and one after that; all are run. -/
example : (⟨0, ⟨0, 5⟩⟩ : Ran) ∈ (after [.opened 0 true true, .run 0 5, .ready 0, .run 0 6, .establish 0, .schedule 0 true, .run 0 7]).log ∨
    (⟨0, 5⟩ : Cell) ∈ (after [.opened 0 true true, .run 0 5, .ready 0, .run 0 6, .establish 0, .schedule 0 true, .run 0 7]).deferred := by
  refine run_partial _ ⟨0, 5⟩ ⟨[.opened 0 true true], _, rfl, true, true, by simp⟩ (one_notebook _ 0 (by decide)) ?_
  intro es₁ n id es₂ he nb hn
  have hp : es₁ <+: [.opened 0 true true, .run 0 5, .ready 0, .run 0 6, .establish 0, .schedule 0 true, .run 0 7] := ⟨.run n id :: es₂, he.symm⟩
  have hl : es₁ ∈ List.inits [Ev.opened 0 true true, .run 0 5, .ready 0, .run 0 6, .establish 0, .schedule 0 true, .run 0 7] := (List.mem_inits _ _).2 hp
  simp only [List.inits, List.map, List.mem_cons, List.not_mem_nil, or_false] at hl
  rcases hl with rfl | rfl | rfl | rfl | rfl | rfl | rfl | rfl <;> simp at he
  all_goals
    obtain ⟨⟨rfl, rfl⟩, _⟩ := he
    simp [after, step, Assoc.get, Assoc.set, onRun, way, setEntry, onSchedule, release] at hn
    subst hn
    exact ⟨by simp, .inl rfl⟩

example : (after [.opened 0 true true, .run 0 5, .ready 0, .run 0 6, .establish 0, .schedule 0 true, .run 0 7]).log = [⟨0, ⟨0, 5⟩⟩, ⟨0, ⟨0, 6⟩⟩, ⟨0, ⟨0, 7⟩⟩] := by decide

/-- After the extension was unloaded, no cell of the notebook is run until it is loaded again or the kernel changes. -/
theorem unloaded (es es' : List Ev) (n : Nat) (nb : Nb) (hn : Assoc.get (after es).nbs n = some nb) (hk : nb.native = false) (hd : ∀ c ∈ (after es).deferred, c.nb ≠ n)
    (h : ∀ e ∈ es', e ≠ .load n ∧ e ≠ .ready n ∧ ∀ a, e ≠ .change n a) : ∀ r ∈ (after (es ++ .unload n :: es')).log, r.cell.nb = n → r ∈ (after es).log := by
  have key : (∃ nb', Assoc.get (after (es ++ .unload n :: es')).nbs n = some nb' ∧ nb'.native = false ∧ nb'.entry = none) ∧
      (∀ c ∈ (after (es ++ .unload n :: es')).deferred, c.nb ≠ n) ∧ ∀ r ∈ (after (es ++ .unload n :: es')).log, r.cell.nb = n → r ∈ (after es).log := by
    induction es' using List.reverseRecOn with
    | nil =>
      rw [after_snoc]
      obtain ⟨d1, d2, _, _⟩ := setEntry_rest n none (after es)
      refine ⟨⟨{ nb with entry := none }, ?_, hk, rfl⟩, ?_, ?_⟩
      · simp only [step, get_setEntry, if_true, hn, Option.map_some]
      · simp only [step, d1]; exact hd
      · simp only [step, d2]; exact fun r hr _ => hr
    | append_singleton es' e ih =>
      obtain ⟨⟨nb', i1, i2, i3⟩, i4, i5⟩ := ih (fun e he => h e (by simp [he]))
      rw [← List.cons_append, ← List.append_assoc, after_snoc]
      generalize after (es ++ .unload n :: es') = s at *
      obtain ⟨n1, n2, n3⟩ := h e (by simp)
      cases e with
      | opened m a k =>
        simp only [step]
        split
        · exact ⟨⟨nb', i1, i2, i3⟩, i4, i5⟩
        · rename_i hm
          refine ⟨⟨nb', ?_, i2, i3⟩, i4, i5⟩
          rw [Assoc.get_set_ne _ _ (by rintro rfl; rw [hm] at i1; cases i1)]
          exact i1
      | ready m =>
        have hne : n ≠ m := by rintro rfl; exact n2 rfl
        simp only [step]
        split
        · split
          · exact ⟨⟨nb', by rw [Assoc.get_set_ne _ _ hne]; exact i1, i2, i3⟩, i4, i5⟩
          · exact ⟨⟨nb', i1, i2, i3⟩, i4, i5⟩
        · exact ⟨⟨nb', i1, i2, i3⟩, i4, i5⟩
      | establish m =>
        simp only [step]
        split
        · exact ⟨⟨nb', i1, i2, i3⟩, i4, i5⟩
        · rename_i x hx
          have hne : n ≠ m := by rintro rfl; rw [i1] at hx; simp [i3] at hx
          obtain ⟨d1, d2, _, _⟩ := setEntry_rest m (some { x with connected := true }) s
          rw [d1, d2]
          exact ⟨⟨nb', by rw [get_setEntry, if_neg hne]; exact i1, i2, i3⟩, i4, i5⟩
      | load m =>
        have hne : n ≠ m := by rintro rfl; exact n1 rfl
        obtain ⟨d1, d2, _, _⟩ := setEntry_rest m (some {}) s
        simp only [step]
        rw [d1, d2]
        exact ⟨⟨nb', by rw [get_setEntry, if_neg hne]; exact i1, i2, i3⟩, i4, i5⟩
      | unload m =>
        obtain ⟨d1, d2, _, _⟩ := setEntry_rest m none s
        simp only [step]
        rw [d1, d2]
        refine ⟨?_, i4, i5⟩
        rw [get_setEntry]
        split
        · rename_i hm; subst hm; rw [i1]; exact ⟨{ nb' with entry := none }, rfl, i2, rfl⟩
        · exact ⟨nb', i1, i2, i3⟩
      | change m a =>
        have hne : n ≠ m := by rintro rfl; exact n3 a rfl
        simp only [step]
        split
        · exact ⟨⟨nb', i1, i2, i3⟩, i4, i5⟩
        · exact ⟨⟨nb', by rw [Assoc.get_set_ne _ _ hne]; exact i1, i2, i3⟩, i4, i5⟩
      | shutdown m =>
        simp only [step]
        split
        · exact ⟨⟨nb', i1, i2, i3⟩, i4, i5⟩
        · rename_i x hx
          refine ⟨?_, i4, i5⟩
          rw [Assoc.get_set]
          split
          · rename_i hm; subst hm; rw [i1] at hx; cases hx; exact ⟨_, rfl, i2, i3⟩
          · exact ⟨nb', i1, i2, i3⟩
      | schedule m b =>
        simp only [step, onSchedule]
        split
        · exact ⟨⟨nb', i1, i2, i3⟩, i4, i5⟩
        · rename_i x hx
          have hne : n ≠ m := by rintro rfl; rw [i1] at hx; simp [i3] at hx
          obtain ⟨d1, d2, _, _⟩ := setEntry_rest m (some { x with batch := b }) s
          have hg : Assoc.get (setEntry m (some { x with batch := b }) s).nbs n = some nb' := by rw [get_setEntry, if_neg hne]; exact i1
          unfold release
          split
          · refine ⟨⟨nb', hg, i2, i3⟩, by simp, fun r hr hc => ?_⟩
            rw [d1, d2] at hr
            rcases List.mem_append.1 hr with hr | hr
            · exact i5 r hr hc
            · obtain ⟨c, hc', rfl⟩ := List.mem_map.1 hr
              exact absurd hc (i4 c (List.mem_of_mem_filter (List.mem_dedup.1 hc')))
          · refine ⟨⟨nb', hg, i2, i3⟩, by simp, fun r hr hc => ?_⟩
            rw [d1, d2] at hr
            rcases List.mem_append.1 hr with hr | hr
            · exact i5 r hr hc
            · obtain ⟨c, hc', rfl⟩ := List.mem_map.1 hr
              exact absurd hc (i4 c hc')
      | run m id =>
        simp only [step, onRun]
        split
        · exact ⟨⟨nb', i1, i2, i3⟩, i4, i5⟩
        · rename_i x hx
          by_cases hm : n = m
          · subst hm
            rw [i1] at hx
            cases hx
            have hw : way nb' = .error := by simp [way, i2, i3]
            rw [hw]
            exact ⟨⟨nb', i1, i2, i3⟩, i4, i5⟩
          · split
            · exact ⟨⟨nb', i1, i2, i3⟩, i4, i5⟩
            · refine ⟨⟨nb', i1, i2, i3⟩, fun c hc => ?_, i5⟩
              rcases List.mem_append.1 hc with hc | hc
              · exact i4 c hc
              · simp only [List.mem_singleton] at hc; subst hc; exact fun h => hm h.symm
            · refine ⟨⟨nb', i1, i2, i3⟩, i4, fun r hr hc => ?_⟩
              rcases List.mem_append.1 hr with hr | hr
              · exact i5 r hr hc
              · simp only [List.mem_singleton] at hr; subst hr; exact absurd hc.symm hm
  exact key.2.2

/-- `%load_ext ipyflow`, a run, `%unload_ext ipyflow`, two runs. -/
example : (after ([.opened 0 false true, .ready 0, .run 0 1, .load 0, .establish 0, .schedule 0 true, .run 0 2] ++ .unload 0 :: [.run 0 3, .run 0 1])).log =
    [⟨0, ⟨0, 1⟩⟩, ⟨0, ⟨0, 2⟩⟩] := by decide

example : ∀ r ∈ (after ([.opened 0 false true, .ready 0, .run 0 1, .load 0, .establish 0, .schedule 0 true, .run 0 2] ++ .unload 0 :: [.run 0 3, .run 0 1])).log, r.cell.nb = 0 →
    r ∈ (after [.opened 0 false true, .ready 0, .run 0 1, .load 0, .establish 0, .schedule 0 true, .run 0 2]).log :=
  unloaded _ _ 0 ⟨false, .ready, some ⟨true, true⟩⟩ rfl rfl (by decide) (by decide)

/-- Right after a notebook has got another kernel, its cells are run or put off. -/
theorem changed (es : List Ev) (n id : Nat) (b : Bool) (ho : ∃ a k, Ev.opened n a k ∈ es) :
    ⟨n, ⟨n, id⟩⟩ ∈ (after (es ++ [.change n b, .run n id])).log ∨ ⟨n, id⟩ ∈ (after (es ++ [.change n b, .run n id])).deferred := by
  obtain ⟨a, k, ho⟩ := ho
  obtain ⟨nb, hn⟩ := Option.isSome_iff_exists.1 (open_after ho)
  have : after (es ++ [.change n b, .run n id]) = step (step (after es) (.change n b)) (.run n id) := by
    rw [← after_snoc, ← after_snoc]; simp
  rw [this]
  cases b <;> simp [step, hn, onRun, Assoc.get_set_self, way]

/-- The first kernel is exchanged for one of ipyflow. -/
example : (after [.opened 0 false true, .change 0 true, .run 0 1]).deferred = [⟨0, 1⟩] := by decide

/-- Right after the kernel of a notebook was shut down, running a cell ends with an error. -/
theorem shut_down (es : List Ev) (n id : Nat) (ho : ∃ a k, Ev.opened n a k ∈ es) : ⟨n, id⟩ ∈ (after (es ++ [.shutdown n, .run n id])).broken := by
  obtain ⟨a, k, ho⟩ := ho
  obtain ⟨nb, hn⟩ := Option.isSome_iff_exists.1 (open_after ho)
  have : after (es ++ [.shutdown n, .run n id]) = step (step (after es) (.shutdown n)) (.run n id) := by
    rw [← after_snoc, ← after_snoc]; simp
  rw [this]
  simp [step, hn, onRun, Assoc.get_set_self, way]

example : (after [.opened 0 true true, .ready 0, .establish 0, .shutdown 0, .run 0 1]).broken = [⟨0, 1⟩] := by decide

end Verif.Connect
