import Verif.Garbage.Lemmas

/-!
# What is not named any more is let go of, and nothing else (C117)

The full claim: after a collection the tracker has references only to objects that the notebook still names, and it still
knows all parts of those that it recorded. It is wrong (`Witness.lean`); these theorems are about notebooks that do only what
`Spec.Allowed` allows, and for the first part objects must not contain themselves.
-/

namespace Verif.Garbage
open Verif Verif.Garbage.Spec

variable {O K : Type} [DecidableEq O] [DecidableEq K]

/-- After a collection the tracker holds only objects that are named. -/
theorem freed_partial {n : Nat} {k0 : K} {l : List (Op O K)} {s : St O K} (hf : Fine Notebook.new (l ++ [.gc]))
    (hc : Acyclic (history Notebook.new l).heap) (hr : Runs n (empty k0) (l ++ [.gc]) s) (o : O) (ho : Held s o) :
    Named (history Notebook.new l).heap o := by
  have hinv := runs_spec hr (inv_empty k0) hf
  have hheap : (history Notebook.new (l ++ [.gc]) : Notebook O K).heap = (history Notebook.new l).heap := by
    rw [history, List.foldl_append]; rfl
  have hlast : ∀ a v, s.obj a = some v → s.tomb a = false := by
    obtain ⟨s0, hr0, he⟩ : ∃ s0, Runs n (empty k0) l s0 ∧ s = gc s0 := by
      clear hinv hc hf ho hheap
      generalize empty k0 = e at hr
      induction l generalizing e with
      | nil =>
        cases hr with
        | cons _ s1 _ _ _ h1 h2 => cases h2; injection h1 with h1; exact ⟨e, .nil e, h1.symm⟩
      | cons op l ih =>
        cases hr with
        | cons _ s1 _ _ _ h1 h2 =>
          obtain ⟨s0, h3, h4⟩ := ih s1 h2
          exact ⟨s0, .cons _ _ _ _ _ h1 h3, h4⟩
    have hf0 : Fine (Notebook.new : Notebook O K) l := by
      clear hinv hc hr ho hheap hr0
      generalize (Notebook.new : Notebook O K) = g at hf
      induction l generalizing g with
      | nil => trivial
      | cons op l ih => exact ⟨hf.1, ih _ hf.2⟩
    have h0 := runs_spec hr0 (inv_empty k0) hf0
    intro a v hv
    subst he
    have := ((gc_spec h0.1 h0.2).2.2 a v hv).2
    have ht : (gc s0).tomb = s0.tomb := (collects_spec (garbage s0) s0 h0.1.names h0.1.nodup).tomb
    rw [ht]; exact this
  rw [← hheap] at hc ⊢
  obtain ⟨a, ha, ht⟩ : ∃ a, s.obj a = some o ∧ s.tomb a = false := by
    rcases ho with ho | ho
    · by_cases hd : s.dead o = true
      · have : s.dead o = false := by
          obtain ⟨s0, he⟩ : ∃ s0, s = gc s0 := by
            clear hinv hc hf hheap hlast ho hd
            generalize empty k0 = e at hr
            induction l generalizing e with
            | nil =>
              cases hr with
              | cons _ s1 _ _ _ h1 h2 => cases h2; injection h1 with h1; exact ⟨e, h1.symm⟩
            | cons op l ih =>
              cases hr with
              | cons _ s1 _ _ _ h1 h2 => exact ih s1 h2
          rw [he]; rfl
        rw [this] at hd; exact absurd hd (by simp)
      · exact hinv.2.named o ho (by simpa using hd)
    · obtain ⟨a, ha⟩ := List.exists_mem_of_ne_nil _ ho
      have ha := (hinv.1.names a o).1 ha
      exact ⟨a, ha, hlast a o ha⟩
  have hh := home_of_live hinv.1 hinv.2 hc o a ha ht
  obtain ⟨hg, _⟩ := (hinv.2.live a o ha ht).resolve_left (by simp)
  have hv := hinv.1.heap _ _ a o hg ha
  cases e : s.home a with
  | none => rw [e] at hv; exact .var _ _ hv
  | some p => rw [e] at hv; exact .part p _ _ (hh p e) hv

/-- Whatever is done, the tracker knows what the variables are and what the parts of named objects are that were assigned. -/
theorem kept_partial {n : Nat} {k0 : K} {l : List (Op O K)} {s : St O K} (hf : Fine Notebook.new l)
    (hr : Runs n (empty k0) l s) (h : Option O) (k : K) (o : O) (hh : Home (history Notebook.new l).heap h)
    (hv : (history Notebook.new l).heap h k = some o) : Recorded s h k o := by
  have hinv := runs_spec hr (inv_empty k0) hf
  obtain ⟨a, hg, ho⟩ := hinv.1.kept h k o hv hh
  exact ⟨a, Assoc.mem_of_get hg, ho⟩

/-- What the tracker knows is so. -/
theorem known_partial {n : Nat} {k0 : K} {l : List (Op O K)} {s : St O K} (hf : Fine Notebook.new l)
    (hr : Runs n (empty k0) l s) (h : Option O) (k : K) (o : O) (hv : Recorded s h k o) :
    (history Notebook.new l).heap h k = some o := by
  have hinv := runs_spec hr (inv_empty k0) hf
  obtain ⟨a, hg, ho⟩ := hv
  exact hinv.1.heap h k a o ((Assoc.get_eq_some_iff (hinv.1.nodup h)).2 hg) ho

/-- The tracker holds all objects that are named. -/
theorem held_partial {n : Nat} {k0 : K} {l : List (Op O K)} {s : St O K} (hf : Fine Notebook.new l)
    (hr : Runs n (empty k0) l s) (o : O) (hv : Named (history Notebook.new l).heap o) : Held s o := by
  have hinv := runs_spec hr (inv_empty k0) hf
  obtain ⟨a, ha, _⟩ := live_of_named hinv.1 hinv.2 hv
  exact .inr (List.ne_nil_of_mem ((hinv.1.names a o).2 ha))

/-- Marking ends, however objects are nested: the number of symbols made so far is enough. -/
theorem marking_ends_partial {n : Nat} {k0 : K} {l : List (Op O K)} {s : St O K} (hf : Fine Notebook.new l)
    (hr : Runs n (empty k0) l s) (m : Nat) (hm : s.next < m) (op : Op O K) : ∃ t, step m s op = .ok t :=
  step_ends (runs_spec hr (inv_empty k0) hf).1.plain hm op

end Verif.Garbage
