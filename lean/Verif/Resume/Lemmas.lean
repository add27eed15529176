import Verif.Resume.Spec

/-! # Lemmas about generators -/

namespace Verif.Resume

theorem value_cons (l : List ((Nat × Nat) × Nat)) (f x o f' x' : Nat) :
    value (((f, x), o) :: l) f' x' = if (f', x') = (f, x) then some o else value l f' x' := by
  simp only [value, Prod.mk.injEq, eq_comm]

/-- What is true after a quiet history. -/
structure Inv (h : List Ev) : Prop where
  len : (run h).off ≤ (real h).stack.length
  rel : List.Forall₂ (fun s (r : Nat × Bool) => r.2 = false → s = r.1) (run h).stack
    ((real h).stack.drop (run h).off)
  nums : ∀ r ∈ (real h).stack, r.2 = false → 0 < r.1 ∧ r.1 ≤ (real h).count
  next : (run h).next = (real h).count + 1
  oldRecs : ∀ f x o, Assoc.get (run h).recs (f, x) = some o → f ≤ (real h).count
  oldVars : ∀ f x o, value (real h).vars f x = some o → f ≤ (real h).count
  zone : ∀ r ∈ (real h).stack.take (run h).off, r.2 = false →
    (∀ x, Assoc.get (run h).recs (r.1, x) = none) ∧
      (r.1, false) ∉ (real h).stack.drop (run h).off
  values : ∀ f x o, Assoc.get (run h).recs (f, x) = some o → value (real h).vars f x = some o
  full : ∀ f x, (f = 0 ∨ (f, false) ∈ (real h).stack.drop (run h).off) →
    Assoc.get (run h).recs (f, x) = value (real h).vars f x
  reads : ∀ u ∈ (run h).uses, u ∈ (real h).reads

theorem inv_nil : Inv [] :=
  { len := by simp [run, start]
    rel := by simp [run, start, real]
    nums := by simp [real]
    next := rfl
    oldRecs := by simp [run, start]
    oldVars := by simp [real, value]
    zone := by simp [real]
    values := by simp [run, start]
    full := by simp [run, start, real, value]
    reads := by simp [run, start] }

theorem Inv.fresh {h : List Ev} (i : Inv h) (x : Nat) :
    Assoc.get (run h).recs ((real h).count + 1, x) = none ∧
      value (real h).vars ((real h).count + 1) x = none := by
  constructor
  · cases hg : Assoc.get (run h).recs ((real h).count + 1, x) with
    | none => rfl
    | some o => have := i.oldRecs _ _ _ hg; omega
  · cases hg : value (real h).vars ((real h).count + 1) x with
    | none => rfl
    | some o => have := i.oldVars _ _ _ hg; omega

/-- The scope of the running code, if tracing is on and it has not gone on. -/
theorem Inv.cur {h : List Ev} (i : Inv h) (hoff : (run h).off = 0) (hg : ¬GoneOn h) :
    cur (run h) = running (real h) ∧
      (running (real h) = 0 ∨ (running (real h), false) ∈ (real h).stack) := by
  have hrel := i.rel
  rw [hoff, List.drop_zero] at hrel
  cases hs : (real h).stack with
  | nil =>
    rw [hs] at hrel
    cases hst : (run h).stack with
    | nil => simp [Resume.cur, running, hs, hst]
    | cons s l => rw [hst] at hrel; cases hrel
  | cons r l =>
    rw [hs] at hrel
    cases hst : (run h).stack with
    | nil => rw [hst] at hrel; cases hrel
    | cons s l' =>
      rw [hst] at hrel
      obtain ⟨n, k⟩ := r
      cases hrel with
      | cons h1 _ =>
        have hk : k = false := by
          cases k with
          | false => rfl
          | true => exact absurd (by simp [GoneOn, hs]) hg
        subst hk
        have hsn : s = n := h1 rfl
        simp [Resume.cur, running, hs, hst, hsn]

theorem Inv.find {h : List Ev} (i : Inv h) (hoff : (run h).off = 0) (hg : ¬GoneOn h) (x : Nat) :
    find (run h).recs (Resume.cur (run h)) x =
      if value (real h).vars (running (real h)) x ≠ none then some (running (real h), x)
      else if value (real h).vars 0 x ≠ none then some (0, x)
      else none := by
  obtain ⟨h1, h2⟩ := i.cur hoff hg
  rw [Resume.find, h1, i.full (running (real h)) x (by rw [hoff, List.drop_zero]; exact h2),
    i.full 0 x (Or.inl rfl)]

theorem inv_store {h : List Ev} (i : Inv h) (hg : ¬GoneOn h) (x o : Nat) :
    Inv (.store x o :: h) := by
  by_cases hoff : (run h).off = 0
  · obtain ⟨h1, h2⟩ := i.cur hoff hg
    have hrun : run (.store x o :: h) =
        { run h with recs := Assoc.set (run h).recs (running (real h), x) o } := by
      simp [run, step, hoff, h1]
    have hle : running (real h) ≤ (real h).count := by
      rcases h2 with h2 | h2
      · omega
      · exact (i.nums _ h2 rfl).2
    constructor
    · rw [hrun]; exact i.len
    · rw [hrun]; exact i.rel
    · exact i.nums
    · rw [hrun]; exact i.next
    · intro f x' o' hr
      rw [hrun] at hr
      simp only [Assoc.get_set] at hr
      by_cases hc : (f, x') = (running (real h), x)
      · cases hc; exact hle
      · rw [if_neg hc] at hr; exact i.oldRecs f x' o' hr
    · intro f x' o' hr
      simp only [real, value_cons] at hr
      by_cases hc : (f, x') = (running (real h), x)
      · cases hc; exact hle
      · rw [if_neg hc] at hr; exact i.oldVars f x' o' hr
    · rw [hrun]
      intro r hr
      simp only [hoff, List.take_zero] at hr
      simp at hr
    · intro f x' o' hr
      rw [hrun] at hr
      simp only [Assoc.get_set] at hr
      simp only [real, value_cons]
      by_cases hc : (f, x') = (running (real h), x)
      · rw [if_pos hc] at hr ⊢; exact hr
      · rw [if_neg hc] at hr ⊢; exact i.values f x' o' hr
    · intro f x' hf
      rw [hrun] at hf ⊢
      simp only [Assoc.get_set, real, value_cons]
      by_cases hc : (f, x') = (running (real h), x)
      · rw [if_pos hc, if_pos hc]
      · rw [if_neg hc, if_neg hc]; exact i.full f x' hf
    · rw [hrun]; exact i.reads
  · have hrun : run (.store x o :: h) = run h := by simp [run, step, hoff]
    -- the running call is one that is not traced
    have hz : (running (real h), false) ∈ (real h).stack.take (run h).off ∧
        0 < running (real h) ∧ running (real h) ≤ (real h).count := by
      cases hs : (real h).stack with
      | nil => have := i.len; rw [hs] at this; simp at this; exact absurd this hoff
      | cons r l =>
        obtain ⟨n, k⟩ := r
        have hk : k = false := by
          cases k with
          | false => rfl
          | true => exact absurd (by simp [GoneOn, hs]) hg
        subst hk
        have hn := i.nums (n, false) (by rw [hs]; exact List.mem_cons_self) rfl
        refine ⟨?_, by simpa [running, hs] using hn⟩
        cases ho : (run h).off with
        | zero => exact absurd ho hoff
        | succ m => simp [running, hs]
    obtain ⟨hz1, hz2, hz3⟩ := hz
    obtain ⟨hz4, hz5⟩ := i.zone _ hz1 rfl
    constructor
    · rw [hrun]; exact i.len
    · rw [hrun]; exact i.rel
    · exact i.nums
    · rw [hrun]; exact i.next
    · rw [hrun]; exact i.oldRecs
    · intro f x' o' hr
      simp only [real, value_cons] at hr
      by_cases hc : (f, x') = (running (real h), x)
      · cases hc; exact hz3
      · rw [if_neg hc] at hr; exact i.oldVars f x' o' hr
    · rw [hrun]; exact i.zone
    · intro f x' o' hr
      rw [hrun] at hr
      simp only [real, value_cons]
      by_cases hc : (f, x') = (running (real h), x)
      · cases hc
        rw [hz4 x] at hr
        simp at hr
      · rw [if_neg hc]; exact i.values f x' o' hr
    · intro f x' hf
      rw [hrun] at hf ⊢
      simp only [real, value_cons]
      by_cases hc : (f, x') = (running (real h), x)
      · cases hc
        rcases hf with hf | hf
        · omega
        · exact absurd hf hz5
      · rw [if_neg hc]; exact i.full f x' hf
    · rw [hrun]; exact i.reads

theorem inv_load {h : List Ev} (i : Inv h) (hg : ¬GoneOn h) (n x : Nat) :
    Inv (.load n x :: h) := by
  by_cases hoff : (run h).off = 0
  · have hrun : run (.load n x :: h) =
        { run h with uses := (n, find (run h).recs (cur (run h)) x) :: (run h).uses } := by
      simp [run, step, hoff]
    constructor
    · rw [hrun]; exact i.len
    · rw [hrun]; exact i.rel
    · exact i.nums
    · rw [hrun]; exact i.next
    · rw [hrun]; exact i.oldRecs
    · exact i.oldVars
    · rw [hrun]; exact i.zone
    · rw [hrun]; exact i.values
    · rw [hrun]; exact i.full
    · rw [hrun, i.find hoff hg]
      intro u hu
      simp only [real, List.mem_cons] at hu ⊢
      rcases hu with hu | hu
      · exact Or.inl hu
      · exact Or.inr (i.reads u hu)
  · have hrun : run (.load n x :: h) = run h := by simp [run, step, hoff]
    constructor
    · rw [hrun]; exact i.len
    · rw [hrun]; exact i.rel
    · exact i.nums
    · rw [hrun]; exact i.next
    · rw [hrun]; exact i.oldRecs
    · exact i.oldVars
    · rw [hrun]; exact i.zone
    · rw [hrun]; exact i.values
    · rw [hrun]; exact i.full
    · rw [hrun]
      exact fun u hu => List.mem_cons_of_mem _ (i.reads u hu)

/-- A call, or a generator going on: `r` is what is put on the stack, `s` the scope. -/
theorem push_cases (st : St) (key site s : Nat) :
    (∃ l, push st key site s = { st with stack := s :: st.stack, last := l } ∧ st.off = 0) ∨
      push st key site s = { st with off := st.off + 1 } := by
  by_cases h0 : st.off = 0
  · by_cases hl : Assoc.get st.last key = some site
    · exact Or.inr (by simp [push, h0, hl])
    · exact Or.inl ⟨Assoc.set st.last key site, by simp [push, h0, hl], h0⟩
  · exact Or.inr (by simp [push, h0])

theorem inv_call {h : List Ev} (i : Inv h) (key site : Nat) : Inv (.call key site :: h) := by
  have hnums : ∀ r ∈ (real (.call key site :: h)).stack, r.2 = false →
      0 < r.1 ∧ r.1 ≤ (real (.call key site :: h)).count := by
    intro r hr hk
    simp only [real, List.mem_cons] at hr ⊢
    rcases hr with rfl | hr
    · exact ⟨by simp, by simp⟩
    · have := i.nums r hr hk; exact ⟨this.1, by omega⟩
  rcases push_cases (run h) key site (run h).next with ⟨l, hp, hoff⟩ | hp
  · have hrun : run (.call key site :: h) = { run h with
        stack := ((real h).count + 1) :: (run h).stack, last := l,
        next := (real h).count + 1 + 1 } := by
      simp only [run, step, hp]
      simp [i.next]
    constructor
    · rw [hrun]; simp [hoff]
    · have hrel := i.rel
      rw [hoff, List.drop_zero] at hrel
      rw [hrun]
      simp only [real, hoff, List.drop_zero]
      exact .cons (fun _ => rfl) hrel
    · exact hnums
    · rw [hrun]; rfl
    · rw [hrun]
      intro f x o hr
      have := i.oldRecs f x o hr
      simp only [real]; omega
    · intro f x o hr
      have := i.oldVars f x o hr
      simp only [real]; omega
    · rw [hrun]
      intro r hr
      simp [hoff] at hr
    · rw [hrun]; exact i.values
    · rw [hrun]
      intro f x hf
      simp only [real, hoff, List.drop_zero, List.mem_cons, Prod.mk.injEq, and_true] at hf ⊢
      rcases hf with hf | hf | hf
      · exact i.full f x (Or.inl hf)
      · subst hf; rw [(i.fresh x).1, (i.fresh x).2]
      · exact i.full f x (Or.inr (by rw [hoff]; exact hf))
    · rw [hrun]; exact i.reads
  · have hrun : run (.call key site :: h) = { run h with
        off := (run h).off + 1, next := (real h).count + 1 + 1 } := by
      simp only [run, step, hp]
      simp [i.next]
    constructor
    · rw [hrun]; simp [real, i.len]
    · rw [hrun]; simpa [real] using i.rel
    · exact hnums
    · rw [hrun]; rfl
    · rw [hrun]
      intro f x o hr
      have := i.oldRecs f x o hr
      simp only [real]; omega
    · intro f x o hr
      have := i.oldVars f x o hr
      simp only [real]; omega
    · rw [hrun]
      intro r hr hk
      simp only [real, List.take_succ_cons, List.mem_cons, List.drop_succ_cons] at hr ⊢
      rcases hr with rfl | hr
      · refine ⟨fun x => (i.fresh x).1, fun hc => ?_⟩
        have := i.nums _ (List.mem_of_mem_drop hc) rfl
        simp only at this
        omega
      · exact i.zone r hr hk
    · rw [hrun]; exact i.values
    · rw [hrun]
      intro f x hf
      simp only [real, List.drop_succ_cons] at hf ⊢
      exact i.full f x hf
    · rw [hrun]; exact i.reads

theorem inv_resume {h : List Ev} (i : Inv h) (g y site : Nat) : Inv (.resume g y site :: h) := by
  have hnums : ∀ r ∈ (real (.resume g y site :: h)).stack, r.2 = false →
      0 < r.1 ∧ r.1 ≤ (real (.resume g y site :: h)).count := by
    intro r hr hk
    simp only [real, List.mem_cons] at hr ⊢
    rcases hr with rfl | hr
    · simp at hk
    · exact i.nums r hr hk
  rcases push_cases (run h) y site (cur (run h)) with ⟨l, hp, hoff⟩ | hp
  · have hrun : run (.resume g y site :: h) = { run h with
        stack := cur (run h) :: (run h).stack, last := l } := by
      simp [run, step, hp]
    constructor
    · rw [hrun]; simp [hoff]
    · have hrel := i.rel
      rw [hoff, List.drop_zero] at hrel
      rw [hrun]
      simp only [real, hoff, List.drop_zero]
      exact .cons (by simp) hrel
    · exact hnums
    · rw [hrun]; exact i.next
    · rw [hrun]; exact i.oldRecs
    · exact i.oldVars
    · rw [hrun]
      intro r hr
      simp [hoff] at hr
    · rw [hrun]; exact i.values
    · rw [hrun]
      intro f x hf
      simp only [real, hoff, List.drop_zero, List.mem_cons, Prod.mk.injEq,
        Bool.false_eq_true, and_false, false_or] at hf ⊢
      exact i.full f x (by rw [hoff]; exact hf)
    · rw [hrun]; exact i.reads
  · have hrun : run (.resume g y site :: h) = { run h with off := (run h).off + 1 } := by
      simp [run, step, hp]
    constructor
    · rw [hrun]; simp [real, i.len]
    · rw [hrun]; simpa [real] using i.rel
    · exact hnums
    · rw [hrun]; exact i.next
    · rw [hrun]; exact i.oldRecs
    · exact i.oldVars
    · rw [hrun]
      intro r hr hk
      simp only [real, List.take_succ_cons, List.mem_cons, List.drop_succ_cons] at hr ⊢
      rcases hr with rfl | hr
      · simp at hk
      · exact i.zone r hr hk
    · rw [hrun]; exact i.values
    · rw [hrun]
      intro f x hf
      simp only [real, List.drop_succ_cons] at hf ⊢
      exact i.full f x hf
    · rw [hrun]; exact i.reads

theorem inv_leave {h : List Ev} (i : Inv h) : Inv (.leave :: h) := by
  have hnums : ∀ r ∈ (real (.leave :: h)).stack, r.2 = false →
      0 < r.1 ∧ r.1 ≤ (real (.leave :: h)).count :=
    fun r hr => i.nums r (List.mem_of_mem_tail hr)
  by_cases hoff : (run h).off = 0
  · have hrun : run (.leave :: h) = { run h with stack := (run h).stack.tail } := by
      simp [run, step, hoff]
    constructor
    · rw [hrun]; simp [hoff]
    · have hrel := i.rel
      rw [hoff, List.drop_zero] at hrel
      rw [hrun]
      simp only [real, hoff, List.drop_zero]
      revert hrel
      generalize (run h).stack = a
      generalize (real h).stack = b
      intro hrel
      cases hrel with
      | nil => exact .nil
      | cons _ h2 => exact h2
    · exact hnums
    · rw [hrun]; exact i.next
    · rw [hrun]; exact i.oldRecs
    · exact i.oldVars
    · rw [hrun]
      intro r hr
      simp [hoff] at hr
    · rw [hrun]; exact i.values
    · rw [hrun]
      intro f x hf
      simp only [real, hoff, List.drop_zero] at hf ⊢
      refine i.full f x (hf.imp id fun hf => ?_)
      rw [hoff]; exact List.mem_of_mem_tail hf
    · rw [hrun]; exact i.reads
  · obtain ⟨m, hm⟩ : ∃ m, (run h).off = m + 1 := ⟨(run h).off - 1, by omega⟩
    have hrun : run (.leave :: h) = { run h with off := m } := by
      simp [run, step, hm]
    obtain ⟨r0, l, hs⟩ : ∃ r0 l, (real h).stack = r0 :: l := by
      cases hs : (real h).stack with
      | nil => have := i.len; rw [hs, hm] at this; simp at this
      | cons r0 l => exact ⟨r0, l, rfl⟩
    have hreal : (real (.leave :: h)).stack = l := by simp [real, hs]
    constructor
    · rw [hrun, hreal]
      have := i.len
      rw [hs, hm] at this
      simpa using this
    · have hrel := i.rel
      rw [hs, hm, List.drop_succ_cons] at hrel
      rw [hrun, hreal]
      exact hrel
    · exact hnums
    · rw [hrun]; exact i.next
    · rw [hrun]; exact i.oldRecs
    · exact i.oldVars
    · rw [hrun, hreal]
      intro r hr hk
      have := i.zone r (by rw [hs, hm, List.take_succ_cons]; exact List.mem_cons_of_mem _ hr) hk
      rw [hs, hm, List.drop_succ_cons] at this
      exact this
    · rw [hrun]; exact i.values
    · rw [hrun, hreal]
      intro f x hf
      exact i.full f x (by rw [hs, hm, List.drop_succ_cons]; exact hf)
    · rw [hrun]; exact i.reads

theorem inv_of_quiet : (h : List Ev) → Quiet h → Inv h
  | [], _ => inv_nil
  | e :: h, hq => by
    cases e with
    | call key site => exact inv_call (inv_of_quiet h hq) key site
    | resume g y site => exact inv_resume (inv_of_quiet h hq) g y site
    | leave => exact inv_leave (inv_of_quiet h hq)
    | store x o => exact inv_store (inv_of_quiet h hq.2) hq.1 x o
    | load n x => exact inv_load (inv_of_quiet h hq.2) hq.1 n x
    | cell =>
      have i := inv_of_quiet h hq
      exact ⟨i.len, i.rel, i.nums, i.next, i.oldRecs, i.oldVars, i.zone, i.values, i.full,
        i.reads⟩

/-- Statements from which nothing was called yet. -/
theorem last_unused (h : List Ev) (y : Nat) (hu : Unused h y) :
    Assoc.get (run h).last y = none := by
  induction h with
  | nil => rfl
  | cons e h ih =>
    have ih := ih ⟨fun s hc => hu.1 s (List.mem_cons_of_mem _ hc),
      fun g s hc => hu.2 g s (List.mem_cons_of_mem _ hc)⟩
    cases e with
    | call key site =>
      have hne : y ≠ key := by
        intro hc; subst hc; exact hu.1 site List.mem_cons_self
      simp only [run, step, push]
      split
      · exact ih
      · split
        · exact ih
        · simp only [Assoc.get_set, if_neg hne]; exact ih
    | resume g key site =>
      have hne : y ≠ key := by
        intro hc; subst hc; exact hu.2 g site List.mem_cons_self
      simp only [run, step, push]
      split
      · exact ih
      · split
        · exact ih
        · simp only [Assoc.get_set, if_neg hne]; exact ih
    | leave => simp only [run, step]; split <;> exact ih
    | store x o => simp only [run, step]; split <;> exact ih
    | load n x => simp only [run, step]; split <;> exact ih
    | cell => rfl

end Verif.Resume
