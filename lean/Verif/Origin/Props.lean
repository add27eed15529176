import Verif.Origin.Spec

/-!
# A call of a function is taken to be in the statement that defines it -/

namespace Verif.Origin
open Spec

theorem counter_eq (g : Naming) (code : Nat → List (Option Stmt)) (h : List Run) : (after g code h).counter = h.length := by
  induction h with
  | nil => rfl
  | cons r h ih => simp [after, step, ih]

theorem ran_le {h : List Run} {n : Nat} {r : Run} (q : ran h n = some r) : n ≤ h.length ∧ 0 < n := by
  induction h with
  | nil => simp [ran] at q
  | cons x h ih =>
    unfold ran at q
    by_cases hn : n = h.length + 1
    · simp [hn]
    · rw [if_neg hn] at q
      have := ih q
      simp
      omega

theorem stmts_eq (g : Naming) (code : Nat → List (Option Stmt)) {h : List Run} {n : Nat} {r : Run} (q : ran h n = some r) (l : Nat) :
    (after g code h).stmts n l = ((linesOf code r)[l]?).join := by
  induction h with
  | nil => simp [ran] at q
  | cons x h ih =>
    unfold ran at q
    by_cases hn : n = h.length + 1
    · rw [if_pos hn] at q
      cases q
      simp [after, step, counter_eq, hn]
    · rw [if_neg hn] at q
      rw [← ih q]
      simp [after, step, counter_eq, hn]

theorem map_number (code : Nat → List (Option Stmt)) {h : List Run} {n : Nat} {r : Run} (q : ran h n = some r) :
    (after .byNumber code h).map (.num n) = some n := by
  induction h with
  | nil => simp [ran] at q
  | cons x h ih =>
    unfold ran at q
    by_cases hn : n = h.length + 1
    · simp [after, step, counter_eq, hn, nameOf]
    · rw [if_neg hn] at q
      simp [after, step, counter_eq, hn, nameOf, ih q]

theorem map_text (code : Nat → List (Option Stmt)) {h : List Run} {t n : Nat} (q : Last h t n) :
    (after .byText code h).map (.text t) = some n := by
  induction h with
  | nil => obtain ⟨⟨r, hr, -⟩, -⟩ := q; simp [ran] at hr
  | cons x h ih =>
    obtain ⟨⟨r, hr, ht⟩, hl⟩ := q
    by_cases hx : x.text = t
    · have h1 := hl (h.length + 1) x (by simp [ran]) hx
      have h2 := (ran_le hr).1
      simp at h2
      have : n = h.length + 1 := by omega
      simp [after, step, counter_eq, nameOf, hx, this]
    · have hn : n ≠ h.length + 1 := by
        intro hn
        unfold ran at hr
        rw [if_pos hn] at hr
        cases hr
        exact hx ht
      have hr' : ran h n = some r := by
        unfold ran at hr
        rwa [if_neg hn] at hr
      have := ih ⟨⟨r, hr', ht⟩, fun m y hm hy => hl m y (by
        have := (ran_le hm).1
        unfold ran
        rw [if_neg (by omega)]
        exact hm) hy⟩
      simp [after, step, nameOf, Ne.symm hx, this]

/-- **C190** where the names of the code have the numbers of the runs: a function that some run has defined is seen, when it is called, in the very run and line that define it, whatever was
run or skipped since. -/
theorem numbered (code : Nat → List (Option Stmt)) (h : List Run) (n line f : Nat) (q : Defines code h n line f) :
    position (after .byNumber code h) (.num n) = n ∧ seenAs (after .byNumber code h) (.num n) line = some (.fn f) := by
  obtain ⟨r, hr, hs, hc⟩ := q
  have hp : position (after .byNumber code h) (.num n) = n := by simp [position, map_number code hr]
  refine ⟨hp, ?_⟩
  simp [seenAs, hp, stmts_eq _ _ hr, linesOf, hs, hc]

/-- **C190** (partial): where the names of the code have only the texts, a function is seen as its definition if the last run of a cell with this text was not skipped; the position is in
this last run.

Full statement: the same whatever was run or skipped since, and the position is in the run that has defined the function. It is false, see `skipped_lost`, `elsewhere`. -/
theorem texts_partial (code : Nat → List (Option Stmt)) (h : List Run) (n m line f : Nat) (r last : Run) (q : Defines code h n line f) (hr : ran h n = some r)
    (hl : Last h r.text m) (hm : ran h m = some last) (hs : last.stub = none) :
    position (after .byText code h) (.text r.text) = m ∧ seenAs (after .byText code h) (.text r.text) line = some (.fn f) := by
  obtain ⟨r', hr', -, hc⟩ := q
  rw [hr] at hr'
  cases hr'
  have hp : position (after .byText code h) (.text r.text) = m := by simp [position, map_text code hl]
  refine ⟨hp, ?_⟩
  obtain ⟨⟨x, hx, ht⟩, -⟩ := hl
  rw [hm] at hx
  cases hx
  simp [seenAs, hp, stmts_eq _ _ hm, linesOf, hs, ht, hc]

/-- **C190** (violated): once the last run of a cell with this text was skipped, no function that the text defines is seen as its definition any more: calls of those in the first line are
taken to be in the statement that was run in place of the cell, calls of all others are not followed. -/
theorem skipped_lost (code : Nat → List (Option Stmt)) (h : List Run) (m line : Nat) (t : Nat) (last : Run) (b : Stub) (hl : Last h t m) (hm : ran h m = some last) (hs : last.stub = some b) :
    seenAs (after .byText code h) (.text t) line =
      if line = 0 then some (match b with | .quiet => .pass | .shows k => .out k) else none := by
  simp only [seenAs, position, map_text code hl, Option.getD_some, stmts_eq _ _ hm, linesOf, hs]
  cases line with
  | zero => cases b <;> rfl
  | succ l => simp

/-- **C190** (violated): when a text is run again, in whatever cell, the position of calls of the functions of all its earlier runs is in the new run. -/
theorem elsewhere (code : Nat → List (Option Stmt)) (h : List Run) (x : Run) (n : Nat) (hn : n ≤ h.length) :
    position (after .byText code (x :: h)) (.text x.text) ≠ n := by
  simp [position, after, step, counter_eq, nameOf]
  omega

/-- **C190**: running a cell with another text changes neither the position nor the statement of calls of the functions of a text that was run before. -/
theorem others_keep (code : Nat → List (Option Stmt)) (h : List Run) (x : Run) (t n line : Nat) (hl : Last h t n) (hx : x.text ≠ t) :
    position (after .byText code (x :: h)) (.text t) = position (after .byText code h) (.text t) ∧
      seenAs (after .byText code (x :: h)) (.text t) line = seenAs (after .byText code h) (.text t) line := by
  have hle : n ≤ h.length := by obtain ⟨⟨r, hr, -⟩, -⟩ := hl; exact (ran_le hr).1
  have hp := map_text code hl
  have : position (after .byText code (x :: h)) (.text t) = n := by
    simp [position, after, step, nameOf, Ne.symm hx, hp]
  have h2 : position (after .byText code h) (.text t) = n := by simp [position, hp]
  refine ⟨by rw [this, h2], ?_⟩
  simp only [seenAs, this, h2]
  have : n ≠ h.length + 1 := by omega
  simp [after, step, counter_eq, this]

end Verif.Origin
