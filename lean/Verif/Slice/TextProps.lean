import Verif.Slice.TextLemmas

/-! # Properties of slice text and of memoized seeds: C18, C19 -/

namespace Verif.Slice
open Verif

/-- **C18.** The dict of a slice has exactly one block per cell number that occurs in the closure; its blocks, as
listed in the text, come in strictly increasing cell number, and the block of cell `n` is the texts of the elements of
cell `n`, in their order in the closure, one per line. -/
theorem slice_blocks (closure : List (Int × Text)) :
    ((sortedItems (makeCellDict closure)).map Prod.fst).Pairwise (· < ·) ∧
    (∀ n, n ∈ (sortedItems (makeCellDict closure)).map Prod.fst ↔ ∃ t, (n, t) ∈ closure) ∧
    (∀ n body, (n, body) ∈ sortedItems (makeCellDict closure) →
      body = joinWith ['\n'] ((closure.filter fun x => x.1 = n).map Prod.snd)) := by
  have hi := group_inv closure
  have hkeys : (makeCellDict closure).map Prod.fst = (groupByCell closure).map Prod.fst := by
    simp [makeCellDict, Function.comp_def]
  refine ⟨sortedItems_sorted _ (by rw [hkeys]; exact hi.nodup), ?_, ?_⟩
  · intro n
    rw [((perm_sortedItems _).map _).mem_iff, hkeys, hi.keys]
    simp [List.mem_map]
  · intro n body h
    rw [(perm_sortedItems _).mem_iff] at h
    obtain ⟨e, he, heq⟩ := List.mem_map.1 h
    simp only [Prod.mk.injEq] at heq
    obtain ⟨rfl, rfl⟩ := heq
    rw [(hi.entries e he).1]; rfl

/-- **C18.** Without cell headers, and for a closure in execution order, the text of a slice is the texts of all its
elements, one per line, in execution order: grouping into cells and re-joining loses, repeats and reorders nothing. -/
theorem slice_text_without_headers (closure : List (Int × Text)) (hs : (closure.map Prod.fst).Pairwise (· ≤ ·)) :
    sliceText false (makeCellDict closure) = strip (joinWith ['\n'] (closure.map Prod.snd)) := by
  obtain ⟨h1, h2⟩ := foldl_sorted closure [] hs (by simp) (by simp)
  simp only [List.map_nil, List.flatten_nil, List.nil_append] at h1 h2
  have hkeys : (makeCellDict closure).map Prod.fst = (groupByCell closure).map Prod.fst := by
    simp [makeCellDict, Function.comp_def]
  have hid : sortedItems (makeCellDict closure) = makeCellDict closure :=
    sortedItems_id _ (by rw [hkeys]; exact h1)
  unfold sliceText
  rw [hid]
  have hm : (makeCellDict closure).map (fun e => if false = true then header e.1 ++ e.2 else e.2) =
      ((groupByCell closure).map Prod.snd).map (joinWith ['\n']) := by
    simp [makeCellDict, Function.comp_def]
  simp only [Bool.false_eq_true, if_false] at hm ⊢
  rw [hm, joinWith_flatten]
  · show strip (joinWith ['\n'] ((groupByCell closure).map Prod.snd).flatten) = _
    unfold groupByCell
    rw [h2]
  · intro l hl
    obtain ⟨e, he, rfl⟩ := List.mem_map.1 hl
    exact ((group_inv closure).entries e he).2

/-- **C18.** With headers every cell block is announced by its own cell number, in increasing order. -/
theorem slice_text_with_headers (closure : List (Int × Text)) :
    ∃ cells : List Int, cells.Pairwise (· < ·) ∧ (∀ n, n ∈ cells ↔ ∃ t, (n, t) ∈ closure) ∧
      sliceText true (makeCellDict closure) = strip (joinWith ['\n', '\n'] (cells.map fun n =>
        header n ++ joinWith ['\n'] ((closure.filter fun x => x.1 = n).map Prod.snd))) := by
  obtain ⟨h1, h2, h3⟩ := slice_blocks closure
  refine ⟨(sortedItems (makeCellDict closure)).map Prod.fst, h1, h2, ?_⟩
  unfold sliceText
  simp only [if_true, List.map_map]
  congr 2
  apply List.map_congr_left
  intro e he
  simp only [Function.comp]
  rw [← h3 e.1 e.2 he]

/-- Blackening changes neither the set of cells nor their order, and leaves a block alone when `black` fails on it. -/
theorem blacken_keeps_blocks (black : Text → Option Text) (d : List (Int × Text)) :
    (blackenDict (some black) d).map Prod.fst = d.map Prod.fst ∧
    ∀ n body, (n, body) ∈ d → black body = none → (n, body) ∈ blackenDict (some black) d := by
  refine ⟨by simp [blackenDict, Function.comp_def], ?_⟩
  intro n body h hb
  simp only [blackenDict, List.mem_map]
  exact ⟨(n, body), h, by simp [hb]⟩

example : (([(1, ['a']), (1, ['b']), (3, ['c'])] : List (Int × Text)).map Prod.fst).Pairwise (· ≤ ·) := by decide
example : makeCellDict [(1, ['a']), (3, ['c']), (1, ['b'])] = [(1, ['a', '\n', 'b']), (3, ['c'])] := by decide
example : sliceText false (makeCellDict [(1, ['a']), (1, ['b']), (3, ['c'])]) = ['a', '\n', 'b', '\n', 'c'] := by
  decide

/-! ### Memoized seeds -/

/-- What a seed should be replaced by: the run the value really comes from, at the same statement. -/
def Redirected (skipped : Int → Option Int) (s s' : TimeOrCtr) : Prop :=
  (skipped s.cell = some (-1) ∧ s' = s) ∨
  (∃ m, skipped s.cell = some m ∧ m ≠ -1 ∧ s'.cell = m ∧
    match s, s' with
    | .ctr _, .ctr _ => True
    | .ts t, .ts t' => t'.stmtNum = t.stmtNum
    | _, _ => False)

theorem processSeed_ok_iff (skipped : Int → Option Int) (s s' : TimeOrCtr) :
    processSeed skipped s = .ok s' ↔ Redirected skipped s s' := by
  unfold processSeed Redirected
  cases h : skipped s.cell with
  | none => simp
  | some m =>
    by_cases hm : m = -1
    · subst hm
      simp only [if_true, Except.ok.injEq, Option.some.injEq, true_and]
      constructor
      · rintro rfl; exact .inl rfl
      · rintro (rfl | ⟨m, h1, h2, _⟩)
        · rfl
        · exact absurd h1.symm h2
    · simp only [hm, if_false, Option.some.injEq, false_and, false_or]
      cases s with
      | ctr n =>
        simp only [Except.ok.injEq]
        constructor
        · rintro rfl; exact ⟨m, rfl, hm, rfl, trivial⟩
        · rintro ⟨m', rfl, _, h2, h3⟩
          cases s' with
          | ctr k => simp only [TimeOrCtr.cell] at h2; rw [h2]
          | ts t => exact h3.elim
      | ts t =>
        simp only [Except.ok.injEq]
        constructor
        · rintro rfl; exact ⟨m, rfl, hm, rfl, rfl⟩
        · rintro ⟨m', rfl, _, h2, h3⟩
          cases s' with
          | ctr k => exact h3.elim
          | ts t' =>
            simp only [TimeOrCtr.cell] at h2
            simp only at h3
            rw [← h2, ← h3]

theorem processSeeds_fold (skipped : Int → Option Int) (seeds acc out : List TimeOrCtr)
    (h : seeds.foldlM (fun acc s => match processSeed skipped s with
      | .error e => .error e
      | .ok s' => .ok (setAdd acc s')) acc = (.ok out : Except Err _)) (y : TimeOrCtr) :
    y ∈ out ↔ y ∈ acc ∨ ∃ s ∈ seeds, Redirected skipped s y := by
  induction seeds generalizing acc with
  | nil =>
    simp only [List.foldlM_nil, pure, Except.pure, Except.ok.injEq] at h
    subst h; simp
  | cons s seeds ih =>
    rw [List.foldlM_cons] at h
    cases hs : processSeed skipped s with
    | error e => rw [hs] at h; simp [bind, Except.bind] at h
    | ok s' =>
      rw [hs] at h
      rw [ih _ h]
      have huniq : ∀ z, Redirected skipped s z ↔ z = s' := by
        intro z; rw [← processSeed_ok_iff, hs]; simp [eq_comm]
      simp only [List.mem_cons, exists_eq_or_imp, huniq, setAdd]
      by_cases hx : s' ∈ acc
      · simp only [hx, if_true]
        constructor
        · rintro (h | h)
          · exact .inl h
          · exact .inr (.inr h)
        · rintro (h | rfl | h)
          · exact .inl h
          · exact .inl hx
          · exact .inr h
      · simp only [hx, if_false, List.mem_append, List.mem_singleton]
        tauto

/-- **C19.** The processed seeds are exactly the redirected seeds: a seed of a cell that was not skipped is kept, a seed
of a skipped cell is replaced by the run it was memoized from at the same statement, nothing else is added. -/
theorem memoized_seeds_redirected (skipped : Int → Option Int) (seeds out : List TimeOrCtr)
    (h : processSeeds skipped seeds = .ok out) (y : TimeOrCtr) :
    y ∈ out ↔ ∃ s ∈ seeds, Redirected skipped s y := by
  rw [processSeeds_fold skipped seeds [] out h]
  simp

example : processSeeds (fun n => if n = 5 then some 3 else if n = 3 then some (-1) else none)
    [.ts ⟨5, 2⟩, .ctr 5, .ctr 3] = .ok [.ts ⟨3, 2⟩, .ctr 3] := by decide

end Verif.Slice
