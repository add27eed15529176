/-
The code shown for an execution, against the code it ran.
-/
import Verif.Shown.Back

namespace Verif.Shown
open Verif

variable {C : Type} [DecidableEq C]

theorem raw_visible (L : Lang C) (c : C) : raw L c = L.visible c := by
  unfold raw Lang.visible Lang.body
  cases h : L.memo c with
  | none => simp
  | some b =>
    by_cases hb : b = L.empty
    · simp [hb]
    · simp [hb]

/-- What is shown for an execution, whatever happened before and after: the code told last before
its cell was run again. -/
theorem shown_exact (L : Lang C) (newer older : List (Event C)) (id : Nat) (c : C) (r : Bool) :
    shown L (replay L (newer ++ .run id c r :: older)) (runs older + 1)
      = .ok (L.clean (L.visible ((edits L id newer).getLast?.getD c))) := by
  obtain ⟨a, o, h1, h2, _, h4, _⟩ := found L older id c r newer
  unfold shown
  rw [h1]
  dsimp only
  rw [h2]
  dsimp only
  rw [h4, raw_visible]

/-- **C142, part.** As long as the editor shows the code that was run, or one that does not parse, until the cell
is run again, the code shown for the execution is the code it ran. -/
theorem shown_ran_partial (L : Lang C) (newer older : List (Event C)) (id : Nat) (c : C)
    (hm : L.memo c ≠ some L.empty) (he : ∀ c' ∈ edits L id newer, c' = c) :
    shown L (replay L (newer ++ .run id c false :: older)) (runs older + 1)
      = .ok (L.clean (L.body c)) := by
  rw [shown_exact]
  have : (edits L id newer).getLast?.getD c = c := by
    cases h : (edits L id newer).getLast? with
    | none => rfl
    | some c' => exact he c' (List.mem_of_getLast? h)
  rw [this]
  unfold Lang.visible
  rw [if_neg hm]

omit [DecidableEq C] in
theorem edits_ends (L : Lang C) (newer : List (Event C)) (id : Nat) (pre post : List (Nat × C))
    (c' : C) (hp : L.parses c' = true) (hu : ∀ p ∈ post, p.1 ≠ id)
    (hn : ∀ e ∈ newer, ¬ IsRun id e) :
    (edits L id (.heard false (pre ++ (id, c') :: post) :: newer)).getLast? = some c' := by
  rw [edits_cons_reign L id _ newer hn]
  have : tells L id (.heard false (pre ++ (id, c') :: post))
      = tells L id (.heard false pre) ++ [c'] := by
    have hpost : post.filter (fun p => p.1 == id && L.parses p.2) = [] := by
      rw [List.filter_eq_nil_iff]
      intro p hp'
      simp [hu p hp']
    simp [tells, List.filter_append, hp, hpost]
  rw [this, ← List.append_assoc, List.getLast?_append]
  rfl

/-- **C142 fails.** As soon as the kernel has heard of an edit, the code shown for the last execution
of the cell is the code in the editor, which has not been run. -/
theorem edit_shown (L : Lang C) (newer older : List (Event C)) (id : Nat) (c c' : C) (r : Bool)
    (pre post : List (Nat × C)) (hp : L.parses c' = true) (hu : ∀ p ∈ post, p.1 ≠ id)
    (hn : ∀ e ∈ newer, ¬ IsRun id e) :
    shown L (replay L (.heard false (pre ++ (id, c') :: post) :: newer ++ .run id c r :: older))
      (runs older + 1) = .ok (L.clean (L.visible c')) := by
  rw [shown_exact, edits_ends L newer id pre post c' hp hu hn]
  rfl

/-- **C142 fails.** Once the cell is run again, the code heard of before is shown for the execution
before it, whatever is done from then on. -/
theorem past_rewritten (L : Lang C) (more newer older : List (Event C)) (id : Nat) (c c' c'' : C)
    (r r' : Bool) (pre post : List (Nat × C)) (hp : L.parses c' = true)
    (hu : ∀ p ∈ post, p.1 ≠ id) (hn : ∀ e ∈ newer, ¬ IsRun id e) :
    shown L (replay L (more ++ .run id c'' r' :: .heard false (pre ++ (id, c') :: post) :: newer
      ++ .run id c r :: older)) (runs older + 1) = .ok (L.clean (L.visible c')) := by
  rw [shown_exact]
  have hrun : edits L id (.run id c'' r' :: .heard false (pre ++ (id, c') :: post) :: newer)
      = edits L id (.heard false (pre ++ (id, c') :: post) :: newer) := by
    rw [edits_cons_reign L id _ (.heard false (pre ++ (id, c') :: post) :: newer) (by
      intro e he
      rcases List.mem_cons.1 he with rfl | he
      · exact not_false
      · exact hn e he)]
    simp [tells]
  have : ∀ more : List (Event C),
      edits L id (more ++ .run id c'' r' :: .heard false (pre ++ (id, c') :: post) :: newer)
        = edits L id (.heard false (pre ++ (id, c') :: post) :: newer) := by
    intro more
    induction more with
    | nil => exact hrun
    | cons e more ih =>
      rw [List.cons_append, edits_cons_after L id e _ ⟨.run id c'' r',
        List.mem_append_right _ List.mem_cons_self, rfl⟩]
      exact ih
  rw [this, edits_ends L newer id pre post c' hp hu hn]
  rfl

/-- **C142 fails.** An execution that was refused ran nothing, but its code is shown. -/
theorem refused_shown (L : Lang C) (newer older : List (Event C)) (id : Nat) (c : C)
    (he : edits L id newer = []) :
    shown L (replay L (newer ++ .run id c true :: older)) (runs older + 1)
        = .ok (L.clean (L.visible c)) ∧
      reproduce L (replay L (newer ++ .run id c true :: older)) (runs older + 1) true 0
        = .error .crash := by
  constructor
  · rw [shown_exact, he]
    rfl
  · obtain ⟨a, o, h1, h2, _, _, h5, _⟩ := found L older id c true newer
    unfold reproduce
    rw [h1]
    simp only [back, h2, h5, if_true, Option.getD_none]

/-- The texts of a slice are those shown for its executions. -/
theorem texts_ok (L : Lang C) (s : State C) (l : List Nat) (out : List (Nat × C))
    (h : texts L s l = .ok out) : out.map Prod.fst = l ∧ ∀ n c, (n, c) ∈ out → shown L s n = .ok c := by
  induction l generalizing out with
  | nil =>
    unfold texts at h
    cases h
    exact ⟨rfl, fun _ _ h => by cases h⟩
  | cons n l ih =>
    unfold texts at h
    cases hs : shown L s n with
    | error e => rw [hs] at h; cases h
    | ok c =>
      rw [hs] at h
      dsimp only at h
      cases ht : texts L s l with
      | error e => rw [ht] at h; cases h
      | ok r =>
        rw [ht] at h
        cases h
        obtain ⟨h1, h2⟩ := ih r ht
        refine ⟨by simp [h1], ?_⟩
        intro m c' hm
        rcases List.mem_cons.1 hm with hm | hm
        · cases hm
          exact hs
        · exact h2 m c' hm

/-- **C142, part.** A slice by cells is the code that its executions ran, if the cells of none of
them were edited before being run again. -/
theorem slice_ran_partial (L : Lang C) (past : List (Event C)) (code : Nat → C) (l : List Nat)
    (h : ∀ n ∈ l, ∃ newer older id, past = newer ++ .run id (code n) false :: older ∧
      runs older + 1 = n ∧ L.memo (code n) ≠ some L.empty ∧
      ∀ c' ∈ edits L id newer, c' = code n) :
    texts L (replay L past) l = .ok (l.map fun n => (n, L.clean (L.body (code n)))) := by
  induction l with
  | nil => rfl
  | cons n l ih =>
    obtain ⟨newer, older, id, hpast, hn, hm, he⟩ := h n List.mem_cons_self
    have h1 := shown_ran_partial L newer older id (code n) hm he
    rw [← hpast, hn] at h1
    unfold texts
    rw [h1, ih fun m hm => h m (List.mem_cons_of_mem _ hm)]
    rfl

/-- **C142 fails.** In every slice that contains an edited execution its entry is the code told
last. -/
theorem slice_entry (L : Lang C) (newer older : List (Event C)) (id : Nat) (c : C) (r : Bool)
    (l : List Nat) (out : List (Nat × C))
    (h : texts L (replay L (newer ++ .run id c r :: older)) l = .ok out)
    (hn : runs older + 1 ∈ l) :
    (runs older + 1, L.clean (L.visible ((edits L id newer).getLast?.getD c))) ∈ out := by
  obtain ⟨h1, h2⟩ := texts_ok L _ l out h
  rw [← h1] at hn
  obtain ⟨⟨n, c'⟩, hm, hnn⟩ := List.mem_map.1 hn
  dsimp only at hnn
  subst hnn
  have := h2 _ _ hm
  rw [shown_exact] at this
  cases this
  exact hm

/-- **C142, part.** `reproduce_cell` prints the code that was run, whatever has been edited since,
and looks up the result of the same execution: of the one asked for or of the one `k` executions of
the cell before. -/
theorem reproduce_exact (L : Lang C) (newer older : List (Event C)) (id : Nat) (c : C) (r : Bool)
    (n i k : Nat) (showInput : Bool)
    (hn : (execs id (newer ++ .run id c r :: older))[i]? = some n)
    (hk : (execs id (newer ++ .run id c r :: older))[i + k]? = some (runs older + 1)) :
    reproduce L (replay L (newer ++ .run id c r :: older)) n showInput k
      = if showInput then
          (if r = true ∨ L.body c = L.empty then .error .crash
            else .ok (some (L.body c), some (runs older + 1)))
        else .ok (none, some (runs older + 1)) := by
  obtain ⟨a, ha, hc⟩ := chain_drop (chain L id _) hn
  obtain ⟨b, hb, hm⟩ := back_found hc (by rw [List.getElem?_drop]; exact hk)
  obtain ⟨b', o, h1, h2, h3, _, h5, _⟩ := found L older id c r newer
  rw [hm] at h1
  cases h1
  unfold reproduce
  rw [ha]
  dsimp only
  rw [hb]
  dsimp only
  rw [h2]
  dsimp only
  rw [h5, h3]
  cases showInput with
  | false => rfl
  | true =>
    cases r with
    | true => simp
    | false =>
      by_cases hb : L.body c = L.empty
      · simp [hb]
      · simp [hb]

/-- **C142 fails.** Looking back beyond the first execution raises, except by one step if the cell
was heard of before it was first run: then the answer is an execution that never was, unless its
input is to be printed. -/
theorem reproduce_beyond (L : Lang C) (past : List (Event C)) (id n i k : Nat) (showInput : Bool)
    (hn : (execs id past)[i]? = some n) (hk : (execs id past).length ≤ i + k) :
    (HeardFirst id past ∧ i + k = (execs id past).length ∧
      reproduce L (replay L past) n showInput k
        = if showInput then .error .crash else .ok (none, none)) ∨
    (¬ (HeardFirst id past ∧ i + k = (execs id past).length) ∧
      reproduce L (replay L past) n showInput k = .error .crash) := by
  obtain ⟨a, ha, hc⟩ := chain_drop (chain L id _) hn
  have hlt : i < (execs id past).length := (List.getElem?_eq_some_iff.1 hn).1
  have hlen : ((execs id past).drop i).length = (execs id past).length - i := List.length_drop
  unfold reproduce
  rw [ha]
  dsimp only
  rcases back_beyond hc (k := k) (by omega) with ⟨h1, h2, b, c, h3, h4⟩ | ⟨h1, h2⟩
  · refine .inl ⟨h1, by omega, ?_⟩
    rw [h3]
    dsimp only
    rw [h4]
    simp
  · refine .inr ⟨fun h => h1 ⟨h.1, by omega⟩, ?_⟩
    rw [h2]

omit [DecidableEq C] in
theorem byCtr_pos (L : Lang C) : ∀ (past : List (Event C)) (n a : Nat),
    (replay L past).byCtr n = some a → 0 < n ∧ n ≤ runs past
  | [], n, a, h => by cases h
  | .run id c r :: past, n, a, h => by
    have hcnt := (replay_inv L past).2
    have h' : set (replay L past).byCtr ((replay L past).counter + 1) (replay L past).next n = some a := h
    by_cases hn : n = (replay L past).counter + 1
    · exact ⟨by omega, by show n ≤ runs past + 1; omega⟩
    · rw [set_ne _ _ hn] at h'
      obtain ⟨h1, h2⟩ := byCtr_pos L past n a h'
      exact ⟨h1, by show n ≤ runs past + 1; omega⟩
  | .heard r msg :: past, n, a, h => by
    have hs := (hear_inv L _ (replay_inv L past).1 r msg).2
    have h' : (hear L (replay L past) r msg).byCtr n = some a := h
    rw [hs.byCtr] at h'
    exact byCtr_pos L past n a h'

omit [DecidableEq C] in
theorem run_of (past : List (Event C)) : ∀ n, 0 < n → n ≤ runs past →
    ∃ newer older id c r, past = newer ++ .run id c r :: older ∧ runs older + 1 = n := by
  induction past with
  | nil => intro n h1 h2; simp only [runs] at h2; omega
  | cons e past ih =>
    intro n h1 h2
    cases e with
    | run i c r =>
      by_cases hn : n = runs past + 1
      · exact ⟨[], past, i, c, r, rfl, hn.symm⟩
      · obtain ⟨newer, older, id, c', r', h, h'⟩ := ih n h1 (by simp only [runs] at h2; omega)
        exact ⟨.run i c r :: newer, older, id, c', r', by rw [h]; rfl, h'⟩
    | heard r msg =>
      obtain ⟨newer, older, id, c', r', h, h'⟩ := ih n h1 h2
      exact ⟨.heard r msg :: newer, older, id, c', r', by rw [h]; rfl, h'⟩

/-- A code is shown for `n` just if that many cells have been run. -/
theorem shown_iff (L : Lang C) (past : List (Event C)) (n : Nat) :
    (∃ c, shown L (replay L past) n = .ok c) ↔ 0 < n ∧ n ≤ runs past := by
  constructor
  · rintro ⟨c, h⟩
    unfold shown at h
    cases hb : (replay L past).byCtr n with
    | none => rw [hb] at h; cases h
    | some a => exact byCtr_pos L past n a hb
  · rintro ⟨h1, h2⟩
    obtain ⟨newer, older, id, c, r, rfl, rfl⟩ := run_of past n h1 h2
    exact ⟨_, shown_exact L newer older id c r⟩

end Verif.Shown
