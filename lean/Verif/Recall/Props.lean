import Verif.Recall.Lemmas

/-!
# Looking back at what was run, proved -/

namespace Verif.Recall

/-! ### C157: the cell that was run last -/

/-- The cell that was run last is the one whose run came right before, if that run was kept in the history of IPython, or if this one is not. -/
theorem last_run_partial {start : Nat} (hs : 1 ≤ start) (limit : Nat) (l : Run) (h : List Run) (r : Run) (hk : l.hist = true ∨ r.hist = false) :
    lastRun limit start (l :: h) r = .ok h.length := by
  have H := num_of limit hs (l :: h)
  have hc : (begin (run limit start (l :: h)) r).counter = (run limit start (l :: h)).counter + 1 := by
    show (if _ then _ else _) = _
    rw [if_neg]
    rintro ⟨hr, hn⟩
    rcases hk with hk | hk
    · exact hn (H.hist l h rfl hk).symm
    · rw [hr] at hk
      cases hk
  have hb : (begin (run limit start (l :: h)) r).byCtr ((begin (run limit start (l :: h)) r).counter - 1) = some h.length := by
    have : ∀ n, (begin (run limit start (l :: h)) r).byCtr n = if n = (begin (run limit start (l :: h)) r).counter then
        some (run limit start (l :: h)).cells.length else (run limit start (l :: h)).byCtr n := fun _ => rfl
    rw [this, hc, if_neg (by omega), Nat.add_sub_cancel, H.last (by simp)]
    simp
  unfold lastRun
  dsimp only
  rw [hb]

/-- In the first run it is an error. -/
theorem first_fails {start : Nat} (hs : 1 ≤ start) (limit : Nat) (r : Run) : lastRun limit start [] r = .error .crash := by
  unfold lastRun
  dsimp only
  have : (begin (run limit start []) r).byCtr ((begin (run limit start []) r).counter - 1) = none := by
    have hb : ∀ n, (begin (run limit start []) r).byCtr n = if n = (begin (run limit start []) r).counter then some 0 else none := fun _ => rfl
    have hc : 1 ≤ (begin (run limit start []) r).counter := by
      show 1 ≤ if r.hist = true ∧ 0 + 1 ≠ start then start else 0 + 1
      split <;> omega
    rw [hb, if_neg (by omega)]
  rw [this]

/-- It is never the run that came right before, if that one was not kept, this one is, and some run before them was. -/
theorem last_run_wrong {start : Nat} (hs : 1 ≤ start) (limit : Nat) {l : Run} {h : List Run} {r : Run} (hl : l.hist = false) (hr : r.hist = true)
    (hh : ∃ q ∈ h, q.hist = true) : lastRun limit start (l :: h) r ≠ .ok h.length := by
  have H := num_of limit hs (l :: h)
  have hle := H.behind l h rfl hl hh
  have hpos := H.pos
  have hc : (begin (run limit start (l :: h)) r).counter = (run limit start (l :: h)).ipy := by
    show (if _ then _ else _) = _
    rw [if_pos ⟨hr, by omega⟩]
  have hb : (begin (run limit start (l :: h)) r).byCtr ((begin (run limit start (l :: h)) r).counter - 1) ≠ some h.length := by
    have : ∀ n, (begin (run limit start (l :: h)) r).byCtr n = if n = (begin (run limit start (l :: h)) r).counter then
        some (run limit start (l :: h)).cells.length else (run limit start (l :: h)).byCtr n := fun _ => rfl
    rw [this, hc, if_neg (by omega)]
    intro hx
    have h1 := H.ctr _ _ hx
    have h2 := H.ctr _ _ (H.last (by simp))
    rw [List.length_cons, Nat.add_sub_cancel] at h2
    rw [h1] at h2
    injection h2 with h2
    omega
  unfold lastRun
  dsimp only
  split
  · rename_i n hn
    intro hx
    injection hx with hx
    rw [hx] at hn
    exact hb hn
  · intro hx
    cases hx

/-! ### C158: what a run wrote -/

/-- The cell of a run holds what it wrote, unless it was let go of. -/
theorem output_ok (limit start : Nat) {later earlier : List Run} {r : Run} (hk : Kept (later ++ r :: earlier)) (hrec : r.recorded = r.traced) :
    output limit start (later ++ r :: earlier) (start + earlier.length) =
      some (if r.traced then if large limit r.wrote && again r.id later then none else some r.wrote else none) := by
  have H := ord_of limit start hk
  unfold output
  dsimp only
  rw [H.by_ctr, if_pos (by rw [List.length_append, List.length_cons]; omega), Nat.add_sub_cancel_left]
  rw [Option.map_some]
  rw [H.cells later r earlier rfl]
  show some (outOf limit later r earlier) = _
  unfold outOf
  rw [lastRecorded, hrec]
  by_cases ht : r.traced = true
  · rw [if_pos ht, if_pos ht, if_pos ht]
  · rw [if_neg ht, if_neg ht]

theorem letGo_iff {limit : Nat} {r : Run} {later : List Run} : (large limit r.wrote && again r.id later) = true ↔ LetGo limit r later := by
  rw [Bool.and_eq_true]
  unfold large again LetGo TooMuch
  rw [decide_eq_true_iff]
  refine and_congr Iff.rfl ?_
  rcases next r.id later with _ | q
  · simp
  · simp

/-- If all runs are kept in the history of IPython, the standard output of each traced and recorded run is found by its number, for good, unless it was too much to be
kept and the cell was run again. -/
theorem stdout_partial (limit start : Nat) {later earlier : List Run} {r : Run} (hk : Kept (later ++ r :: earlier)) (ht : r.traced = true) (hr : r.recorded = true)
    (hl : ¬LetGo limit r later) : stdout limit start (later ++ r :: earlier) (start + earlier.length) = some (some r.wrote.out) := by
  unfold stdout
  rw [output_ok limit start hk (hr.trans ht.symm), if_pos ht, if_neg (fun h => hl (letGo_iff.1 h))]
  rfl

/-- So is its standard error. -/
theorem stderr_partial (limit start : Nat) {later earlier : List Run} {r : Run} (hk : Kept (later ++ r :: earlier)) (ht : r.traced = true) (hr : r.recorded = true)
    (hl : ¬LetGo limit r later) : stderr limit start (later ++ r :: earlier) (start + earlier.length) = some (some r.wrote.err) := by
  unfold stderr
  rw [output_ok limit start hk (hr.trans ht.symm), if_pos ht, if_neg (fun h => hl (letGo_iff.1 h))]
  rfl

/-- There is none if it was let go of. -/
theorem let_go (limit start : Nat) {later earlier : List Run} {r : Run} (hk : Kept (later ++ r :: earlier)) (ht : r.traced = true) (hr : r.recorded = true)
    (hl : LetGo limit r later) : stdout limit start (later ++ r :: earlier) (start + earlier.length) = some none ∧
      stderr limit start (later ++ r :: earlier) (start + earlier.length) = some none := by
  unfold stdout stderr
  rw [output_ok limit start hk (hr.trans ht.symm), if_pos ht, if_pos (letGo_iff.2 hl)]
  exact ⟨rfl, rfl⟩

/-- There is none if the run was not traced, whatever it wrote. -/
theorem untraced_none (limit start : Nat) {later earlier : List Run} {r : Run} (hk : Kept (later ++ r :: earlier)) (ht : r.traced = false) :
    stdout limit start (later ++ r :: earlier) (start + earlier.length) = some none ∧ stderr limit start (later ++ r :: earlier) (start + earlier.length) = some none := by
  have H := ord_of limit start hk
  have : output limit start (later ++ r :: earlier) (start + earlier.length) = some none := by
    unfold output
    dsimp only
    rw [H.by_ctr, if_pos (by rw [List.length_append, List.length_cons]; omega), Nat.add_sub_cancel_left]
    rw [Option.map_some]
    rw [H.cells later r earlier rfl]
    show some (outOf limit later r earlier) = _
    unfold outOf
    rw [ht]
    rfl
  unfold stdout stderr
  rw [this]
  exact ⟨rfl, rfl⟩

/-- Numbers no run has had are errors. -/
theorem unknown_number (limit start : Nat) {h : List Run} (hk : Kept h) (n : Nat) :
    (stdout limit start h n = none ↔ n < start ∨ start + h.length ≤ n) ∧ (stderr limit start h n = none ↔ n < start ∨ start + h.length ≤ n) := by
  have H := ord_of limit start hk
  unfold stdout stderr output
  dsimp only
  rw [H.by_ctr]
  split
  · rw [Option.map_some, Option.map_some, Option.map_some]
    exact ⟨⟨fun h => (by cases h), fun h => (by omega)⟩, ⟨fun h => (by cases h), fun h => (by omega)⟩⟩
  · rw [Option.map_none, Option.map_none, Option.map_none]
    exact ⟨⟨fun _ => (by omega), fun _ => rfl⟩, ⟨fun _ => (by omega), fun _ => rfl⟩⟩

/-- **The output of another run.** A traced run that was not recorded has the output of the last run before it that was. -/
theorem other_output (limit start : Nat) {earlier : List Run} {r : Run} (hk : Kept (r :: earlier)) (ht : r.traced = true) (hr : r.recorded = false) :
    stdout limit start (r :: earlier) (start + earlier.length) = some ((lastRecorded earlier).map (·.out)) := by
  have H := ord_of limit start hk
  have : output limit start (r :: earlier) (start + earlier.length) = some (lastRecorded earlier) := by
    unfold output
    dsimp only
    rw [H.by_ctr, if_pos (by rw [List.length_cons]; omega), Nat.add_sub_cancel_left]
    rw [Option.map_some]
    rw [H.cells [] r earlier rfl]
    show some (outOf limit [] r earlier) = _
    unfold outOf
    rw [if_pos ht, lastRecorded, hr]
    rcases lastRecorded earlier with _ | c
    · rfl
    · show some (if (large limit c && again r.id []) = true then none else some c) = some (some c)
      rw [if_neg (by simp [again, next])]
  unfold stdout
  rw [this]
  rfl

/-- Whether runs are kept or not, the output of the run that was just made is found by some number. -/
theorem own_output (limit start : Nat) (h : List Run) {r : Run} (ht : r.traced = true) (hr : r.recorded = true) :
    ∃ n, stdout limit start (r :: h) n = some (some r.wrote.out) ∧ stderr limit start (r :: h) n = some (some r.wrote.err) := by
  refine ⟨(run limit start (r :: h)).counter, ?_, ?_⟩
  · unfold stdout
    rw [output_own h ht hr]
    rfl
  · unfold stderr
    rw [output_own h ht hr]
    rfl

/-- **A number given twice.** After a run that is kept, one that is not and the next one that is have the same number: what it gives changes. -/
theorem number_twice {start : Nat} (hs : 1 ≤ start) (limit : Nat) (h : List Run) {l p q : Run} (hl : l.hist = true) (hp : p.hist = false) (hq : q.hist = true)
    (htp : p.traced = true) (hrp : p.recorded = true) (htq : q.traced = true) (hrq : q.recorded = true) :
    ∃ n, stdout limit start (p :: l :: h) n = some (some p.wrote.out) ∧ stdout limit start (q :: p :: l :: h) n = some (some q.wrote.out) := by
  have H := num_of limit hs (l :: h)
  have h1 := H.hist l h rfl hl
  have c1 : (run limit start (p :: l :: h)).counter = (run limit start (l :: h)).counter + 1 := by
    have := (finish_frame limit (begin (run limit start (l :: h)) p) p).2.1
    show (finish limit (begin (run limit start (l :: h)) p) p).counter = _
    rw [this]
    show (if _ then _ else _) = _
    rw [if_neg (by simp [hp])]
  have i1 : (run limit start (p :: l :: h)).ipy = (run limit start (l :: h)).ipy := by
    have := (finish_frame limit (begin (run limit start (l :: h)) p) p).1
    show (finish limit (begin (run limit start (l :: h)) p) p).ipy = _
    rw [this, if_neg (by simp [hp])]
    rfl
  have c2 : (run limit start (q :: p :: l :: h)).counter = (run limit start (p :: l :: h)).counter := by
    have := (finish_frame limit (begin (run limit start (p :: l :: h)) q) q).2.1
    show (finish limit (begin (run limit start (p :: l :: h)) q) q).counter = _
    rw [this]
    show (if _ then _ else _) = _
    rw [if_pos ⟨hq, by omega⟩]
    omega
  refine ⟨(run limit start (p :: l :: h)).counter, ?_, ?_⟩
  · unfold stdout
    rw [output_own (l :: h) htp hrp]
    rfl
  · unfold stdout
    rw [← c2, output_own (p :: l :: h) htq hrq]
    rfl

end Verif.Recall
