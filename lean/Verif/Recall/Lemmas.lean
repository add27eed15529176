import Verif.Recall.Spec

/-!
# Lemmas about numbers and outputs of runs -/

namespace Verif.Recall

/-! ### Numbers, in general -/

theorem dropPrev_frame {limit : Nat} {σ σ' : State} {c : Cell} (h : dropPrev limit σ c = .ok σ') :
    σ'.ipy = σ.ipy ∧ σ'.counter = σ.counter ∧ σ'.cells.length = σ.cells.length ∧ σ'.byCtr = σ.byCtr ∧ σ'.current = σ.current ∧ σ'.tee = σ.tee ∧
    (∀ k : Nat, (σ'.cells[k]?).map (·.ctr) = (σ.cells[k]?).map (·.ctr)) ∧ ∀ k : Nat, (σ'.cells[k]?).map (·.history) = (σ.cells[k]?).map (·.history) := by
  unfold dropPrev at h
  split at h
  · split at h
    · cases h
    · split at h
      · injection h with h
        subst h
        split
        · refine ⟨rfl, rfl, by simp [setCaptured], rfl, rfl, rfl, fun k => ?_, fun k => ?_⟩ <;>
          · unfold setCaptured
            dsimp only
            rw [List.getElem?_modify]
            split <;> cases σ.cells[k]? <;> rfl
        · exact ⟨rfl, rfl, rfl, rfl, rfl, rfl, fun _ => rfl, fun _ => rfl⟩
      · injection h with h
        subst h
        exact ⟨rfl, rfl, rfl, rfl, rfl, rfl, fun _ => rfl, fun _ => rfl⟩
  · injection h with h
    subst h
    exact ⟨rfl, rfl, rfl, rfl, rfl, rfl, fun _ => rfl, fun _ => rfl⟩

theorem handleOutput_frame {limit : Nat} {σ σ' : State} (h : handleOutput limit σ = .ok σ') :
    σ'.ipy = σ.ipy ∧ σ'.counter = σ.counter ∧ σ'.cells.length = σ.cells.length ∧ σ'.byCtr = σ.byCtr ∧ σ'.current = σ.current ∧ σ'.tee = σ.tee ∧
    (∀ k : Nat, (σ'.cells[k]?).map (·.ctr) = (σ.cells[k]?).map (·.ctr)) ∧ ∀ k : Nat, (σ'.cells[k]?).map (·.history) = (σ.cells[k]?).map (·.history) := by
  unfold handleOutput at h
  split at h
  · cases h
  · split at h
    · cases h
    · split at h
      · cases h
      · rename_i τ hd
        have hd := dropPrev_frame hd
        split at h
        · injection h with h
          subst h
          exact hd
        · injection h with h
          subst h
          obtain ⟨d1, d2, d3, d4, d5, d6, d7, d8⟩ := hd
          refine ⟨d1, d2, by simpa [setCaptured] using d3, d4, d5, d6, fun k => ?_, fun k => ?_⟩
          · rw [← d7 k]
            unfold setCaptured
            dsimp only
            rw [List.getElem?_modify]
            split <;> cases τ.cells[k]? <;> rfl
          · rw [← d8 k]
            unfold setCaptured
            dsimp only
            rw [List.getElem?_modify]
            split <;> cases τ.cells[k]? <;> rfl

/-- What the end of a run leaves as it is. -/
theorem finish_frame (limit : Nat) (σ : State) (r : Run) :
    (finish limit σ r).ipy = (if r.hist then σ.ipy + 1 else σ.ipy) ∧ (finish limit σ r).counter = σ.counter ∧
    (finish limit σ r).cells.length = σ.cells.length ∧ (finish limit σ r).byCtr = σ.byCtr ∧ (finish limit σ r).current = σ.current ∧
    (finish limit σ r).tee = (if r.recorded then some r.wrote else σ.tee) ∧
    (∀ k : Nat, ((finish limit σ r).cells[k]?).map (·.ctr) = (σ.cells[k]?).map (·.ctr)) ∧
    ∀ k : Nat, ((finish limit σ r).cells[k]?).map (·.history) = (σ.cells[k]?).map (·.history) := by
  unfold finish
  dsimp only
  rcases hh : handleOutput limit { σ with tee := if r.recorded then some r.wrote else σ.tee } with e | τ
  · cases r.traced <;> exact ⟨rfl, rfl, rfl, rfl, rfl, rfl, fun _ => rfl, fun _ => rfl⟩
  · obtain ⟨d1, d2, d3, d4, d5, d6, d7, d8⟩ := handleOutput_frame hh
    cases r.traced
    · exact ⟨rfl, rfl, rfl, rfl, rfl, rfl, fun _ => rfl, fun _ => rfl⟩
    · refine ⟨?_, d2, d3, d4, d5, d6, d7, d8⟩
      show (if r.hist then τ.ipy + 1 else τ.ipy) = _
      rw [d1]

/-- What holds of numbers at all times. -/
structure Num (σ : State) (h : List Run) : Prop where
  len : σ.cells.length = h.length
  last : h ≠ [] → σ.byCtr σ.counter = some (h.length - 1)
  none : h = [] → ∀ n, σ.byCtr n = Option.none
  ctr : ∀ n k, σ.byCtr n = some k → (σ.cells[k]?).map (·.ctr) = some n
  hist : ∀ r h', h = r :: h' → r.hist = true → σ.ipy = σ.counter + 1
  ahead : (∃ r ∈ h, r.hist = true) → σ.ipy ≤ σ.counter + 1
  behind : ∀ r h', h = r :: h' → r.hist = false → (∃ q ∈ h', q.hist = true) → σ.ipy ≤ σ.counter
  pos : 1 ≤ σ.ipy

theorem num_of (limit : Nat) {start : Nat} (hs : 1 ≤ start) : ∀ h : List Run, Num (run limit start h) h
  | [] => by
    refine ⟨rfl, fun h => absurd rfl h, fun _ _ => rfl, fun n k h => ?_, fun r h' e => by simp at e, fun h => by simp at h, fun r h' e => by simp at e, hs⟩
    cases h
  | r :: h => by
    have ih := num_of limit hs h
    obtain ⟨f1, f2, f3, f4, -, -, f7, -⟩ := finish_frame limit (begin (run limit start h) r) r
    have hc : (run limit start (r :: h)).counter = if r.hist = true ∧ (run limit start h).counter + 1 ≠ (run limit start h).ipy then (run limit start h).ipy
        else (run limit start h).counter + 1 := f2
    have hipy : (run limit start (r :: h)).ipy = if r.hist then (run limit start h).ipy + 1 else (run limit start h).ipy := f1
    have hb : (run limit start (r :: h)).byCtr = fun n => if n = (run limit start (r :: h)).counter then some (run limit start h).cells.length
        else (run limit start h).byCtr n := by
      rw [hc]
      exact f4
    have hhist : r.hist = true → (run limit start (r :: h)).ipy = (run limit start (r :: h)).counter + 1 := fun hr => by
      rw [hipy, hc, if_pos hr]
      split
      · rfl
      · rename_i hn
        have : (run limit start h).counter + 1 = (run limit start h).ipy := by
          by_contra hx
          exact hn ⟨hr, hx⟩
        omega
    refine ⟨?_, fun _ => ?_, fun e => by simp at e, fun n k hk => ?_, fun q h' e hq => ?_, fun hx => ?_, fun q h' e hq hx => ?_, ?_⟩
    · show (finish limit (begin (run limit start h) r) r).cells.length = _
      rw [f3]
      show ((run limit start h).cells ++ [_]).length = _
      rw [List.length_append, ih.len]
      rfl
    · rw [hb]
      dsimp only
      rw [if_pos rfl, ih.len]
      simp
    · rw [hb] at hk
      show ((finish limit (begin (run limit start h) r) r).cells[k]?).map (·.ctr) = some n
      rw [f7 k]
      show (((run limit start h).cells ++ [_])[k]?).map (·.ctr) = some n
      dsimp only at hk
      split at hk
      · rename_i hn
        cases hk
        simp [hn, hc]
      · have := ih.ctr n k hk
        rw [List.getElem?_append_left]
        · exact this
        · by_contra hx
          rw [List.getElem?_eq_none (by omega)] at this
          cases this
    · cases e
      exact hhist hq
    · by_cases hr : r.hist = true
      · rw [hhist hr]
      · rw [hipy, hc, if_neg hr, if_neg (fun hx => hr hx.1)]
        obtain ⟨q, hq, hq'⟩ := hx
        rcases List.mem_cons.1 hq with rfl | hq
        · exact absurd hq' hr
        · have := ih.ahead ⟨q, hq, hq'⟩
          omega
    · cases e
      rw [hipy, hc, if_neg (by simp [hq]), if_neg (by simp [hq])]
      exact ih.ahead hx
    · rw [hipy]
      have := ih.pos
      split <;> omega

/-! ### All runs are kept -/

/-- The last run of a cell. -/
def idxOf (i : Id) : List Run → Option Nat
  | [] => none
  | r :: h => if r.id = i then some h.length else idxOf i h

/-- The numbers of the runs of a cell. -/
def nums (start : Nat) (i : Id) : List Run → List Nat
  | [] => []
  | r :: h => if r.id = i then nums start i h ++ [start + h.length] else nums start i h

/-- The cell was run again, with tracking on. -/
def again (i : Id) (later : List Run) : Bool := match next i later with | some q => q.traced | none => false

/-- What the cell of a run holds. -/
def outOf (limit : Nat) (later : List Run) (r : Run) (earlier : List Run) : Option Capture :=
  if r.traced then
    match lastRecorded (r :: earlier) with
    | some c => if large limit c && again r.id later then none else some c
    | none => none
  else none

theorem idxOf_some {i : Id} {k : Nat} : ∀ {h : List Run}, idxOf i h = some k →
    ∃ l r e, h = l ++ r :: e ∧ e.length = k ∧ r.id = i ∧ ∀ x ∈ l, x.id ≠ i
  | [], h => by cases h
  | r :: h, hk => by
    rw [idxOf] at hk
    split at hk
    · rename_i hr
      cases hk
      exact ⟨[], r, h, rfl, rfl, hr, by simp⟩
    · rename_i hr
      obtain ⟨l, r', e, e1, e2, e3, e4⟩ := idxOf_some hk
      refine ⟨r :: l, r', e, by rw [e1]; rfl, e2, e3, fun x hx => ?_⟩
      rcases List.mem_cons.1 hx with rfl | hx
      · exact hr
      · exact e4 x hx

theorem idxOf_none {i : Id} : ∀ {h : List Run}, idxOf i h = none → ∀ x ∈ h, x.id ≠ i
  | [], _ => by simp
  | r :: h, hk => by
    rw [idxOf] at hk
    split at hk
    · cases hk
    · rename_i hr
      intro x hx
      rcases List.mem_cons.1 hx with rfl | hx
      · exact hr
      · exact idxOf_none hk x hx

theorem nums_skip {start : Nat} {i : Id} {t : List Run} : ∀ {l : List Run}, (∀ x ∈ l, x.id ≠ i) → nums start i (l ++ t) = nums start i t
  | [], _ => rfl
  | r :: l, h => by
    show (if r.id = i then _ else nums start i (l ++ t)) = _
    rw [if_neg (h r (by simp)), nums_skip (fun x hx => h x (by simp [hx]))]

theorem nums_none {start : Nat} {i : Id} {l : List Run} (h : ∀ x ∈ l, x.id ≠ i) : nums start i l = [] := by
  have := nums_skip (start := start) (t := []) h
  rwa [List.append_nil] at this

theorem next_none {i : Id} : ∀ {l : List Run}, (∀ x ∈ l, x.id ≠ i) → next i l = none
  | [], _ => rfl
  | r :: l, h => by
    rw [next, next_none (fun x hx => h x (by simp [hx]))]
    exact if_neg (h r (by simp))

theorem next_some {i : Id} : ∀ {l : List Run}, (∃ x ∈ l, x.id = i) → ∃ q, next i l = some q
  | [], h => by simp at h
  | r :: l, h => by
    rw [next]
    rcases hn : next i l with _ | q
    · have hr : r.id = i := by
        obtain ⟨x, hx, hxi⟩ := h
        rcases List.mem_cons.1 hx with rfl | hx
        · exact hxi
        · obtain ⟨q, hq⟩ := next_some ⟨x, hx, hxi⟩
          rw [hn] at hq
          cases hq
      exact ⟨r, if_pos hr⟩
    · exact ⟨q, rfl⟩

theorem dropPrev_single {limit : Nat} {σ : State} {c : Cell} {n : Nat} (h : c.history = [n]) : dropPrev limit σ c = .ok σ := by
  unfold dropPrev
  rw [h]
  rfl

theorem dropPrev_two {limit : Nat} {σ : State} {c : Cell} {n p k : Nat} {a : List Nat} (h : c.history = a ++ [p] ++ [n]) (hp : σ.byCtr p = some k) :
    dropPrev limit σ c = .ok (match (σ.cells[k]?).bind (·.captured) with
      | some c => if large limit c then setCaptured σ k none else σ
      | none => σ) := by
  unfold dropPrev
  rw [h]
  simp only [List.reverse_append, List.reverse_cons, List.reverse_nil, List.nil_append, List.cons_append]
  rw [hp]
  dsimp only
  cases (σ.cells[k]?).bind (·.captured) <;> rfl

/-- What holds if all runs are kept. -/
structure Ord (limit start : Nat) (σ : State) (h : List Run) : Prop where
  ipy : σ.ipy = start + h.length
  len : σ.cells.length = h.length
  by_ctr : ∀ n, σ.byCtr n = if start ≤ n ∧ n < start + h.length then some (n - start) else none
  cur : ∀ i, σ.current i = idxOf i h
  tee : σ.tee = lastRecorded h
  cells : ∀ l r e, h = l ++ r :: e → σ.cells[e.length]? = some ⟨start + e.length, nums start r.id (r :: e), outOf limit l r e⟩

/-- What holds once a run has begun. -/
theorem begin_ord {limit start : Nat} {σ : State} {h : List Run} {r : Run} (H : Ord limit start σ h) (hr : r.hist = true) :
    (begin σ r).ipy = start + h.length ∧ (begin σ r).counter = start + h.length ∧
    (begin σ r).cells = σ.cells ++ [⟨start + h.length, nums start r.id (r :: h), none⟩] ∧
    (∀ n, (begin σ r).byCtr n = if start ≤ n ∧ n < start + (h.length + 1) then some (n - start) else none) ∧
    (∀ i, (begin σ r).current i = idxOf i (r :: h)) ∧ (begin σ r).tee = σ.tee := by
  have hctr : (if r.hist = true ∧ σ.counter + 1 ≠ σ.ipy then σ.ipy else σ.counter + 1) = start + h.length := by
    rw [← H.ipy]
    split
    · rfl
    · rename_i hn
      by_contra hx
      exact hn ⟨hr, hx⟩
  have hprev : (match (σ.current r.id).bind (fun n => σ.cells[n]?) with | some c => c.history | none => []) = nums start r.id h ∧
      (match (σ.current r.id).bind (fun n => σ.cells[n]?) with | some c => decide (c.ctr < start + h.length) | none => true) = true := by
    rw [H.cur]
    rcases hi : idxOf r.id h with _ | k
    · exact ⟨(nums_none (idxOf_none hi)).symm, rfl⟩
    · obtain ⟨l, q, e, e1, e2, e3, e4⟩ := idxOf_some hi
      have hc := H.cells l q e e1
      rw [e2] at hc
      show (match σ.cells[k]? with | some c => c.history | none => []) = _ ∧ (match σ.cells[k]? with | some c => decide (c.ctr < start + h.length) | none => true) = true
      rw [hc]
      refine ⟨?_, ?_⟩
      · show nums start q.id (q :: e) = _
        rw [e1, nums_skip e4, e3]
      · have : k < h.length := by
          rw [e1, ← e2, List.length_append, List.length_cons]
          omega
        simpa using this
  refine ⟨H.ipy, hctr, ?_, fun n => ?_, fun i => ?_, rfl⟩
  · show σ.cells ++ [Cell.mk _ ((match (σ.current r.id).bind (fun n => σ.cells[n]?) with | some c => c.history | none => []) ++ [_]) none] = _
    rw [hctr, hprev.1]
    show _ = σ.cells ++ [Cell.mk _ (if r.id = r.id then _ else _) none]
    rw [if_pos rfl]
  · show (if n = _ then some σ.cells.length else σ.byCtr n) = _
    rw [hctr, H.by_ctr, H.len]
    by_cases hn : n = start + h.length
    · rw [if_pos hn, if_pos (by omega), hn, Nat.add_sub_cancel_left]
    · rw [if_neg hn]
      by_cases hx : start ≤ n ∧ n < start + h.length
      · rw [if_pos hx, if_pos (by omega)]
      · rw [if_neg hx, if_neg (by omega)]
  · have : (begin σ r).current = if (match (σ.current r.id).bind (fun n => σ.cells[n]?) with
        | some c => decide (c.ctr < if r.hist = true ∧ σ.counter + 1 ≠ σ.ipy then σ.ipy else σ.counter + 1) | none => true)
        then fun i => if i = r.id then some σ.cells.length else σ.current i else σ.current := rfl
    rw [this, hctr, if_pos hprev.2]
    show (if i = r.id then _ else σ.current i) = if r.id = i then _ else _
    by_cases hi : r.id = i
    · rw [if_pos hi, if_pos hi.symm, H.len]
    · rw [if_neg hi, if_neg (fun h => hi h.symm), H.cur]

/-- What is kept of an output when the cell is run again. -/
def thin (limit : Nat) (c : Option Capture) : Option Capture :=
  match c with
  | some x => if large limit x then none else some x
  | none => none

/-- What handling output does, once a run has begun. -/
theorem handle_ord {limit start : Nat} {σ : State} {h : List Run} {r : Run} (H : Ord limit start σ h) (hr : r.hist = true) (t : Option Capture) :
    ∃ τ, handleOutput limit { begin σ r with tee := t } = .ok τ ∧
      τ.cells[h.length]? = some ⟨start + h.length, nums start r.id (r :: h), t⟩ ∧
      ∀ m, m < h.length → τ.cells[m]? = (σ.cells[m]?).map (fun c => if idxOf r.id h = some m then { c with captured := thin limit c.captured } else c) := by
  obtain ⟨-, b2, b3, b4, -, -⟩ := begin_ord H hr
  have hnew : (begin σ r).cells[h.length]? = some ⟨start + h.length, nums start r.id (r :: h), none⟩ := by
    rw [b3, ← H.len]
    simp
  have hold : ∀ m, m < h.length → (begin σ r).cells[m]? = σ.cells[m]? := fun m hm => by
    rw [b3, List.getElem?_append_left (by rw [H.len]; exact hm)]
  have hby : (begin σ r).byCtr (begin σ r).counter = some h.length := by
    rw [b2, b4, if_pos (by omega), Nat.add_sub_cancel_left]
  have hnums : nums start r.id (r :: h) = nums start r.id h ++ [start + h.length] := if_pos rfl
  -- the first part
  have hdrop : ∃ τ, dropPrev limit { begin σ r with tee := t } ⟨start + h.length, nums start r.id (r :: h), none⟩ = .ok τ ∧ τ.tee = t ∧
      τ.cells[h.length]? = some ⟨start + h.length, nums start r.id (r :: h), none⟩ ∧
      ∀ m, m < h.length → τ.cells[m]? = (σ.cells[m]?).map (fun c => if idxOf r.id h = some m then { c with captured := thin limit c.captured } else c) := by
    rcases hi : idxOf r.id h with _ | k
    · refine ⟨_, dropPrev_single (n := start + h.length) ?_, rfl, hnew, fun m hm => ?_⟩
      · show nums start r.id (r :: h) = _
        rw [hnums, nums_none (idxOf_none hi)]
        rfl
      · show (begin σ r).cells[m]? = _
        rw [hold m hm]
        simp
    · obtain ⟨l, q, e, e1, e2, e3, e4⟩ := idxOf_some hi
      have hk : k < h.length := by
        rw [e1, ← e2, List.length_append, List.length_cons]
        omega
      have hc := H.cells l q e e1
      rw [e2] at hc
      have hhist : nums start r.id (r :: h) = nums start r.id e ++ [start + k] ++ [start + h.length] := by
        rw [hnums, e1, nums_skip e4]
        show (if q.id = r.id then _ else _) ++ _ = _
        rw [if_pos e3, e2]
      have hp : (begin σ r).byCtr (start + k) = some k := by
        rw [b4, if_pos (by omega), Nat.add_sub_cancel_left]
      have hkc : ((begin σ r).cells[k]?).bind (·.captured) = outOf limit l q e := by
        rw [hold k hk, hc]
        rfl
      refine ⟨_, dropPrev_two (σ := { begin σ r with tee := t }) (c := ⟨start + h.length, nums start r.id (r :: h), none⟩) hhist hp, ?_, ?_, ?_⟩
      · dsimp only
        split
        · split <;> rfl
        · rfl
      · dsimp only
        split
        · split
          · show ((begin σ r).cells.modify k _)[h.length]? = _
            rw [List.getElem?_modify, hnew]
            simp [show k ≠ h.length by omega]
          · exact hnew
        · exact hnew
      · intro m hm
        dsimp only
        rw [hkc]
        have hmk : ∀ x : Option Capture, (some k = some m → thin limit (outOf limit l q e) = outOf limit l q e) →
            (begin σ r).cells[m]? = (σ.cells[m]?).map (fun c => if some k = some m then { c with captured := thin limit c.captured } else c) := fun _ hx => by
          rw [hold m hm]
          by_cases hkm : some k = some m
          · have := hx hkm
            injection hkm with hkm
            subst hkm
            rw [hc]
            simp [this]
          · simp [hkm]
        rcases ho : outOf limit l q e with _ | c
        · exact hmk none (fun _ => by rw [ho]; rfl)
        · dsimp only
          by_cases hl : large limit c = true
          · rw [if_pos hl]
            show ((begin σ r).cells.modify k _)[m]? = _
            rw [List.getElem?_modify, hold m hm]
            by_cases hkm : k = m
            · subst hkm
              rw [hc, ho]
              simp [thin, hl]
            · cases σ.cells[m]? with
              | none => rfl
              | some c => simp [hkm]
          · rw [if_neg hl]
            exact hmk none (fun _ => by rw [ho]; exact if_neg hl)
  obtain ⟨τ, d1, d2, d3, d4⟩ := hdrop
  refine ⟨setCaptured τ h.length τ.tee, ?_, ?_, fun m hm => ?_⟩
  · unfold handleOutput
    dsimp only
    rw [hby]
    dsimp only
    rw [hnew]
    dsimp only
    rw [d1]
    dsimp only
    rw [d3]
    rfl
  · show (τ.cells.modify _ _)[h.length]? = _
    rw [List.getElem?_modify, d3, d2]
    simp
  · rw [← d4 m hm]
    show (τ.cells.modify _ _)[m]? = _
    rw [List.getElem?_modify]
    cases τ.cells[m]? with
    | none => rfl
    | some c => simp [show h.length ≠ m by omega]

/-- How what the cell of a run holds changes with the next run. -/
theorem outOf_cons {limit : Nat} {l e : List Run} {r q : Run} :
    outOf limit (q :: l) r e = if q.traced = true ∧ idxOf q.id (l ++ r :: e) = some e.length then thin limit (outOf limit l r e) else outOf limit l r e := by
  have hidx : idxOf q.id (l ++ r :: e) = some e.length ↔ q.id = r.id ∧ next r.id l = none := by
    constructor
    · intro hi
      obtain ⟨l', r', e', e1, e2, e3, e4⟩ := idxOf_some hi
      have hlen : l.length = l'.length := by
        have := congrArg List.length e1
        simp only [List.length_append, List.length_cons] at this
        omega
      obtain ⟨rfl, h2⟩ := List.append_inj e1 hlen
      injection h2 with h2 h3
      subst h2
      exact ⟨e3.symm, next_none (fun x hx => by rw [e3]; exact e4 x hx)⟩
    · rintro ⟨hid, hn⟩
      have : ∀ l : List Run, next r.id l = none → idxOf q.id (l ++ r :: e) = some e.length := by
        intro l
        induction l with
        | nil =>
          intro _
          exact if_pos hid.symm
        | cons x l ih =>
          intro hx
          rw [next] at hx
          rcases hn : next r.id l with _ | y
          · rw [hn] at hx
            dsimp only at hx
            show (if x.id = q.id then _ else _) = _
            rw [if_neg]
            · exact ih hn
            · intro hxq
              rw [if_pos (hxq.trans hid)] at hx
              cases hx
          · rw [hn] at hx
            cases hx
      exact this l hn
  have hag : again r.id (q :: l) = match next r.id l with | some x => x.traced | none => if q.id = r.id then q.traced else false := by
    unfold again
    rw [next]
    rcases next r.id l with _ | x
    · dsimp only
      by_cases h : q.id = r.id
      · simp [h]
      · simp [h]
    · rfl
  unfold outOf
  by_cases ht : r.traced = true
  swap
  · rw [if_neg ht, if_neg ht]
    simp [thin]
  rw [if_pos ht, if_pos ht]
  rcases lastRecorded (r :: e) with _ | c
  · simp [thin]
  · dsimp only
    rw [hag]
    have ha : again r.id l = match next r.id l with | some x => x.traced | none => false := rfl
    rw [ha]
    rcases hn : next r.id l with _ | x
    · dsimp only
      by_cases hq : q.id = r.id
      · have h1 : idxOf q.id (l ++ r :: e) = some e.length := hidx.2 ⟨hq, hn⟩
        rw [h1, if_pos hq]
        cases q.traced <;> cases hl : large limit c <;> simp [thin, hl]
      · have h1 : ¬(q.traced = true ∧ idxOf q.id (l ++ r :: e) = some e.length) := fun h => hq (hidx.1 h.2).1
        rw [if_neg h1, if_neg hq]
    · have h1 : ¬(q.traced = true ∧ idxOf q.id (l ++ r :: e) = some e.length) := fun h => by
        have := (hidx.1 h.2).2
        rw [hn] at this
        cases this
      rw [if_neg h1]

theorem ord_of (limit start : Nat) : ∀ {h : List Run}, Kept h → Ord limit start (run limit start h) h
  | [], _ => by
    refine ⟨rfl, rfl, fun n => ?_, fun i => rfl, rfl, fun l r e h => by simp at h⟩
    rw [if_neg (by simp only [List.length_nil]; omega)]
    rfl
  | q :: h, hk => by
    have H := ord_of limit start (h := h) (fun r hr => hk r (by simp [hr]))
    have hq := hk q (by simp)
    obtain ⟨b1, b2, b3, b4, b5, b6⟩ := begin_ord H hq
    obtain ⟨f1, f2, f3, f4, f5, f6, -, -⟩ := finish_frame limit (begin (run limit start h) q) q
    refine ⟨?_, ?_, fun n => ?_, fun i => ?_, ?_, fun l r e he => ?_⟩
    · show (finish limit (begin (run limit start h) q) q).ipy = _
      rw [f1, if_pos hq, b1]
      rfl
    · show (finish limit (begin (run limit start h) q) q).cells.length = _
      rw [f3, b3, List.length_append, H.len]
      rfl
    · show (finish limit (begin (run limit start h) q) q).byCtr n = _
      rw [f4, b4]
      rfl
    · show (finish limit (begin (run limit start h) q) q).current i = _
      rw [f5, b5]
    · show (finish limit (begin (run limit start h) q) q).tee = _
      rw [f6, b6, H.tee]
      rfl
    · -- cells
      have hcells : ((finish limit (begin (run limit start h) q) q).cells[h.length]? =
            some ⟨start + h.length, nums start q.id (q :: h), if q.traced then lastRecorded (q :: h) else none⟩) ∧
          ∀ m, m < h.length → (finish limit (begin (run limit start h) q) q).cells[m]? =
            ((run limit start h).cells[m]?).map (fun c => if q.traced = true ∧ idxOf q.id h = some m then { c with captured := thin limit c.captured } else c) := by
        unfold finish
        dsimp only
        rw [b6, H.tee]
        obtain ⟨τ, t1, t2, t3⟩ := handle_ord H hq (lastRecorded (q :: h))
        by_cases ht : q.traced = true
        · have t1' : handleOutput limit { begin (run limit start h) q with tee := if q.recorded then some q.wrote else lastRecorded h } = .ok τ := t1
          rw [if_pos ht, if_pos ht, t1']
          refine ⟨t2, fun m hm => ?_⟩
          rw [t3 m hm]
          simp [ht]
        · rw [if_neg ht, if_neg ht]
          refine ⟨?_, fun m hm => ?_⟩
          · show (begin (run limit start h) q).cells[h.length]? = _
            rw [b3, ← H.len]
            simp
          · show (begin (run limit start h) q).cells[m]? = _
            rw [b3, List.getElem?_append_left (by rw [H.len]; exact hm)]
            simp [ht]
      show (finish limit (begin (run limit start h) q) q).cells[e.length]? = _
      rcases l with _ | ⟨x, l⟩
      · injection he with h1 h2
        subst h1 h2
        rw [hcells.1]
        congr 2
        unfold outOf
        split
        · rcases lastRecorded (q :: h) with _ | c
          · rfl
          · simp [again, next]
        · rfl
      · injection he with h1 h2
        subst h1
        have h2 : h = l ++ r :: e := h2
        have hm : e.length < h.length := by
          rw [h2, List.length_append, List.length_cons]
          omega
        rw [hcells.2 _ hm, H.cells l r e h2, outOf_cons, ← h2]
        simp only [Option.map_some]
        split <;> rfl

/-! ### The run that was just made -/

/-- Numbers in histories are known. -/
def Known (σ : State) : Prop := ∀ (k : Nat) (c : Cell), σ.cells[k]? = some c → ∀ n ∈ c.history, σ.byCtr n ≠ none

theorem known_begin {σ : State} (H : Known σ) (r : Run) : Known (begin σ r) := by
  intro k c hc n hn
  have hb : (begin σ r).byCtr n = if n = (begin σ r).counter then some σ.cells.length else σ.byCtr n := rfl
  rw [hb]
  by_cases hne : n = (begin σ r).counter
  · rw [if_pos hne]
    simp
  · rw [if_neg hne]
    have hc' : (σ.cells ++ [_])[k]? = some c := hc
    rw [List.getElem?_append] at hc'
    split at hc'
    · exact H k c hc' n hn
    · rw [List.getElem?_singleton] at hc'
      split at hc'
      · injection hc' with hc'
        subst hc'
        rcases List.mem_append.1 hn with hn | hn
        · split at hn
          · rename_i p hp
            obtain ⟨m, -, hm⟩ := Option.bind_eq_some_iff.1 hp
            exact H m p hm n hn
          · cases hn
        · simp only [List.mem_singleton] at hn
          exact absurd hn hne
      · cases hc'

theorem known_finish {limit : Nat} {σ : State} (H : Known σ) (r : Run) : Known (finish limit σ r) := by
  obtain ⟨-, -, -, f4, -, -, -, f8⟩ := finish_frame limit σ r
  intro k c hc n hn
  rw [f4]
  have := f8 k
  rw [hc] at this
  rcases hk : σ.cells[k]? with _ | d
  · rw [hk] at this
    cases this
  · rw [hk] at this
    injection this with this
    have this : c.history = d.history := this
    rw [this] at hn
    exact H k d hk n hn

theorem known_of (limit start : Nat) : ∀ h : List Run, Known (run limit start h)
  | [] => fun k c h => by
    have : ([] : List Cell)[k]? = some c := h
    simp at this
  | r :: h => known_finish (known_begin (known_of limit start h) r) r

theorem dropPrev_ok {limit : Nat} {σ : State} {c : Cell} (h : ∀ n ∈ c.history, σ.byCtr n ≠ none) :
    ∃ τ, dropPrev limit σ c = .ok τ ∧ ∀ k : Nat, (σ.cells[k]?).bind (·.captured) = none → (τ.cells[k]?).bind (·.captured) = none := by
  unfold dropPrev
  split
  · rename_i a p b hr
    have hp : p ∈ c.history := by
      have : p ∈ c.history.reverse := by rw [hr]; simp
      simpa using this
    rcases hb : σ.byCtr p with _ | m
    · exact absurd hb (h p hp)
    · dsimp only
      split
      · split
        · refine ⟨_, rfl, fun k hk => ?_⟩
          show ((σ.cells.modify m _)[k]?).bind _ = none
          rw [List.getElem?_modify]
          rcases hck : σ.cells[k]? with _ | d
          · rfl
          · rw [hck] at hk
            have hd : d.captured = none := hk
            by_cases hmk : m = k <;> simp [hmk, hd]
        · exact ⟨_, rfl, fun _ hk => hk⟩
      · exact ⟨_, rfl, fun _ hk => hk⟩
  · exact ⟨_, rfl, fun _ hk => hk⟩

theorem output_own {limit start : Nat} (h : List Run) {r : Run} (ht : r.traced = true) (hr : r.recorded = true) :
    output limit start (r :: h) (run limit start (r :: h)).counter = some (some r.wrote) := by
  have hK := known_begin (known_of limit start h) r
  obtain ⟨-, f2, -, f4, -, -, -, -⟩ := finish_frame limit (begin (run limit start h) r) r
  have hby : (begin (run limit start h) r).byCtr (begin (run limit start h) r).counter = some (run limit start h).cells.length := if_pos rfl
  obtain ⟨c, hc, hcap⟩ : ∃ c, (begin (run limit start h) r).cells[(run limit start h).cells.length]? = some c ∧ c.captured = none := by
    refine ⟨_, List.getElem?_concat_length .., rfl⟩
  have hfin : ((finish limit (begin (run limit start h) r) r).cells[(run limit start h).cells.length]?).bind (·.captured) = some r.wrote := by
    obtain ⟨τ, d1, d2⟩ := dropPrev_ok (limit := limit) (σ := { begin (run limit start h) r with tee := some r.wrote }) (fun n hn => hK _ c hc n hn)
    obtain ⟨-, -, d3, -, -, dt, -, -⟩ := dropPrev_frame d1
    have hcn := d2 (run limit start h).cells.length (by
      show ((begin (run limit start h) r).cells[_]?).bind _ = none
      rw [hc]
      exact hcap)
    unfold finish
    dsimp only
    rw [if_pos ht, if_pos hr]
    have hh : handleOutput limit { begin (run limit start h) r with tee := some r.wrote } = .ok (setCaptured τ (run limit start h).cells.length τ.tee) := by
      unfold handleOutput
      dsimp only
      rw [hby]
      dsimp only
      rw [hc]
      dsimp only
      rw [d1]
      dsimp only
      rw [hcn]
    rw [hh, dt]
    show ((τ.cells.modify _ _)[_]?).bind _ = _
    rw [List.getElem?_modify]
    have hlt : (run limit start h).cells.length < τ.cells.length := by
      rw [d3]
      show _ < ((run limit start h).cells ++ [_]).length
      simp
    rw [List.getElem?_eq_getElem hlt]
    simp
  show ((finish limit (begin (run limit start h) r) r).byCtr (finish limit (begin (run limit start h) r) r).counter).map _ = _
  rw [f2, f4, hby]
  show some _ = _
  rw [← hfin]
  rfl

end Verif.Recall
