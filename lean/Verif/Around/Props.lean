import Verif.Around.Lemmas

/-!
# Theorems about the cells around the one that runs (C156) -/

namespace Verif.Around

/-- **C156.** An answer is always given. -/
theorem always_answers (h : List Event) (i : Id) (k : Int) : ∃ r, atOffset h i k = .ok r := by
  rw [atOffset_eq]
  exact ⟨_, atPosition_ok (inv_of _) _⟩

/-- **C156.** The cell at offset 0 is the cell that runs. -/
theorem at_zero {h : List Event} (hd : Distinct h) {a : Cell} (hm : a ∈ notebook h) (ha : a.code = true) : atOffset h a.id 0 = .ok (some a.id) := by
  obtain ⟨j, hj⟩ := List.mem_iff_getElem?.1 hm
  rw [atOffset_of hd hj ha, Int.add_zero]
  show Except.ok (codeAt (notebook h) (Int.ofNat j)) = _
  unfold codeAt
  dsimp only
  rw [hj]
  dsimp only
  rw [if_pos ha]

/-- The id of a cell, if there is one and it is a code cell. -/
def pick : Option Cell → Option Id
  | some c => if c.code then some c.id else none
  | none => none

theorem codeAt_ofNat (nb : List Cell) (n : Nat) : codeAt nb (Int.ofNat n) = pick nb[n]? := by
  unfold codeAt pick
  dsimp only
  cases nb[n]? <;> rfl

theorem codeAt_split (l1 : List Cell) (a : Cell) (l2 : List Cell) (k : Nat) :
    codeAt (l1 ++ a :: l2) ((l1.length : Nat) + ((k : Nat) + 1 : Int)) =
      pick l2[k]? := by
  have : ((l1.length : Nat) + ((k : Nat) + 1 : Int)) = Int.ofNat (l1.length + (k + 1)) := by
    rw [Int.ofNat_eq_natCast]
    push_cast
    rfl
  rw [this, codeAt_ofNat]
  rw [List.getElem?_append_right (by omega)]
  have : l1.length + (k + 1) - l1.length = k + 1 := by omega
  rw [this, List.getElem?_cons_succ]

theorem codeAt_before (l1 : List Cell) (l2 : List Cell) (k : Nat) :
    codeAt (l1 ++ l2) ((l1.length : Nat) + (-((k : Nat) + 1 : Int))) =
      pick l1.reverse[k]? := by
  by_cases hk : k < l1.length
  · have : ((l1.length : Nat) + (-((k : Nat) + 1 : Int))) = Int.ofNat (l1.length - 1 - k) := by
      rw [Int.ofNat_eq_natCast]
      omega
    rw [this, codeAt_ofNat]
    rw [List.getElem?_append_left (by omega), List.getElem?_reverse hk]
  · have hn : l1.reverse[k]? = none := by
      rw [List.getElem?_eq_none_iff, List.length_reverse]
      omega
    rw [hn]
    obtain ⟨m, hm⟩ : ∃ m, ((l1.length : Nat) + (-((k : Nat) + 1 : Int))) = Int.negSucc m := by
      refine ⟨k - l1.length, ?_⟩
      rw [Int.negSucc_eq]
      omega
    rw [hm]
    rfl

theorem at_below {h : List Event} (hd : Distinct h) {l1 l2 : List Cell} {a : Cell} (hn : notebook h = l1 ++ a :: l2) (ha : a.code = true) (k : Nat) :
    atOffset h a.id (k + 1) = .ok (pick l2[k]?) := by
  have hj : (notebook h)[l1.length]? = some a := by rw [hn]; simp
  rw [atOffset_of hd hj ha, hn, codeAt_split]

theorem at_above {h : List Event} (hd : Distinct h) {l1 l2 : List Cell} {a : Cell} (hn : notebook h = l1 ++ a :: l2) (ha : a.code = true) (k : Nat) :
    atOffset h a.id (-(k + 1)) = .ok (pick l1.reverse[k]?) := by
  have hj : (notebook h)[l1.length]? = some a := by rw [hn]; simp
  rw [atOffset_of hd hj ha, hn, codeAt_before]

theorem nth_of_code : ∀ {l : List Cell} {k : Nat}, (∀ c ∈ l.take (k + 1), c.code = true) →
    (pick l[k]?) = nth l k
  | [], k, _ => by simp [nth, pick]
  | c :: l, k, hc => by
    have h0 : c.code = true := hc c (by simp)
    unfold nth
    rw [List.filter_cons_of_pos (p := fun x : Cell => x.code) h0, List.map_cons]
    cases k with
    | zero => simp [pick, h0]
    | succ k =>
      rw [List.getElem?_cons_succ, List.getElem?_cons_succ]
      exact nth_of_code (l := l) (k := k) (fun d hd => hc d (by rw [List.take_succ_cons]; exact List.mem_cons_of_mem _ hd))

/-- **C156 (partial).** If all cells from the one that runs to `k` places below are code cells, the cell at offset `k` is the `k`-th code cell below. Missing: see
`hidden_below`, `wrong_below` and `untold_below`. -/
theorem below_partial {h : List Event} (hd : Distinct h) {l1 l2 : List Cell} {a : Cell} (hn : notebook h = l1 ++ a :: l2) (ha : a.code = true) {k : Nat}
    (hc : ∀ c ∈ l2.take (k + 1), c.code = true) : atOffset h a.id (k + 1) = .ok (nth l2 k) := by
  rw [at_below hd hn ha, nth_of_code hc]

/-- **C156 (partial).** The same for cells above. -/
theorem above_partial {h : List Event} (hd : Distinct h) {l1 l2 : List Cell} {a : Cell} (hn : notebook h = l1 ++ a :: l2) (ha : a.code = true) {k : Nat}
    (hc : ∀ c ∈ l1.reverse.take (k + 1), c.code = true) : atOffset h a.id (-(k + 1)) = .ok (nth l1.reverse k) := by
  rw [at_above hd hn ha, nth_of_code hc]

/-- **C156.** What is given is a code cell of the notebook, on the side that was asked for. -/
theorem below_sound {h : List Event} (hd : Distinct h) {l1 l2 : List Cell} {a : Cell} (hn : notebook h = l1 ++ a :: l2) (ha : a.code = true) {k : Nat} {i : Id}
    (hr : atOffset h a.id (k + 1) = .ok (some i)) : ∃ c ∈ l2, c.code = true ∧ c.id = i := by
  rw [at_below hd hn ha] at hr
  rcases hx : l2[k]? with _ | c
  · rw [hx] at hr
    cases hr
  · rw [hx] at hr
    by_cases hc : c.code = true
    · dsimp only [pick] at hr
      rw [if_pos hc] at hr
      cases hr
      exact ⟨c, List.mem_of_getElem? hx, hc, rfl⟩
    · dsimp only [pick] at hr
      rw [if_neg hc] at hr
      cases hr

/-- **C156.** The same for cells above. -/
theorem above_sound {h : List Event} (hd : Distinct h) {l1 l2 : List Cell} {a : Cell} (hn : notebook h = l1 ++ a :: l2) (ha : a.code = true) {k : Nat} {i : Id}
    (hr : atOffset h a.id (-(k + 1)) = .ok (some i)) : ∃ c ∈ l1, c.code = true ∧ c.id = i := by
  rw [at_above hd hn ha] at hr
  rcases hx : l1.reverse[k]? with _ | c
  · rw [hx] at hr
    cases hr
  · rw [hx] at hr
    by_cases hc : c.code = true
    · dsimp only [pick] at hr
      rw [if_pos hc] at hr
      cases hr
      exact ⟨c, List.mem_reverse.1 (List.mem_of_getElem? hx), hc, rfl⟩
    · dsimp only [pick] at hr
      rw [if_neg hc] at hr
      cases hr

/-- If the next cell is not a code cell, there is said to be no cell below, whatever stands there. -/
theorem hidden_below {h : List Event} (hd : Distinct h) {l1 l2 : List Cell} {a m : Cell} (hn : notebook h = l1 ++ a :: m :: l2) (ha : a.code = true)
    (hm : m.code = false) : atOffset h a.id 1 = .ok none := by
  have := at_below hd hn ha 0
  simpa [pick, hm] using this

/-- The same above. -/
theorem hidden_above {h : List Event} (hd : Distinct h) {l1 l2 : List Cell} {a m : Cell} (hn : notebook h = l1 ++ m :: a :: l2) (ha : a.code = true)
    (hm : m.code = false) : atOffset h a.id (-1) = .ok none := by
  have := at_above (l1 := l1 ++ [m]) (l2 := l2) hd (by rw [hn]; simp) ha 0
  simpa [pick, hm] using this

/-- If there is a cell that is not a code cell on the way, the code cell that is given is a wrong one. -/
theorem wrong_below {h : List Event} (hd : Distinct h) {l1 l2 : List Cell} {a m : Cell} (hn : notebook h = l1 ++ a :: l2) (ha : a.code = true) {k : Nat}
    (hm : m ∈ l2.take (k + 1)) (hmc : m.code = false) {i : Id} (hr : atOffset h a.id (k + 1) = .ok (some i)) : nth l2 k ≠ some i := by
  intro hx
  rw [at_below hd hn ha] at hr
  have hids := notebook_distinct hd
  rw [hn, List.map_append, List.map_cons] at hids
  have hids2 : (l2.map (·.id)).Nodup := ((List.nodup_append.1 hids).2.1).of_cons
  rcases hy : l2[k]? with _ | c
  · rw [hy] at hr
    cases hr
  · rw [hy] at hr
    have hc : c.code = true ∧ c.id = i := by
      by_cases hc : c.code = true
      · dsimp only [pick] at hr
        rw [if_pos hc] at hr
        cases hr
        exact ⟨hc, rfl⟩
      · dsimp only [pick] at hr
        rw [if_neg hc] at hr
        cases hr
    have hk : k < l2.length := (List.getElem?_eq_some_iff.1 hy).1
    have hsplit : l2 = l2.take k ++ c :: l2.drop (k + 1) := by
      conv_lhs => rw [← List.take_append_drop k l2]
      rw [List.drop_eq_getElem_cons hk, (List.getElem?_eq_some_iff.1 hy).2]
    have hmk : m ∈ l2.take k := by
      rw [List.take_add_one, hy] at hm
      rcases List.mem_append.1 hm with h1 | h1
      · exact h1
      · simp at h1
        subst h1
        rw [hc.1] at hmc
        cases hmc
    have hlen : ((l2.take k).filter (·.code)).length < k := by
      have h1 : ((l2.take k).filter (·.code)).length < (l2.take k).length :=
        List.length_filter_lt_length_iff_exists.2 ⟨m, hmk, by simp [hmc]⟩
      rw [List.length_take] at h1
      omega
    have hf : (l2.filter (·.code)).map (·.id) = ((l2.take k).filter (·.code)).map (·.id) ++ i :: ((l2.drop (k + 1)).filter (·.code)).map (·.id) := by
      conv_lhs => rw [hsplit]
      rw [List.filter_append, List.filter_cons_of_pos (p := fun x : Cell => x.code) hc.1, List.map_append, List.map_cons, hc.2]
    have hnd : ((l2.filter (·.code)).map (·.id)).Nodup := hids2.sublist ((List.filter_sublist (p := fun c : Cell => c.code)).map _)
    have h1 : ((l2.filter (·.code)).map (·.id))[((l2.take k).filter (·.code)).length]? = some i := by
      rw [hf, List.getElem?_append_right (by rw [List.length_map])]
      simp
    have h2 : ((l2.filter (·.code)).map (·.id))[k]? = some i := hx
    obtain ⟨g1, e1⟩ := List.getElem?_eq_some_iff.1 h1
    obtain ⟨g2, e2⟩ := List.getElem?_eq_some_iff.1 h2
    have := (hnd.getElem_inj_iff).1 (e1.trans e2.symm)
    omega

/-- In a cell that the client has not told of yet, the cell below is the first one of the notebook. -/
theorem untold_below {h : List Event} {i : Id} (hi : ∀ nb, Event.told nb ∈ h → ∀ c ∈ nb, c.id ≠ i) {c : Cell} {l : List Cell} (hn : notebook h = c :: l)
    (hc : c.code = true) : atOffset h i 1 = .ok (some c.id) := by
  rw [atOffset_eq]
  have hp : position (run (.run i :: h)) i = .at (-1) := by
    unfold position
    have : Assoc.get (run (.run i :: h)).pos i = none := by
      rw [Assoc.get_eq_none_iff]
      intro hm
      obtain ⟨nb, h1, h2⟩ := keys_told (h := h) hm
      obtain ⟨d, h3, h4⟩ := List.mem_map.1 h2
      exact hi nb h1 d h3 h4
    rw [this]
  rw [hp]
  show atPosition _ (.at (-1 + 1)) = _
  rw [atPosition_at (inv_of _)]
  show Except.ok (codeAt (notebook h) (Int.ofNat 0)) = _
  rw [hn, codeAt_ofNat]
  simp [pick, hc]

/-- With flow in the order of the notebook, in a cell that the client has said is gone the cells above and below are one and the same, a cell that is gone too. -/
theorem gone_around {h : List Event} {nb nb' : List Cell} (hnd : Distinct (.told nb' :: .told nb :: .flow true :: h)) {a : Cell} (ha : a ∈ nb) (hc : a.code = true)
    (hg : ∀ c ∈ nb', c.code = true → c.id ≠ a.id) :
    ∃ i, (∀ c ∈ nb', c.code = true → c.id ≠ i) ∧ ∀ k, atOffset (.told nb' :: .told nb :: .flow true :: h) a.id k = .ok (some i) := by
  have hinv := inv_of (.run a.id :: .told nb' :: .told nb :: .flow true :: h)
  obtain ⟨gone, hp, hgone⟩ := hinv.pos
  have hap : position (run (.run a.id :: .told nb' :: .told nb :: .flow true :: h)) a.id = .inf := by
    unfold position
    have : Assoc.get (run (.run a.id :: .told nb' :: .told nb :: .flow true :: h)).pos a.id = some .inf := by
      rw [Assoc.get_eq_some_iff (hinv.nodup (distinct_cons hnd (by simp)))]
      show (a.id, Pos.inf) ∈ index 0 nb' ++ List.map _ (List.filter _ (index 0 nb ++ _))
      refine List.mem_append_right _ (List.mem_map.2 ?_)
      obtain ⟨j, hj⟩ := List.mem_iff_getElem?.1 ha
      refine ⟨(a.id, .at (0 + (j : Nat))), List.mem_filter.2 ⟨List.mem_append_left _ (mem_index.2 ⟨j, a, hj, hc, rfl, rfl⟩), ?_⟩, rfl⟩
      simp only [decide_eq_true_eq]
      rw [keys_index]
      intro hm
      obtain ⟨d, h1, h2⟩ := List.mem_map.1 hm
      exact hg d (List.mem_filter.1 h1).1 (List.mem_filter.1 h1).2 h2
    rw [this]
  rcases hf : (run (.run a.id :: .told nb' :: .told nb :: .flow true :: h)).pos.find? (isAt .inf) with _ | q
  · exfalso
    rw [List.find?_eq_none] at hf
    unfold position at hap
    rcases hx : Assoc.get (run (.run a.id :: .told nb' :: .told nb :: .flow true :: h)).pos a.id with _ | p
    · rw [hx] at hap
      cases hap
    · rw [hx] at hap
      have := hf _ (Assoc.mem_of_get hx)
      dsimp only at hap
      subst hap
      simp [isAt] at this
  · refine ⟨q.1, ?_, fun k => ?_⟩
    · intro c hcm hcc he
      have hq := List.find?_some hf
      simp only [isAt, decide_eq_true_eq] at hq
      have hnk := hinv.nodup (distinct_cons hnd (by simp))
      have h1 := (Assoc.get_eq_some_iff hnk).2 (show (q.1, q.2) ∈ _ from List.mem_of_find?_eq_some hf)
      obtain ⟨j, hj⟩ := List.mem_iff_getElem?.1 hcm
      have h2 := (Assoc.get_eq_some_iff hnk).2 (show (q.1, Pos.at (0 + (j : Nat))) ∈ _ by
        rw [hp]
        exact List.mem_append_left _ (mem_index.2 ⟨j, c, hj, hcc, he, rfl⟩))
      rw [h1, hq] at h2
      cases h2
    · rw [atOffset_eq, hap]
      show atPosition _ .inf = _
      rw [atPosition_ok hinv, hf]
      rfl

end Verif.Around
