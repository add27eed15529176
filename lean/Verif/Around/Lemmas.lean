import Verif.Around.Spec

/-!
# Lemmas about positions -/

namespace Verif.Around

theorem mem_index : ∀ {nb : List Cell} {b : Int} {i : Id} {p : Pos},
    (i, p) ∈ index b nb ↔ ∃ j c, nb[j]? = some c ∧ c.code = true ∧ c.id = i ∧ p = .at (b + (j : Nat))
  | [], b, i, p => by simp [index]
  | c :: cs, b, i, p => by
    have ih := mem_index (nb := cs) (b := b + 1) (i := i) (p := p)
    have hstep : (∃ j d, (c :: cs)[j]? = some d ∧ d.code = true ∧ d.id = i ∧ p = Pos.at (b + (j : Nat))) ↔
        (c.code = true ∧ c.id = i ∧ p = Pos.at b) ∨ ∃ j d, cs[j]? = some d ∧ d.code = true ∧ d.id = i ∧ p = Pos.at (b + 1 + (j : Nat)) := by
      constructor
      · rintro ⟨j, d, h1, h2, h3, h4⟩
        cases j with
        | zero =>
          simp only [List.getElem?_cons_zero, Option.some.injEq] at h1
          subst h1
          exact Or.inl ⟨h2, h3, by simpa using h4⟩
        | succ j =>
          refine Or.inr ⟨j, d, by simpa using h1, h2, h3, ?_⟩
          rw [h4]
          congr 1
          push_cast
          omega
      · rintro (⟨h2, h3, h4⟩ | ⟨j, d, h1, h2, h3, h4⟩)
        · exact ⟨0, c, rfl, h2, h3, by simpa using h4⟩
        · refine ⟨j + 1, d, by simpa using h1, h2, h3, ?_⟩
          rw [h4]
          congr 1
          push_cast
          omega
    rw [hstep, ← ih, index]
    by_cases hc : c.code = true
    · rw [if_pos hc, List.mem_cons]
      simp [hc, eq_comm]
    · rw [if_neg hc]
      simp [hc]

theorem keys_index : ∀ {nb : List Cell} {b : Int}, Assoc.keys (index b nb) = (nb.filter (·.code)).map (·.id)
  | [], _ => rfl
  | c :: cs, b => by
    rw [index]
    by_cases hc : c.code = true
    · rw [if_pos hc, List.filter_cons_of_pos (p := fun x : Cell => x.code) hc, List.map_cons, ← keys_index (nb := cs) (b := b + 1)]
      rfl
    · rw [if_neg hc, List.filter_cons_of_neg (p := fun x : Cell => x.code) hc, ← keys_index (nb := cs) (b := b + 1)]

/-- What holds of the state at all times. -/
structure Inv (σ : State) (h : List Event) : Prop where
  pos : ∃ gone, σ.pos = index 0 (notebook h) ++ gone ∧ ∀ p ∈ gone, p.2 = Pos.inf
  nodup : Distinct h → (Assoc.keys σ.pos).Nodup
  known : ∀ i ∈ Assoc.keys σ.pos, i ∈ σ.known

theorem keys_append {κ ν : Type} (a b : List (κ × ν)) : Assoc.keys (a ++ b) = Assoc.keys a ++ Assoc.keys b := by
  unfold Assoc.keys
  exact List.map_append

theorem inv_of : ∀ h : List Event, Inv (run h) h
  | [] => ⟨⟨[], rfl, by simp⟩, fun _ => List.nodup_nil, fun _ hi => by cases hi⟩
  | .run i :: h => by
    have ih := inv_of h
    exact ⟨ih.pos, fun hd => ih.nodup (fun nb hn => hd nb (List.mem_cons_of_mem _ hn)), fun j hj => List.mem_append_left _ (ih.known j hj)⟩
  | .flow b :: h => by
    have ih := inv_of h
    exact ⟨ih.pos, fun hd => ih.nodup (fun nb hn => hd nb (List.mem_cons_of_mem _ hn)), ih.known⟩
  | .told nb :: h => by
    have ih := inv_of h
    have hi : Distinct (.told nb :: h) → (Assoc.keys (index 0 nb)).Nodup := fun hd => by
      rw [keys_index]
      exact (hd nb List.mem_cons_self).sublist ((List.filter_sublist (p := fun c : Cell => c.code)).map _)
    by_cases ho : (run h).inOrder = true
    · have hp : (run (.told nb :: h)).pos =
          index 0 nb ++ ((run h).pos.filter (fun p => decide (p.1 ∉ Assoc.keys (index 0 nb)))).map (fun p => (p.1, Pos.inf)) := by
        show (setPositions (run h) (index 0 nb)).pos = _
        rw [setPositions, if_pos ho]
      have hkn : (run (.told nb :: h)).known = (run h).known ++ (Assoc.keys (index 0 nb)).filter (fun i => decide (i ∉ (run h).known)) := by
        show (create _ (setPositions (run h) (index 0 nb))).known = _
        rw [setPositions, if_pos ho]
        rfl
      have hk : Assoc.keys (((run h).pos.filter (fun p => decide (p.1 ∉ Assoc.keys (index 0 nb)))).map (fun p => (p.1, Pos.inf))) =
          (Assoc.keys (run h).pos).filter (fun i => decide (i ∉ Assoc.keys (index 0 nb))) := by
        unfold Assoc.keys
        rw [List.filter_map, List.map_map]
        rfl
      refine ⟨⟨_, hp, ?_⟩, fun hd => ?_, fun i hi' => ?_⟩
      · intro p hp'
        obtain ⟨q, -, rfl⟩ := List.mem_map.1 hp'
        rfl
      · rw [hp, keys_append, hk]
        refine List.Nodup.append (hi hd) ((ih.nodup (fun nb hn => hd nb (List.mem_cons_of_mem _ hn))).filter _) ?_
        intro i h1 h2
        have := (List.mem_filter.1 h2).2
        simp only [decide_eq_true_eq] at this
        exact this h1
      · rw [hkn]
        by_cases hx : i ∈ (run h).known
        · exact List.mem_append_left _ hx
        · rw [hp, keys_append, hk] at hi'
          rcases List.mem_append.1 hi' with h1 | h1
          · exact List.mem_append_right _ (List.mem_filter.2 ⟨h1, by simpa using hx⟩)
          · exact absurd (ih.known i (List.mem_filter.1 h1).1) hx
    · have hp : (run (.told nb :: h)).pos = index 0 nb := by
        show (setPositions (run h) (index 0 nb)).pos = _
        rw [setPositions, if_neg ho]
      have hkn : (run (.told nb :: h)).known = (run h).known ++ (Assoc.keys (index 0 nb)).filter (fun i => decide (i ∉ (run h).known)) := by
        show (create _ (setPositions (run h) (index 0 nb))).known = _
        rw [setPositions, if_neg ho]
        rfl
      refine ⟨⟨[], by rw [hp]; simp [notebook], by simp⟩, fun hd => ?_, fun i hi' => ?_⟩
      · rw [hp]
        exact hi hd
      · rw [hkn]
        by_cases hx : i ∈ (run h).known
        · exact List.mem_append_left _ hx
        · rw [hp] at hi'
          exact List.mem_append_right _ (List.mem_filter.2 ⟨hi', by simpa using hx⟩)

theorem atPosition_ok {σ : State} {h : List Event} (hi : Inv σ h) (p : Pos) :
    atPosition σ p = .ok ((σ.pos.find? (isAt p)).map (·.1)) := by
  unfold atPosition
  rcases hf : σ.pos.find? (isAt p) with _ | q
  · rfl
  · have hm := List.mem_of_find?_eq_some hf
    have : q.1 ∈ σ.known := hi.known _ (List.mem_map.2 ⟨q, hm, rfl⟩)
    dsimp only
    rw [fromId, if_pos this]
    rfl

/-- The code cell at an index of the notebook. -/
def codeAt (nb : List Cell) : Int → Option Id
  | .ofNat n =>
    match nb[n]? with
    | some c => if c.code then some c.id else none
    | none => none
  | .negSucc _ => none

theorem atPosition_at {σ : State} {h : List Event} (hi : Inv σ h) (n : Int) : atPosition σ (.at n) = .ok (codeAt (notebook h) n) := by
  rw [atPosition_ok hi]
  congr 1
  obtain ⟨gone, hp, hg⟩ := hi.pos
  rcases hf : σ.pos.find? (isAt (.at n)) with _ | q
  · rw [Option.map_none]
    rw [List.find?_eq_none] at hf
    cases n with
    | negSucc m => rfl
    | ofNat m =>
      unfold codeAt
      dsimp only
      rcases hx : (notebook h)[m]? with _ | c
      · rfl
      · dsimp only
        by_cases hc : c.code = true
        · exfalso
          have : (c.id, Pos.at (Int.ofNat m)) ∈ index 0 (notebook h) := mem_index.2 ⟨m, c, hx, hc, rfl, by simp⟩
          have := hf _ (by rw [hp]; exact List.mem_append_left _ this)
          simp [isAt] at this
        · rw [if_neg hc]
  · have hm := List.mem_of_find?_eq_some hf
    have hq := List.find?_some hf
    simp only [isAt, decide_eq_true_eq] at hq
    rw [hp] at hm
    rcases List.mem_append.1 hm with h1 | h1
    · obtain ⟨j, c, h2, h3, h4, h5⟩ := mem_index.1 (show (q.1, q.2) ∈ _ from h1)
      rw [hq] at h5
      have : n = Int.ofNat j := by
        injection h5 with h5
        simpa using h5
      subst this
      show some q.1 = codeAt (notebook h) (Int.ofNat j)
      unfold codeAt
      dsimp only
      rw [h2]
      dsimp only
      rw [if_pos h3, h4]
    · rw [hg q h1] at hq
      cases hq

theorem atOffset_eq (h : List Event) (i : Id) (k : Int) : atOffset h i k = atPosition (run (.run i :: h)) ((position (run (.run i :: h)) i).plus k) := by
  have : i ∈ (run (.run i :: h)).known := by
    show i ∈ (run h).known ++ _
    by_cases hx : i ∈ (run h).known
    · exact List.mem_append_left _ hx
    · exact List.mem_append_right _ (List.mem_filter.2 ⟨List.mem_cons_self, by simpa using hx⟩)
  unfold atOffset
  dsimp only
  rw [fromId, if_pos this]

theorem distinct_cons {e : Event} {h : List Event} (hd : Distinct h) (he : ∀ nb, e ≠ .told nb) : Distinct (e :: h) := by
  intro nb hn
  rcases List.mem_cons.1 hn with h1 | h1
  · exact absurd h1.symm (he nb)
  · exact hd nb h1

/-- The result for a cell of the notebook. -/
theorem atOffset_of {h : List Event} (hd : Distinct h) {j : Nat} {a : Cell} (hj : (notebook h)[j]? = some a) (ha : a.code = true) (k : Int) :
    atOffset h a.id k = .ok (codeAt (notebook h) (j + k)) := by
  have hi := inv_of (.run a.id :: h)
  rw [atOffset_eq]
  have hp : position (run (.run a.id :: h)) a.id = .at j := by
    unfold position
    obtain ⟨gone, hp, -⟩ := hi.pos
    have : Assoc.get (run (.run a.id :: h)).pos a.id = some (.at j) := by
      rw [Assoc.get_eq_some_iff (hi.nodup (distinct_cons hd (by simp)))]
      rw [hp]
      exact List.mem_append_left _ (mem_index.2 ⟨j, a, hj, ha, rfl, by simp⟩)
    rw [this]
  rw [hp]
  exact atPosition_at hi _

theorem notebook_distinct : ∀ {h : List Event}, Distinct h → ((notebook h).map (·.id)).Nodup
  | [], _ => List.nodup_nil
  | .told nb :: _, hd => hd nb List.mem_cons_self
  | .run _ :: h, hd => notebook_distinct (h := h) (fun nb hn => hd nb (List.mem_cons_of_mem _ hn))
  | .flow _ :: h, hd => notebook_distinct (h := h) (fun nb hn => hd nb (List.mem_cons_of_mem _ hn))

theorem keys_told : ∀ {h : List Event} {i : Id}, i ∈ Assoc.keys (run h).pos → ∃ nb, Event.told nb ∈ h ∧ i ∈ nb.map (·.id)
  | [], _, hi => by cases hi
  | .run _ :: h, i, hi => by
    obtain ⟨nb, h1, h2⟩ := keys_told (h := h) (i := i) hi
    exact ⟨nb, List.mem_cons_of_mem _ h1, h2⟩
  | .flow _ :: h, i, hi => by
    obtain ⟨nb, h1, h2⟩ := keys_told (h := h) (i := i) hi
    exact ⟨nb, List.mem_cons_of_mem _ h1, h2⟩
  | .told nb :: h, i, hi => by
    have hnew : i ∈ Assoc.keys (index 0 nb) → ∃ nb', Event.told nb' ∈ Event.told nb :: h ∧ i ∈ nb'.map (·.id) := fun hx => by
      rw [keys_index] at hx
      obtain ⟨c, h1, h2⟩ := List.mem_map.1 hx
      exact ⟨nb, List.mem_cons_self, List.mem_map.2 ⟨c, (List.mem_filter.1 h1).1, h2⟩⟩
    have hi' : i ∈ Assoc.keys (setPositions (run h) (index 0 nb)).pos := hi
    unfold setPositions at hi'
    by_cases ho : (run h).inOrder = true
    · rw [if_pos ho] at hi'
      dsimp only at hi'
      rw [keys_append] at hi'
      rcases List.mem_append.1 hi' with hx | hx
      · exact hnew hx
      · obtain ⟨p, h1, h2⟩ := List.mem_map.1 hx
        obtain ⟨q, h3, h4⟩ := List.mem_map.1 h1
        obtain ⟨nb', h5, h6⟩ := keys_told (h := h) (i := i) (List.mem_map.2 ⟨q, (List.mem_filter.1 h3).1, by rw [← h2, ← h4]⟩)
        exact ⟨nb', List.mem_cons_of_mem _ h5, h6⟩
    · rw [if_neg ho] at hi'
      exact hnew hi'

end Verif.Around
