/-
Invariants of the tables of cells.
-/
import Verif.Shown.Spec

namespace Verif.Shown
open Verif

variable {C : Type} [DecidableEq C]

omit [DecidableEq C] in
theorem set_self {α : Type} (f : Nat → Option α) (k : Nat) (v : α) : set f k v k = some v := by
  simp [set]

omit [DecidableEq C] in
theorem set_ne {α : Type} (f : Nat → Option α) {k j : Nat} (v : α) (h : j ≠ k) :
    set f k v j = f j := by
  simp [set, h]

/-- Addresses in use are below `next`, and no two cells share their current object. -/
structure Inv (s : State C) : Prop where
  cur : ∀ i a, s.cur i = some a → a < s.next ∧ ∃ o, s.heap a = some o
  ctr : ∀ n a, s.byCtr n = some a → a < s.next ∧ n ≤ s.counter
  heap : ∀ a o, s.heap a = some o → a < s.next
  inj : ∀ i j a, s.cur i = some a → s.cur j = some a → i = j

/-- What stays of objects when messages are heard. -/
structure Same (s s' : State C) : Prop where
  heap : ∀ a o, s.heap a = some o → ∃ c, s'.heap a = some { o with content := c }
  byCtr : s'.byCtr = s.byCtr
  counter : s'.counter = s.counter
  cur : ∀ i a, s.cur i = some a → s'.cur i = some a

omit [DecidableEq C] in
theorem Same.refl (s : State C) : Same s s :=
  ⟨fun _ o h => ⟨o.content, h⟩, rfl, rfl, fun _ _ h => h⟩

omit [DecidableEq C] in
theorem Same.trans {s t u : State C} (h : Same s t) (h' : Same t u) : Same s u := by
  refine ⟨?_, h'.byCtr.trans h.byCtr, h'.counter.trans h.counter, fun i a hi => h'.cur i a (h.cur i a hi)⟩
  intro a o ho
  obtain ⟨c, hc⟩ := h.heap a o ho
  obtain ⟨c', hc'⟩ := h'.heap a _ hc
  exact ⟨c', hc'⟩

omit [DecidableEq C] in
theorem recheck_cur (L : Lang C) (s : State C) (p : Nat × C) :
    (recheck L s p).cur = s.cur ∧ (recheck L s p).next = s.next := by
  unfold recheck
  split
  · exact ⟨rfl, rfl⟩
  · split
    · exact ⟨rfl, rfl⟩
    · split <;> exact ⟨rfl, rfl⟩

omit [DecidableEq C] in
theorem recheck_same (L : Lang C) (s : State C) (p : Nat × C) : Same s (recheck L s p) := by
  unfold recheck
  split
  · exact Same.refl s
  · rename_i a _
    split
    · exact Same.refl s
    · rename_i o ho
      split
      · refine ⟨?_, rfl, rfl, fun _ _ h => h⟩
        intro b o' ho'
        by_cases hb : b = a
        · subst hb
          rw [ho] at ho'
          cases ho'
          exact ⟨p.2, set_self _ _ _⟩
        · exact ⟨o'.content, by show set s.heap a _ b = _; rw [set_ne _ _ hb]; exact ho'⟩
      · exact Same.refl s

omit [DecidableEq C] in
theorem recheck_inv (L : Lang C) (s : State C) (hi : Inv s) (p : Nat × C) : Inv (recheck L s p) := by
  have hs := recheck_same L s p
  obtain ⟨hc, hn⟩ := recheck_cur L s p
  refine ⟨?_, ?_, ?_, ?_⟩
  · intro i a h
    rw [hc] at h
    rw [hn]
    obtain ⟨h1, o, ho⟩ := hi.cur i a h
    obtain ⟨c, hc'⟩ := hs.heap a o ho
    exact ⟨h1, _, hc'⟩
  · intro n a h
    rw [hs.byCtr] at h
    rw [hn, hs.counter]
    exact hi.ctr n a h
  · intro a o h
    rw [hn]
    unfold recheck at h
    split at h
    · exact hi.heap a o h
    · rename_i b _
      split at h
      · exact hi.heap a o h
      · rename_i o' ho'
        split at h
        · by_cases hb : a = b
          · subst hb
            exact hi.heap _ _ ho'
          · have h' : set s.heap b { o' with content := p.2 } a = some o := h
            rw [set_ne _ _ hb] at h'
            exact hi.heap a o h'
        · exact hi.heap a o h
  · intro i j a h h'
    rw [hc] at h h'
    exact hi.inj i j a h h'

omit [DecidableEq C] in
theorem untracked_same (s : State C) (hi : Inv s) (p : Nat × C) : Same s (untracked s p) := by
  unfold untracked
  split
  · exact Same.refl s
  · rename_i hc
    refine ⟨?_, rfl, rfl, ?_⟩
    · intro a o ho
      have := hi.heap a o ho
      refine ⟨o.content, ?_⟩
      show set s.heap s.next _ a = _
      rw [set_ne _ _ (by omega)]
      exact ho
    · intro i a h
      show set s.cur p.1 s.next i = _
      rw [set_ne _ _ (by rintro rfl; rw [hc] at h; cases h)]
      exact h

omit [DecidableEq C] in
theorem untracked_inv (s : State C) (hi : Inv s) (p : Nat × C) : Inv (untracked s p) := by
  have hs := untracked_same s hi p
  unfold untracked at *
  cases hcp : s.cur p.1 with
  | some a => exact hi
  | none =>
    simp only [hcp] at hs ⊢
    refine ⟨?_, ?_, ?_, ?_⟩
    · intro i a h
      dsimp only at h ⊢
      by_cases hip : i = p.1
      · subst hip
        rw [set_self] at h
        cases h
        exact ⟨by omega, _, set_self _ _ _⟩
      · rw [set_ne _ _ hip] at h
        obtain ⟨h1, o, ho⟩ := hi.cur i a h
        exact ⟨by omega, o, by rw [set_ne _ _ (by omega)]; exact ho⟩
    · intro n a h
      obtain ⟨h1, h2⟩ := hi.ctr n a h
      exact ⟨by dsimp only; omega, h2⟩
    · intro a o h
      dsimp only at h ⊢
      by_cases ha : a = s.next
      · omega
      · rw [set_ne _ _ ha] at h
        have := hi.heap a o h
        omega
    · intro i j a h h'
      dsimp only at h h'
      by_cases hip : i = p.1
      · subst hip
        rw [set_self] at h
        cases h
        by_cases hjp : j = p.1
        · exact hjp.symm
        · rw [set_ne _ _ hjp] at h'
          have := (hi.cur j _ h').1
          omega
      · rw [set_ne _ _ hip] at h
        by_cases hjp : j = p.1
        · subst hjp
          rw [set_self] at h'
          cases h'
          have := (hi.cur i _ h).1
          omega
        · rw [set_ne _ _ hjp] at h'
          exact hi.inj i j a h h'

omit [DecidableEq C] in
theorem rechecks (L : Lang C) (msg : List (Nat × C)) : ∀ s : State C, Inv s →
    Inv (msg.foldl (recheck L) s) ∧ Same s (msg.foldl (recheck L) s) ∧
      (msg.foldl (recheck L) s).cur = s.cur := by
  induction msg with
  | nil => intro s hi; exact ⟨hi, Same.refl s, rfl⟩
  | cons p msg ih =>
    intro s hi
    obtain ⟨h1, h2, h3⟩ := ih (recheck L s p) (recheck_inv L s hi p)
    exact ⟨h1, (recheck_same L s p).trans h2, h3.trans (recheck_cur L s p).1⟩

omit [DecidableEq C] in
theorem untrackeds (msg : List (Nat × C)) : ∀ s : State C, Inv s →
    Inv (msg.foldl untracked s) ∧ Same s (msg.foldl untracked s) := by
  induction msg with
  | nil => intro s hi; exact ⟨hi, Same.refl s⟩
  | cons p msg ih =>
    intro s hi
    obtain ⟨h1, h2⟩ := ih (untracked s p) (untracked_inv s hi p)
    exact ⟨h1, (untracked_same s hi p).trans h2⟩

omit [DecidableEq C] in
theorem hear_inv (L : Lang C) (s : State C) (hi : Inv s) (r : Bool) (msg : List (Nat × C)) :
    Inv (hear L s r msg) ∧ Same s (hear L s r msg) := by
  unfold hear
  cases r with
  | true => exact untrackeds msg s hi
  | false =>
    obtain ⟨h1, h2, _⟩ := rechecks L msg s hi
    obtain ⟨h3, h4⟩ := untrackeds msg _ h1
    exact ⟨h3, h2.trans h4⟩

omit [DecidableEq C] in
theorem run_inv (L : Lang C) (s : State C) (hi : Inv s) (id : Nat) (c : C) (r : Bool) :
    Inv (runCell L s id c r) := by
  unfold runCell
  refine ⟨?_, ?_, ?_, ?_⟩
  · intro i a h
    dsimp only at h ⊢
    by_cases hip : i = id
    · subst hip
      rw [set_self] at h
      cases h
      exact ⟨by omega, _, set_self _ _ _⟩
    · rw [set_ne _ _ hip] at h
      obtain ⟨h1, o, ho⟩ := hi.cur i a h
      exact ⟨by omega, o, by rw [set_ne _ _ (by omega)]; exact ho⟩
  · intro n a h
    dsimp only at h ⊢
    by_cases hn : n = s.counter + 1
    · subst hn
      rw [set_self] at h
      cases h
      omega
    · rw [set_ne _ _ hn] at h
      have := hi.ctr n a h
      omega
  · intro a o h
    dsimp only at h ⊢
    by_cases ha : a = s.next
    · omega
    · rw [set_ne _ _ ha] at h
      have := hi.heap a o h
      omega
  · intro i j a h h'
    dsimp only at h h'
    by_cases hip : i = id
    · subst hip
      rw [set_self] at h
      cases h
      by_cases hjp : j = i
      · exact hjp.symm
      · rw [set_ne _ _ hjp] at h'
        have := (hi.cur j _ h').1
        omega
    · rw [set_ne _ _ hip] at h
      by_cases hjp : j = id
      · subst hjp
        rw [set_self] at h'
        cases h'
        have := (hi.cur i _ h).1
        omega
      · rw [set_ne _ _ hjp] at h'
        exact hi.inj i j a h h'

omit [DecidableEq C] in
theorem replay_inv (L : Lang C) : ∀ past : List (Event C), Inv (replay L past) ∧
    (replay L past).counter = runs past
  | [] => by
    refine ⟨⟨?_, ?_, ?_, ?_⟩, rfl⟩
    · intro _ _ h; cases h
    · intro _ _ h; cases h
    · intro _ _ h; cases h
    · intro _ _ _ h; cases h
  | .run id c r :: past => by
    obtain ⟨h1, h2⟩ := replay_inv L past
    exact ⟨run_inv L _ h1 id c r, by show (replay L past).counter + 1 = _; rw [h2]; rfl⟩
  | .heard r msg :: past => by
    obtain ⟨h1, h2⟩ := replay_inv L past
    obtain ⟨h3, h4⟩ := hear_inv L _ h1 r msg
    exact ⟨h3, by show (hear L (replay L past) r msg).counter = _; rw [h4.counter, h2]; rfl⟩

omit [DecidableEq C] in
theorem getLast_append (l m : List C) (c : C) :
    (l ++ m).getLast?.getD c = m.getLast?.getD (l.getLast?.getD c) := by
  rw [List.getLast?_append]
  cases m.getLast? <;> rfl

omit [DecidableEq C] in
theorem rechecks_content (L : Lang C) (id a : Nat) (msg : List (Nat × C)) : ∀ (s : State C) (o : Obj C),
    s.cur id = some a → s.heap a = some o → (∀ j, s.cur j = some a → j = id) →
    (msg.foldl (recheck L) s).heap a
      = some { o with content := (tells L id (.heard false msg)).getLast?.getD o.content } := by
  induction msg with
  | nil => intro s o _ ho _; exact ho
  | cons p msg ih =>
    intro s o hc ho hj
    obtain ⟨h1, _⟩ := recheck_cur L s p
    by_cases hp : p.1 = id ∧ L.parses p.2 = true
    · have hh : (recheck L s p).heap a = some { o with content := p.2 } := by
        unfold recheck
        rw [hp.1, hc]
        simp only [ho, hp.2, if_true]
        exact set_self _ _ _
      rw [List.foldl_cons, ih _ _ (by rw [h1]; exact hc) hh (by rw [h1]; exact hj)]
      have : tells L id (.heard false (p :: msg)) = [p.2] ++ tells L id (.heard false msg) := by
        simp [tells, hp.1, hp.2]
      rw [this, getLast_append]
      rfl
    · have hh : (recheck L s p).heap a = some o := by
        unfold recheck
        cases hcp : s.cur p.1 with
        | none => exact ho
        | some b =>
          dsimp only
          cases hb : s.heap b with
          | none => exact ho
          | some o' =>
            dsimp only
            split
            · rename_i hpp
              have hne : a ≠ b := by
                rintro rfl
                exact hp ⟨hj _ hcp, hpp⟩
              show set s.heap b _ a = _
              rw [set_ne _ _ hne]
              exact ho
            · exact ho
      rw [List.foldl_cons, ih _ _ (by rw [h1]; exact hc) hh (by rw [h1]; exact hj)]
      have : tells L id (.heard false (p :: msg)) = tells L id (.heard false msg) := by
        have : (p.1 == id && L.parses p.2) = false := by
          rw [Bool.eq_false_iff]
          intro h
          rw [Bool.and_eq_true] at h
          exact hp ⟨by simpa using h.1, h.2⟩
        simp [tells, this]
      rw [this]

omit [DecidableEq C] in
theorem rechecks_other (L : Lang C) (a : Nat) (msg : List (Nat × C)) : ∀ (s : State C),
    (∀ j, s.cur j ≠ some a) → (msg.foldl (recheck L) s).heap a = s.heap a := by
  induction msg with
  | nil => intro s _; rfl
  | cons p msg ih =>
    intro s hj
    obtain ⟨h1, _⟩ := recheck_cur L s p
    rw [List.foldl_cons, ih _ (by rw [h1]; exact hj)]
    unfold recheck
    cases hcp : s.cur p.1 with
    | none => rfl
    | some b =>
      dsimp only
      cases hb : s.heap b with
      | none => rfl
      | some o' =>
        dsimp only
        split
        · show set s.heap b _ a = _
          rw [set_ne _ _ (by rintro rfl; exact hj _ hcp)]
        · rfl

omit [DecidableEq C] in
theorem untrackeds_heap (a : Nat) (msg : List (Nat × C)) : ∀ (s : State C), a < s.next →
    (msg.foldl untracked s).heap a = s.heap a ∧
    ∀ j, (msg.foldl untracked s).cur j = some a → s.cur j = some a := by
  induction msg with
  | nil => intro s _; exact ⟨rfl, fun _ h => h⟩
  | cons p msg ih =>
    intro s ha
    rw [List.foldl_cons]
    have hu : (untracked s p).heap a = s.heap a ∧ a < (untracked s p).next ∧
        ∀ j, (untracked s p).cur j = some a → s.cur j = some a := by
      unfold untracked
      cases hcp : s.cur p.1 with
      | some b => exact ⟨rfl, ha, fun _ h => h⟩
      | none =>
        refine ⟨set_ne _ _ (by omega), by dsimp only; omega, ?_⟩
        intro j h
        dsimp only at h
        by_cases hj : j = p.1
        · subst hj
          rw [set_self] at h
          cases h
          omega
        · rw [set_ne _ _ hj] at h
          exact h
    obtain ⟨h1, h2⟩ := ih (untracked s p) hu.2.1
    exact ⟨h1.trans hu.1, fun j h => hu.2.2 j (h2 j h)⟩

omit [DecidableEq C] in
theorem hear_content (L : Lang C) (s : State C) (hi : Inv s) (id a : Nat) (o : Obj C) (r : Bool)
    (msg : List (Nat × C)) (hc : s.cur id = some a) (ho : s.heap a = some o) :
    (hear L s r msg).heap a
      = some { o with content := (tells L id (.heard r msg)).getLast?.getD o.content } := by
  unfold hear
  have ha := hi.heap a o ho
  cases r with
  | true =>
    rw [if_pos rfl, (untrackeds_heap a msg s ha).1, ho]
    rfl
  | false =>
    have h1 := rechecks_content L id a msg s o hc ho (fun j h => hi.inj j id a h hc)
    have h2 := (rechecks L msg s hi).1.heap a _ h1
    rw [if_neg (by simp), (untrackeds_heap a msg _ h2).1, h1]

omit [DecidableEq C] in
theorem hear_other (L : Lang C) (s : State C) (hi : Inv s) (a : Nat) (o : Obj C) (r : Bool)
    (msg : List (Nat × C)) (hj : ∀ j, s.cur j ≠ some a) (ho : s.heap a = some o) :
    (hear L s r msg).heap a = some o ∧ ∀ j, (hear L s r msg).cur j ≠ some a := by
  unfold hear
  have ha := hi.heap a o ho
  cases r with
  | true =>
    rw [if_pos rfl]
    obtain ⟨h1, h2⟩ := untrackeds_heap a msg s ha
    exact ⟨h1.trans ho, fun j h => hj j (h2 j h)⟩
  | false =>
    have h1 := rechecks_other L a msg s hj
    obtain ⟨hi', _, hc'⟩ := rechecks L msg s hi
    rw [if_neg (by simp)]
    rw [ho] at h1
    obtain ⟨h3, h4⟩ := untrackeds_heap a msg _ (hi'.heap a _ h1)
    exact ⟨h3.trans h1, fun j h => hj j (by rw [← hc']; exact h4 j h)⟩

omit [DecidableEq C] in
theorem takeWhile_snoc (p : α → Bool) (l : List α) (x : α) :
    (l ++ [x]).takeWhile p = if ∀ y ∈ l, p y = true then l ++ [x].takeWhile p else l.takeWhile p := by
  induction l with
  | nil => simp
  | cons y l ih =>
    by_cases hy : p y = true
    · have hyl : (y :: l).takeWhile p = y :: l.takeWhile p := by rw [List.takeWhile_cons, if_pos hy]
      rw [List.cons_append, List.takeWhile_cons, if_pos hy, ih, hyl]
      by_cases h : ∀ z ∈ l, p z = true
      · rw [if_pos h, if_pos (by intro z hz; rcases List.mem_cons.1 hz with rfl | hz; exacts [hy, h z hz])]
        rfl
      · rw [if_neg h, if_neg (fun h' => h fun z hz => h' z (List.mem_cons_of_mem _ hz))]
    · rw [List.cons_append, List.takeWhile_cons, if_neg hy,
        if_neg (fun h' => hy (h' y List.mem_cons_self)), List.takeWhile_cons, if_neg hy]

omit [DecidableEq C] in
theorem takeWhile_all (p : α → Bool) (l : List α) (h : ∀ y ∈ l, p y = true) : l.takeWhile p = l := by
  induction l with
  | nil => rfl
  | cons y l ih =>
    rw [List.takeWhile_cons, if_pos (h y List.mem_cons_self),
      ih fun z hz => h z (List.mem_cons_of_mem _ hz)]

omit [DecidableEq C] in
theorem edits_cons_reign (L : Lang C) (id : Nat) (e : Event C) (newer : List (Event C))
    (h : ∀ x ∈ newer, ¬ IsRun id x) : edits L id (e :: newer) = edits L id newer ++ tells L id e := by
  unfold edits reign
  have h' : ∀ x ∈ newer.reverse, (decide ¬ IsRun id x) = true := by
    intro x hx
    exact decide_eq_true (h x (List.mem_reverse.1 hx))
  rw [List.reverse_cons, takeWhile_snoc, if_pos h', takeWhile_all _ _ h',
    List.flatMap_append]
  congr 1
  by_cases he : IsRun id e
  · rw [List.takeWhile_cons, if_neg (by simp [he])]
    cases e with
    | run i c r => rfl
    | heard r msg => exact he.elim
  · rw [List.takeWhile_cons, if_pos (by simp [he])]
    simp

omit [DecidableEq C] in
theorem edits_cons_after (L : Lang C) (id : Nat) (e : Event C) (newer : List (Event C))
    (h : ∃ x ∈ newer, IsRun id x) : edits L id (e :: newer) = edits L id newer := by
  unfold edits reign
  obtain ⟨x, hx, hr⟩ := h
  rw [List.reverse_cons, takeWhile_snoc, if_neg]
  intro h'
  have := h' x (List.mem_reverse.2 hx)
  simp [hr] at this

omit [DecidableEq C] in
/-- The object of an execution. -/
theorem found (L : Lang C) (older : List (Event C)) (id : Nat) (c : C) (r : Bool) :
    ∀ newer : List (Event C), ∃ a o, (replay L (newer ++ .run id c r :: older)).byCtr (runs older + 1)
        = some a ∧
      (replay L (newer ++ .run id c r :: older)).heap a = some o ∧
      o.ctr = some (runs older + 1) ∧ o.content = (edits L id newer).getLast?.getD c ∧
      o.ran = (if r then none else some (L.body c)) ∧
      ((∀ x ∈ newer, ¬ IsRun id x) →
        (replay L (newer ++ .run id c r :: older)).cur id = some a) ∧
      ((∃ x ∈ newer, IsRun id x) → ∀ j, (replay L (newer ++ .run id c r :: older)).cur j ≠ some a)
  | [] => by
    have hcnt := (replay_inv L older).2
    refine ⟨(replay L older).next, _, ?_, set_self _ _ _, ?_, rfl, rfl, ?_, ?_⟩
    · show set _ ((replay L older).counter + 1) _ _ = _
      rw [hcnt]
      exact set_self _ _ _
    · show some ((replay L older).counter + 1) = _
      rw [hcnt]
    · intro _
      exact set_self _ _ _
    · rintro ⟨x, hx, _⟩
      cases hx
  | e :: newer => by
    obtain ⟨a, o, h1, h2, h3, h4, h5, h6, h7⟩ := found L older id c r newer
    obtain ⟨hi, hcnt⟩ := replay_inv L (newer ++ .run id c r :: older)
    rw [List.cons_append]
    cases e with
    | run i c' r' =>
      refine ⟨a, o, ?_, ?_, h3, ?_, h5, ?_, ?_⟩
      · show set (replay L (newer ++ .run id c r :: older)).byCtr _ _ _ = _
        rw [set_ne _ _ (by have := (hi.ctr _ _ h1).2; omega)]
        exact h1
      · show set (replay L (newer ++ .run id c r :: older)).heap _ _ _ = _
        rw [set_ne _ _ (by have := hi.heap _ _ h2; omega)]
        exact h2
      · rw [h4]
        by_cases hn : ∀ x ∈ newer, ¬ IsRun id x
        · rw [edits_cons_reign L id _ newer hn]
          simp [tells]
        · rw [edits_cons_after L id _ newer (by push Not at hn; exact hn)]
      · intro hall
        have hne : i ≠ id := hall _ List.mem_cons_self
        show set (replay L (newer ++ .run id c r :: older)).cur _ _ _ = _
        rw [set_ne _ _ (Ne.symm hne)]
        exact h6 fun x hx => hall x (List.mem_cons_of_mem _ hx)
      · intro hex j hj
        have hlt := hi.heap _ _ h2
        have hj' : set (replay L (newer ++ .run id c r :: older)).cur i
            (replay L (newer ++ .run id c r :: older)).next j = some a := hj
        by_cases hji : j = i
        · subst hji
          rw [set_self] at hj'
          have := Option.some.inj hj'
          omega
        · rw [set_ne _ _ hji] at hj'
          by_cases hn : ∃ x ∈ newer, IsRun id x
          · exact h7 hn j hj'
          · push Not at hn
            obtain ⟨x, hx, hr⟩ := hex
            rcases List.mem_cons.1 hx with rfl | hx
            · exact hji ((hi.inj j id a hj' (h6 hn)).trans (Eq.symm hr))
            · exact hn x hx hr
    | heard r' msg =>
      obtain ⟨_, hsame⟩ := hear_inv L _ hi r' msg
      by_cases hn : ∀ x ∈ newer, ¬ IsRun id x
      · refine ⟨a, _, ?_, hear_content L _ hi id a o r' msg (h6 hn) h2, h3, ?_, h5, ?_, ?_⟩
        · show (hear L _ r' msg).byCtr _ = _
          rw [hsame.byCtr]
          exact h1
        · rw [edits_cons_reign L id _ newer hn, getLast_append, ← h4]
        · intro _
          exact hsame.cur _ _ (h6 hn)
        · rintro ⟨x, hx, hr⟩
          rcases List.mem_cons.1 hx with rfl | hx
          · exact hr.elim
          · exact (hn x hx hr).elim
      · have hex : ∃ x ∈ newer, IsRun id x := by push Not at hn; exact hn
        obtain ⟨h8, h9⟩ := hear_other L _ hi a o r' msg (h7 hex) h2
        refine ⟨a, o, ?_, h8, h3, ?_, h5, ?_, fun _ => h9⟩
        · show (hear L _ r' msg).byCtr _ = _
          rw [hsame.byCtr]
          exact h1
        · rw [edits_cons_after L id _ newer hex]
          exact h4
        · intro hall
          exact (hn fun x hx => hall x (List.mem_cons_of_mem _ hx)).elim

end Verif.Shown
