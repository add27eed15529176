import Verif.Memo.Run
import Verif.Memo.ValueProps

/-! # Memoized results are reused only when nothing the cell read has changed (C25)

`memo_hit_partial` has the proved part, `memo_violated` the excluded points. -/

namespace Verif.Memo
open Verif
variable {N : Type} [DecidableEq N]

/-! ## Specification -/

/-- Counters grow along the history, above `b`. -/
def Later (b : Int) : List (Run N) → Prop
  | [] => True
  | r :: rs => b < r.ctr ∧ Later r.ctr rs

/-- All timestamps of symbols are at most `b`. -/
def Bd (b : Int) (s : State N) : Prop :=
  ∀ x, (s.sym x).ts.1 ≤ b ∧ ∀ o t, (s.sym x).memo o = some t → t.1 ≤ b

/-- Tracking is complete: in each run, a symbol bound to an object that the run changes is among the updated symbols. -/
def Tracked (max : Nat) (other : Comp N → Comp N → Bool) : State N → List (Run N) → Prop
  | _, [] => True
  | s, r :: rs => (∀ x, r.muts (s.sym x).obj ≠ none → x ∈ r.written) ∧
      ∀ s', step max other s r = .ok s' → Tracked max other s' rs

/-! ## One step -/

omit [DecidableEq N] in
theorem restore_sym (ctr : Int) : ∀ (os : List (Nat × Int × Nat)) (s : State N) (x : Nat),
    (restore ctr s os).heap = s.heap ∧ (restore ctr s os).table = s.table ∧
    ((restore ctr s os).sym x).memo = (s.sym x).memo ∧ ((restore ctr s os).sym x).isImport = (s.sym x).isImport ∧
    ((restore ctr s os).sym x).accessible = (s.sym x).accessible ∧
    (((restore ctr s os).sym x).ts.1 = ctr ∨ (restore ctr s os).sym x = s.sym x)
  | [], s, x => ⟨rfl, rfl, rfl, rfl, rfl, .inr rfl⟩
  | o :: os, s, x => by
    obtain ⟨h1, h2, h3, h4, h5, h6⟩ := restore_sym ctr os (restore1 ctr s o) x
    have e : restore ctr s (o :: os) = restore ctr (restore1 ctr s o) os := rfl
    rw [e]
    refine ⟨h1, h2, ?_, ?_, ?_, ?_⟩
    · rw [h3]; unfold restore1; simp only; split_ifs <;> rfl
    · rw [h4]; unfold restore1; simp only; split_ifs <;> rfl
    · rw [h5]; unfold restore1; simp only; split_ifs <;> rfl
    · rcases h6 with h6 | h6
      · exact .inl h6
      · rw [h6]
        unfold restore1
        simp only
        split_ifs
        · exact .inl rfl
        · exact .inr rfl

/-- The run `r` from `s` files an execution: it is an ordinary, memoized and successful one, and its inputs are there. -/
def Records (max : Nat) (other : Comp N → Comp N → Bool) (s : State N) (r : Run N) (is : List (Inp N)) : Prop :=
  hit max other s r = .ok none ∧ r.memoized = true ∧ r.failed = false ∧
    inputsOf max (body s r) r.ctr r.reads = .ok (some is)

theorem step_cases {max : Nat} {other : Comp N → Comp N → Bool} {s s' : State N} {r : Run N}
    (h : step max other s r = .ok s') :
    (∃ m, s' = restore r.ctr s m) ∨ s' = body s r ∨
      ∃ is, Records max other s r is ∧
        s' = { noteObjs (body s r) r with
          table := s.table ++ [⟨r.content, r.ctr, is, outputsOf (body s r) r⟩] } := by
  unfold step at h
  split at h
  · cases h
  · injection h with h
    exact .inl ⟨_, h.symm⟩
  · rename_i hh
    injection h with h
    by_cases hm : r.memoized = true
    swap
    · rw [if_neg hm] at h
      exact .inr (.inl h.symm)
    rw [if_pos hm] at h
    unfold record at h
    by_cases hf : r.failed = true
    · rw [if_pos hf] at h
      exact .inr (.inl h.symm)
    rw [if_neg hf] at h
    split at h
    · exact .inr (.inl h.symm)
    · exact .inr (.inl h.symm)
    · rename_i is hi
      exact .inr (.inr ⟨is, ⟨hh, hm, by simpa using hf, hi⟩, h.symm⟩)

/-- What one run does to one symbol. -/
theorem step_sym {max : Nat} {other : Comp N → Comp N → Bool} {s s' : State N} {r : Run N}
    (h : step max other s r = .ok s') (x : Nat) :
    (s'.sym x).accessible = (s.sym x).accessible ∧
    ((s'.sym x).ts.1 = r.ctr ∨ s'.sym x = s.sym x ∧ (x ∉ r.written ∨ s'.heap = s.heap)) ∧
    (∀ o, (s'.sym x).memo o = (s.sym x).memo o ∨ ∃ t, (s'.sym x).memo o = some t ∧ t.1 = r.ctr) := by
  rcases step_cases h with ⟨m, rfl⟩ | rfl | ⟨is, _, rfl⟩
  · obtain ⟨h1, h2, h3, h4, h5, h6⟩ := restore_sym r.ctr m s x
    exact ⟨h5, h6.imp id (fun h => ⟨h, .inr h1⟩), fun o => .inl (by rw [h3])⟩
  · unfold body
    simp only
    by_cases hx : x ∈ r.written
    · simp only [if_pos hx]
      exact ⟨trivial, .inl trivial, fun o => .inl trivial⟩
    · simp only [if_neg hx]
      exact ⟨trivial, .inr ⟨trivial, .inl hx⟩, fun o => .inl trivial⟩
  · unfold noteObjs body
    simp only
    by_cases hx : x ∈ r.written
    · simp only [if_pos hx]
      refine ⟨trivial, .inl trivial, fun o => ?_⟩
      by_cases ho : o = r.newObj x
      · subst ho
        exact .inr ⟨_, Function.update_self .., rfl⟩
      · exact .inl (Function.update_of_ne ho ..)
    · simp only [if_neg hx]
      exact ⟨trivial, .inr ⟨trivial, .inl hx⟩, fun o => .inl trivial⟩

theorem Bd.step {max : Nat} {other : Comp N → Comp N → Bool} {s s' : State N} {r : Run N} {b : Int}
    (h : step max other s r = .ok s') (hb : Bd b s) (hr : b < r.ctr) : Bd r.ctr s' := by
  intro x
  obtain ⟨_, h1, h2⟩ := step_sym h x
  refine ⟨?_, fun o t ht => ?_⟩
  · rcases h1 with h1 | ⟨h1, _⟩
    · omega
    · have := (hb x).1
      rw [h1]
      omega
  · rcases h2 o with h2 | ⟨t', h2, h3⟩
    · have := (hb x).2 o t (by rw [← h2, ht])
      omega
    · rw [ht] at h2
      injection h2 with h2
      subst h2
      omega

/-- A value, the heap restricted to the symbol, is kept by a run that does not update the symbol. -/
theorem step_value {max : Nat} {other : Comp N → Comp N → Bool} {s s' : State N} {r : Run N} {x : Nat}
    (h : step max other s r = .ok s') (ht : ∀ x, r.muts (s.sym x).obj ≠ none → x ∈ r.written)
    (hx : s'.sym x = s.sym x ∧ (x ∉ r.written ∨ s'.heap = s.heap)) : s'.value x = s.value x := by
  unfold State.value
  rw [hx.1]
  rcases step_cases h with ⟨m, rfl⟩ | rfl | ⟨is, _, rfl⟩
  · rw [(restore_sym r.ctr m s x).1]
  · rcases hx.2 with hx | hx
    · have : r.muts (s.sym x).obj = none := by
        by_contra hc
        exact hx (ht x hc)
      show (r.muts (s.sym x).obj).getD _ = _
      rw [this]
      rfl
    · rw [hx]
  · rcases hx.2 with hx | hx
    · have : r.muts (s.sym x).obj = none := by
        by_contra hc
        exact hx (ht x hc)
      show (r.muts (s.sym x).obj).getD _ = _
      rw [this]
      rfl
    · rw [hx]

/-! ## Many steps -/

theorem steps_mono {max : Nat} {other : Comp N → Comp N → Bool} : ∀ {rs : List (Run N)} {s s' : State N} {b : Int},
    steps max other s rs = .ok s' → Bd b s → Later b rs → ∀ x,
    (s'.sym x).accessible = (s.sym x).accessible ∧ (s.sym x).ts.1 ≤ (s'.sym x).ts.1 ∧
    ∀ o t, (s.sym x).memo o = some t → ∃ t', (s'.sym x).memo o = some t' ∧ t.1 ≤ t'.1
  | [], s, s', b, h, _, _, x => by
    injection h with h
    subst h
    exact ⟨rfl, le_refl _, fun o t ht => ⟨t, ht, le_refl _⟩⟩
  | r :: rs, s, s', b, h, hb, hl, x => by
    rw [steps] at h
    split at h
    · cases h
    · rename_i s1 h1
      obtain ⟨ha, hm, ho⟩ := steps_mono h (hb.step h1 hl.1) hl.2 x
      obtain ⟨ka, km, ko⟩ := step_sym h1 x
      refine ⟨ha.trans ka, ?_, fun o t ht => ?_⟩
      · have h3 := (hb x).1
        have h4 := hl.1
        rcases km with km | ⟨km, _⟩
        · omega
        · rw [km] at hm
          exact hm
      · have h3 := (hb x).2 o t ht
        have h4 := hl.1
        rcases ko o with ko | ⟨t', ko, kt⟩
        · exact ho o t (by rw [ko, ht])
        · obtain ⟨t2, h5, h6⟩ := ho o t' ko
          exact ⟨t2, h5, by omega⟩

/-- If the timestamp of a symbol has the cell it had before, no run updated the symbol, and its value is what it was. -/
theorem steps_same {max : Nat} {other : Comp N → Comp N → Bool} : ∀ {rs : List (Run N)} {s s' : State N} {b : Int},
    steps max other s rs = .ok s' → Bd b s → Later b rs → Tracked max other s rs → ∀ x,
    (s'.sym x).ts.1 = (s.sym x).ts.1 → s'.value x = s.value x
  | [], s, s', b, h, _, _, _, x, _ => by
    injection h with h
    subst h
    rfl
  | r :: rs, s, s', b, h, hb, hl, ht, x, he => by
    rw [steps] at h
    split at h
    · cases h
    · rename_i s1 h1
      have hm := (steps_mono h (hb.step h1 hl.1) hl.2 x).2.1
      have h3 := (hb x).1
      have h4 := hl.1
      obtain ⟨_, km, _⟩ := step_sym h1 x
      rcases km with km | km
      · omega
      · rw [steps_same h (hb.step h1 hl.1) hl.2 (ht.2 s1 h1) x (by rw [km.1, he])]
        exact step_value h1 ht.1 km

theorem steps_append {max : Nat} {other : Comp N → Comp N → Bool} : ∀ {rs rs' : List (Run N)} {s s' : State N},
    steps max other s (rs ++ rs') = .ok s' ↔ ∃ s1, steps max other s rs = .ok s1 ∧ steps max other s1 rs' = .ok s'
  | [], rs', s, s' => by simp [steps]
  | r :: rs, rs', s, s' => by
    simp only [List.cons_append, steps]
    cases step max other s r with
    | error e => simp
    | ok s1 => exact steps_append

/-- Every execution in the table was filed by some run of the history. -/
theorem steps_table {max : Nat} {other : Comp N → Comp N → Bool} : ∀ {rs : List (Run N)} {s s' : State N},
    steps max other s rs = .ok s' → ∀ m ∈ s'.table, m ∈ s.table ∨ ∃ pre r post s1 s2 is, rs = pre ++ r :: post ∧
      steps max other s pre = .ok s1 ∧ step max other s1 r = .ok s2 ∧ steps max other s2 post = .ok s' ∧
      Records max other s1 r is ∧ m = ⟨r.content, r.ctr, is, outputsOf (body s1 r) r⟩ ∧
      s2 = { noteObjs (body s1 r) r with table := s1.table ++ [m] }
  | [], s, s', h, m, hm => by
    injection h with h
    subst h
    exact .inl hm
  | r :: rs, s, s', h, m, hm => by
    have h0 := h
    rw [steps] at h
    split at h
    · cases h
    · rename_i s1 h1
      rcases steps_table h m hm with hm | ⟨pre, r', post, s2, s3, is, rfl, h2, h3, h4, h5, h6, h7⟩
      · rcases step_cases h1 with ⟨os, rfl⟩ | rfl | ⟨is, hr, rfl⟩
        · rw [(restore_sym r.ctr os s 0).2.1] at hm
          exact .inl hm
        · exact .inl hm
        · rcases List.mem_append.1 hm with hm | hm
          · exact .inl hm
          · rw [List.mem_singleton] at hm
            exact .inr ⟨[], r, rs, s, _, is, rfl, rfl, h1, h, hr, hm, by rw [hm]⟩
      · refine .inr ⟨r :: pre, r', post, s2, s3, is, rfl, ?_, h3, h4, h5, h6, h7⟩
        rw [steps, h1]
        exact h2

omit [DecidableEq N] in
theorem inputsOf_mem {max : Nat} {s : State N} {ctr : Int} : ∀ {xs : List Nat} {is : List (Inp N)},
    inputsOf max s ctr xs = .ok (some is) → ∀ x ∈ xs, (s.sym x).ts.1 ≠ ctr → (s.sym x).accessible = true →
    ∃ c, comparable max (s.value x) = .ok c ∧
      (⟨x, (s.sym x).ts, (s.sym x).memo (s.sym x).obj, (s.sym x).obj, c.map Prod.fst⟩ : Inp N) ∈ is
  | [], _, _, x, hx, _, _ => by simp at hx
  | y :: ys, is, h, x, hx, hts, hacc => by
    rw [inputsOf] at h
    by_cases h1 : (s.sym y).ts.1 = ctr
    · rw [if_pos h1] at h
      rcases List.mem_cons.1 hx with rfl | hx
      · exact absurd h1 hts
      · exact inputsOf_mem h x hx hts hacc
    rw [if_neg h1] at h
    by_cases h2 : (!(s.sym y).accessible) = true
    · rw [if_pos h2] at h
      rcases List.mem_cons.1 hx with rfl | hx
      · rw [hacc] at h2
        cases h2
      · exact inputsOf_mem h x hx hts hacc
    rw [if_neg h2] at h
    by_cases h3 : (s.sym y).ts.1 > ctr
    · rw [if_pos h3] at h
      cases h
    rw [if_neg h3] at h
    split at h
    · cases h
    · rename_i c hc
      split at h
      · cases h
      · cases h
      · rename_i is' hi
        injection h with h
        injection h with h
        subst h
        rcases List.mem_cons.1 hx with rfl | hx
        · exact ⟨c, hc, by simp⟩
        · obtain ⟨c', hc', hm⟩ := inputsOf_mem hi x hx hts hacc
          exact ⟨c', hc', List.mem_cons_of_mem _ hm⟩

theorem inpsOk_true {max : Nat} {other : Comp N → Comp N → Bool} {s : State N} : ∀ {is : List (Inp N)},
    inpsOk max other s is = .ok true → ∀ i ∈ is, inpOk max other s i = .ok true
  | [], _, i, hi => by simp at hi
  | j :: is, h, i, hi => by
    rw [inpsOk] at h
    split at h
    · cases h
    · cases h
    · rename_i hj
      rcases List.mem_cons.1 hi with rfl | hi
      · exact hj
      · exact inpsOk_true h i hi

theorem lookupIn_some {max : Nat} {other : Comp N → Comp N → Bool} {s : State N} {content : Nat} {ctr : Int} :
    ∀ {rs : List (Rec N)} {m : Rec N}, lookupIn max other s content ctr rs = .ok (some m) →
    m ∈ rs ∧ m.content = content ∧ m.ctr < ctr ∧ inpsOk max other s m.inputs = .ok true
  | [], m, h => by cases h
  | r :: rs, m, h => by
    rw [lookupIn] at h
    by_cases h1 : r.content ≠ content ∨ r.ctr ≥ ctr
    · rw [if_pos h1] at h
      obtain ⟨h2, h3⟩ := lookupIn_some h
      exact ⟨List.mem_cons_of_mem _ h2, h3⟩
    rw [if_neg h1] at h
    split at h
    · cases h
    · rename_i hi
      injection h with h
      injection h with h
      subst h
      exact ⟨by simp, by
        by_contra hc
        exact h1 (.inl hc), by
        by_contra hc
        exact h1 (.inr (not_lt.1 hc)), hi⟩
    · obtain ⟨h2, h3⟩ := lookupIn_some h
      exact ⟨List.mem_cons_of_mem _ h2, h3⟩

theorem Later.append {b : Int} : ∀ {pre post : List (Run N)} {r : Run N}, Later b (pre ++ r :: post) →
    Later b pre ∧ Later r.ctr post ∧ b < r.ctr ∧ ∀ {max other} {s s1 : State N}, Bd b s → steps max other s pre = .ok s1 →
      ∃ b', b' < r.ctr ∧ b ≤ b' ∧ Bd b' s1
  | [], post, r, h => ⟨trivial, h.2, h.1, fun hb hs => by
      injection hs with hs
      subst hs
      exact ⟨b, h.1, le_refl _, hb⟩⟩
  | q :: pre, post, r, h => by
    obtain ⟨h1, h2, h3, h4⟩ := Later.append (b := q.ctr) h.2
    refine ⟨⟨h.1, h1⟩, h2, lt_trans h.1 h3, fun hb hs => ?_⟩
    rw [steps] at hs
    split at hs
    · cases hs
    · rename_i s' hq
      obtain ⟨b', k1, k2, k3⟩ := h4 (hb.step hq h.1) hs
      exact ⟨b', k1, le_trans (le_of_lt h.1) k2, k3⟩

theorem Tracked.append {max : Nat} {other : Comp N → Comp N → Bool} : ∀ {pre post : List (Run N)} {s s1 : State N},
    Tracked max other s (pre ++ post) → steps max other s pre = .ok s1 → Tracked max other s1 post
  | [], post, s, s1, h, hs => by
    injection hs with hs
    subst hs
    exact h
  | q :: pre, post, s, s1, h, hs => by
    rw [steps] at hs
    split at hs
    · cases hs
    · rename_i s' hq
      exact Tracked.append (h.2 s' hq) hs

/-- **C25, proved part.** Take any history of runs, with growing counters, that starts without memoized executions, and a
further memoized run `q` that reuses an execution. Then some earlier run `r` of the history had the same content, was
memoized, succeeded, and filed that execution. And for every accessible symbol `x` that `r` read and did not itself update,
and that is not an import now, one of these holds:
* comparables were made of its value after `r` and of its value now, and the comparison says they are equal; if the values
  have no arrays and are of the same kinds, they are equal in Python;
* its value now is its value after `r`, because no run has updated it since (given complete tracking);
* it is bound to the object it was bound to after `r`, and no execution filed since then had updated it with that object.

Missing: symbols that `r` both reads and updates, imports, and in the third case a change of the object by a run that files
no execution; see `memo_violated`. -/
theorem memo_hit_partial (max : Nat) (other : Comp N → Comp N → Bool) (s0 s : State N) (rs : List (Run N)) (q : Run N)
    (m : Rec N) (h0 : s0.table = []) (hb : Bd 0 s0) (hl : Later 0 rs) (ht : Tracked max other s0 rs)
    (hs : steps max other s0 rs = .ok s) (hq : hit max other s q = .ok (some m)) :
    ∃ pre r post s1 s2, rs = pre ++ r :: post ∧ steps max other s0 pre = .ok s1 ∧ step max other s1 r = .ok s2 ∧
      r.content = q.content ∧ r.ctr < q.ctr ∧ r.memoized = true ∧ r.failed = false ∧ m.ctr = r.ctr ∧
      m.outputs = outputsOf s2 r ∧
      ∀ x ∈ r.reads, (s.sym x).accessible = true → x ∉ r.written → (s.sym x).isImport = false →
        (∃ c d f g, comparable max (s2.value x) = .ok (some (c, g)) ∧ comparable max (s.value x) = .ok (some (d, f)) ∧
          applyEq s.cur other f d c = true ∧
          (arrayFree (s.value x) = true → arrayFree (s2.value x) = true →
            sameKind (s.value x) (s2.value x) = true → pyEq (s.value x) (s2.value x) = true)) ∨
        s.value x = s2.value x ∨
        ((s.sym x).obj = (s2.sym x).obj ∧
          ∀ p1 r' p2 s3 s4 is, post = p1 ++ r' :: p2 → steps max other s2 p1 = .ok s3 → step max other s3 r' = .ok s4 →
            Records max other s3 r' is → x ∈ r'.written → (s4.sym x).obj ≠ (s2.sym x).obj) := by
  unfold hit at hq
  by_cases hmp : (q.memoized && q.hasPrev) = true
  swap
  · rw [if_neg hmp] at hq
    cases hq
  rw [if_pos hmp] at hq
  obtain ⟨hm, hc, hctr, hin⟩ := lookupIn_some hq
  rcases steps_table hs m hm with hm | ⟨pre, r, post, s1, s2, is, rfl, h1, h2, h3, h4, h5, h6⟩
  · rw [h0] at hm
    simp at hm
  obtain ⟨_, hl2, hr, hbd⟩ := Later.append hl
  obtain ⟨b, hbr, hb0, hb1⟩ := hbd hb h1
  have hb2 : Bd r.ctr s2 := hb1.step h2 hbr
  have ht2 : Tracked max other s2 post := by
    have := Tracked.append ht h1
    exact this.2 s2 h2
  have hsym : ∀ x, x ∉ r.written → s2.sym x = s1.sym x ∧ (body s1 r).sym x = s1.sym x := by
    intro x hx
    rw [h6]
    unfold noteObjs body
    simp only [if_neg hx]
    exact ⟨trivial, trivial⟩
  have hval : ∀ x, (body s1 r).value x = s2.value x := by
    intro x
    rw [h6]
    unfold State.value noteObjs
    simp only
    split_ifs <;> rfl
  refine ⟨pre, r, post, s1, s2, rfl, h1, h2, by rw [← hc, h5], by rw [h5] at hctr; exact hctr, h4.2.1, h4.2.2.1,
    by rw [h5], ?_, fun x hx hacc hw himp => ?_⟩
  · rw [h5, h6]
    unfold outputsOf noteObjs
    simp only
    have hf : r.written.filter (fun x => ((body s1 r).sym x).accessible) =
        r.written.filter (fun x => (if x ∈ r.written then
          { (body s1 r).sym x with
            memo := Function.update ((body s1 r).sym x).memo ((body s1 r).sym x).obj (some ((body s1 r).sym x).ts) }
          else (body s1 r).sym x).accessible) :=
      List.filter_congr (fun x hx => by rw [if_pos hx])
    rw [← hf]
    apply List.map_congr_left
    intro x hx
    rw [if_pos (List.mem_filter.1 hx).1]
  · obtain ⟨ha, hmono, hmemo⟩ := steps_mono h3 hb2 hl2 x
    obtain ⟨e1, e2⟩ := hsym x hw
    have hts : ((body s1 r).sym x).ts.1 ≠ r.ctr := by
      rw [e2]
      have := (hb1 x).1
      omega
    obtain ⟨c, hcmp, hmem⟩ := inputsOf_mem h4.2.2.2 x hx hts (by rw [e2, ← e1, ← ha, hacc])
    rw [hval x] at hcmp
    rw [e2] at hmem
    have hok := inpsOk_true hin _ (by rw [h5]; exact hmem)
    unfold inpOk at hok
    cases c with
    | some cg =>
      obtain ⟨c, g⟩ := cg
      simp only [Option.map_some] at hok
      split at hok
      · cases hok
      · cases hok
      · rename_i d f hd
        injection hok with hok
        exact .inl ⟨c, d, f, g, hcmp, hd, hok, fun a1 a2 hk =>
          comparable_sound_partial max s.cur other _ _ hd hcmp a1 a2 hk hok⟩
    | none =>
      simp only [Option.map_none, Except.ok.injEq] at hok
      unfold plainOk at hok
      rw [himp, Bool.false_or, Bool.or_eq_true, Bool.and_eq_true, Bool.or_eq_true] at hok
      simp only [beq_iff_eq] at hok
      right
      rcases hok with hok | ⟨hobj, hmem⟩
      · exact .inl (steps_same h3 hb2 hl2 ht2 x (by rw [e1, hok]))
      · refine .inr ⟨by rw [e1, hobj], ?_⟩
        intro p1 r' p2 s3 s4 is' hpost h7 h8 h9 hw' heq
        subst hpost
        obtain ⟨_, hl4, hr', hbd'⟩ := Later.append hl2
        obtain ⟨b', hb'r, hb'0, hb3⟩ := hbd' hb2 h7
        have hb4 : Bd r'.ctr s4 := hb3.step h8 hb'r
        obtain ⟨s5, h10, h11⟩ := (steps_append (rs := p1) (rs' := r' :: p2)).1 h3
        rw [h7] at h10
        injection h10 with h10
        subst h10
        rw [steps, h8] at h11
        -- the run `r'` noted its own timestamp under the object
        have hnote : ∃ t, (s4.sym x).memo (s4.sym x).obj = some t ∧ t.1 = r'.ctr := by
          have : s4 = { noteObjs (body s3 r') r' with
              table := s3.table ++ [⟨r'.content, r'.ctr, is', outputsOf (body s3 r') r'⟩] } := by
            unfold step at h8
            rw [h9.1] at h8
            simp only [if_pos h9.2.1] at h8
            injection h8 with h8
            rw [← h8]
            unfold record
            rw [if_neg (by rw [h9.2.2.1]; decide), h9.2.2.2]
            rfl
          rw [this]
          unfold noteObjs body
          simp only [if_pos hw']
          exact ⟨_, Function.update_self .., rfl⟩
        obtain ⟨t, ht1, ht2'⟩ := hnote
        obtain ⟨t', ht3, ht4⟩ := (steps_mono h11 hb4 hl4 x).2.2 _ _ ht1
        have hobj' : (s4.sym x).obj = (s.sym x).obj := by rw [heq, e1, hobj]
        rw [hobj'] at ht3
        have hbx := hb1 x
        rcases hmem with hmem | hmem
        · rw [ht3] at hmem
          injection hmem with hmem
          have h12 := hbx.1
          rw [← hmem] at h12
          omega
        · rw [ht3] at hmem
          injection hmem with hmem
          cases hmo : (s1.sym x).memo (s1.sym x).obj with
          | none =>
            rw [hmo] at hmem
            have : t'.1 = -1 := by rw [hmem]; rfl
            omega
          | some t2 =>
            rw [hmo] at hmem
            have h12 := hbx.2 _ _ hmo
            have : t' = t2 := hmem
            rw [this] at ht4
            omega

/-! ## Concrete histories -/

/-- Nothing has run; every symbol is bound to object 0. -/
def sInit : State Nat := ⟨fun _ => ⟨uninit, false, 0, fun _ => none, true⟩, fun _ => .bare 0 0, []⟩

/-- A run with counter `ctr` and content `content` that binds symbol 1 to object `o` and gives that object a value. -/
def assign (ctr : Int) (content : Nat) (memoized imp : Bool) (reads : List Nat) (o : Nat) (v : Val Nat) : Run Nat :=
  ⟨ctr, content, memoized, false, true, reads, [1], fun _ => o, fun _ => imp, fun _ => 0, fun p => if p = o then some v else none⟩

/-- A memoized run that reads symbol 1 and binds symbol 2 to object 20. -/
def reader (ctr : Int) : Run Nat :=
  ⟨ctr, 7, true, false, true, [1], [2], fun _ => 20, fun _ => false, fun _ => 0, fun p => if p = 20 then some (.num 1 4) else none⟩

/-- A violation of C25: the run `r` read symbol 1, the run `q` reuses what `r` filed, and the value of the symbol is not what
`r` read. -/
def StaleReuse (pre : List (Run Nat)) (r : Run Nat) (post : List (Run Nat)) (q : Run Nat) : Prop :=
  ∃ s1 s2 s m, steps 1000000 (fun _ _ => false) sInit pre = .ok s1 ∧ step 1000000 (fun _ _ => false) s1 r = .ok s2 ∧
    steps 1000000 (fun _ _ => false) s2 post = .ok s ∧ hit 1000000 (fun _ _ => false) s q = .ok (some m) ∧
    m.ctr = r.ctr ∧ 1 ∈ r.reads ∧ pyEq (s.value 1) (s1.value 1) = false

/-- **C25 is violated**, as stated, in each of these histories:
* `x = 0`, then `x += 1` memoized: running it again reuses the first result, for a symbol the cell updates is no input;
* `import a as x`, then a memoized cell that reads `x`, then `import b as x`: the memoized cell is reused;
* `x = C()` in a memoized cell, then a memoized cell that reads `x`, then `x.f = 1` in an ordinary cell: reused;
* `x` is an array, changed in place between the two runs: reused;
* `x = [1]`, later `x = (1,)`: reused. -/
theorem memo_violated :
    StaleReuse [assign 1 5 false false [] 10 (.num 1 0)] (assign 2 7 true false [1] 11 (.num 1 1)) []
      (assign 3 7 true false [1] 12 (.num 1 2)) ∧
    StaleReuse [assign 1 5 false true [] 10 (.bare 10 0)] (reader 2) [assign 3 6 false true [] 11 (.bare 11 0)] (reader 4) ∧
    StaleReuse [assign 1 5 true false [] 10 (.bare 10 0)] (reader 2) [assign 3 6 false false [] 10 (.bare 10 1)] (reader 4) ∧
    StaleReuse [assign 1 5 false false [] 10 (.arr 10 [1])] (reader 2) [assign 3 6 false false [] 10 (.arr 10 [2])] (reader 4) ∧
    StaleReuse [assign 1 5 false false [] 10 (.list 10 [.num 1 1])] (reader 2)
      [assign 3 6 false false [] 11 (.tuple [.num 1 1])] (reader 4) := by
  refine ⟨?_, ?_, ?_, ?_, ?_⟩ <;> exact ⟨_, _, _, _, rfl, rfl, rfl, rfl, rfl, by decide, by decide⟩

/-- A history for `memo_hit_partial`: `x = [1]`, a memoized reader, `x = [1]` again with another object, an unrelated cell;
the reader is reused. -/
def hEx : List (Run Nat) :=
  [assign 1 5 false false [] 10 (.list 10 [.num 1 1]), reader 2, assign 3 6 false false [] 11 (.list 11 [.num 2 1])]

example : sInit.table = [] ∧ Bd 0 sInit ∧ Later 0 hEx ∧ Tracked 1000000 (fun _ _ => false) sInit hEx ∧
    ∃ s m, steps 1000000 (fun _ _ => false) sInit hEx = .ok s ∧ hit 1000000 (fun _ _ => false) s (reader 4) = .ok (some m) ∧
      m.ctr = 2 ∧ 1 ∈ (reader 2).reads ∧ (s.sym 1).accessible = true ∧ 1 ∉ (reader 2).written ∧
      (s.sym 1).isImport = false := by
  refine ⟨rfl, fun x => ⟨(by decide : (-1 : Int) ≤ 0), fun o t h => by cases h⟩, ?_, ?_, _, _, rfl, rfl, rfl, by decide, rfl, by decide, rfl⟩
  · refine ⟨?_, ?_, ?_, trivial⟩ <;> decide
  · refine ⟨fun x h => absurd rfl h, fun s' h => ?_⟩
    injection h with h
    subst h
    refine ⟨fun x h => ?_, fun s' h => ?_⟩
    · rcases x with _ | _ | x <;> exact absurd rfl h
    · injection h with h
      subst h
      refine ⟨fun x h => ?_, fun _ _ => trivial⟩
      rcases x with _ | _ | _ | x <;> exact absurd rfl h

end Verif.Memo
