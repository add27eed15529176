import Verif.Memo.RunProps

/-!
# What a memoized run leaves when it is reused (C193) -/

namespace Verif.Memo
open Verif
variable {N : Type} [DecidableEq N]

omit [DecidableEq N] in
theorem restore_map (ctr : Int) (k : Nat → Int) (o : Nat → Nat) : ∀ (l : List Nat) (s : State N) (x : Nat),
    (restore ctr s (l.map fun x => (x, k x, o x))).sym x = if x ∈ l then { s.sym x with obj := o x, ts := (ctr, k x) } else s.sym x
  | [], s, x => by simp [restore]
  | y :: l, s, x => by
    have h := restore_map ctr k o l (restore1 ctr s (y, k y, o y)) x
    have e : restore ctr s ((y :: l).map fun x => (x, k x, o x)) = restore ctr (restore1 ctr s (y, k y, o y)) (l.map fun x => (x, k x, o x)) := rfl
    rw [e, h]
    by_cases hy : x = y
    · subst hy
      by_cases hl : x ∈ l <;> simp [restore1, hl]
    · by_cases hl : x ∈ l <;> simp [restore1, hl, hy]

/-- An object that a run does not change keeps its contents. -/
theorem step_heap {max : Nat} {other : Comp N → Comp N → Bool} {s s' : State N} {r : Run N} {p : Nat} (h : step max other s r = .ok s') (hp : r.muts p = none) :
    s'.heap p = s.heap p := by
  rcases step_cases h with ⟨m, rfl⟩ | rfl | ⟨is, _, rfl⟩
  · rw [(restore_sym r.ctr m s 0).1]
  · simp [body, hp]
  · simp [noteObjs, body, hp]

theorem steps_heap {max : Nat} {other : Comp N → Comp N → Bool} {p : Nat} : ∀ {rs : List (Run N)} {s s' : State N}, steps max other s rs = .ok s' → (∀ r ∈ rs, r.muts p = none) →
    s'.heap p = s.heap p
  | [], s, s', h, _ => by
    injection h with h
    rw [h]
  | r :: rs, s, s', h, hp => by
    rw [steps] at h
    cases h1 : step max other s r with
    | error e => rw [h1] at h; cases h
    | ok s1 =>
      rw [h1] at h
      rw [steps_heap h (fun r' hr' => hp r' (by simp [hr'])), step_heap h1 (hp r (by simp))]

/-- **C193** (partial): if what a run filed is reused, then there was a run `r` of the same code, and each variable that `r` gave an object has this object again and counts as updated by the
present run, at the statement of then; all other variables, and the contents of all objects, are left as they are. The value of such a variable is what it was after `r` if no run since then has changed the object.

Full statement: the value is what it was after `r`. It is false, see `reuse_value` and `reuse_violated`. -/
theorem reuse_partial (max : Nat) (other : Comp N → Comp N → Bool) (s0 s s' : State N) (rs : List (Run N)) (q : Run N)
    (m : Rec N) (h0 : s0.table = []) (hb : Bd 0 s0) (hl : Later 0 rs) (hs : steps max other s0 rs = .ok s) (hq : hit max other s q = .ok (some m))
    (hs' : step max other s q = .ok s') :
    ∃ pre r post s1 s2, rs = pre ++ r :: post ∧ steps max other s0 pre = .ok s1 ∧ step max other s1 r = .ok s2 ∧ r.content = q.content ∧ m.ctr = r.ctr ∧
      (∀ x ∈ r.written, (s.sym x).accessible = true → (s'.sym x).obj = r.newObj x ∧ (s'.sym x).ts = (q.ctr, r.stmt x) ∧ (s2.sym x).obj = r.newObj x ∧
        ((∀ r' ∈ post, r'.muts (r.newObj x) = none) → s'.value x = s2.value x)) ∧
      (∀ x, x ∉ r.written ∨ (s.sym x).accessible = false → s'.sym x = s.sym x) ∧ s'.heap = s.heap := by
  have hq' := hq
  unfold hit at hq
  by_cases hmp : (q.memoized && q.hasPrev) = true
  swap
  · rw [if_neg hmp] at hq
    cases hq
  rw [if_pos hmp] at hq
  obtain ⟨hm, hc, -, -⟩ := lookupIn_some hq
  rcases steps_table hs m hm with hm | ⟨pre, r, post, s1, s2, is, rfl, h1, h2, h3, h4, h5, h6⟩
  · rw [h0] at hm
    simp at hm
  obtain ⟨-, hl2, -, hbd⟩ := Later.append hl
  obtain ⟨b', hb1, -, hb2⟩ := hbd hb h1
  have hacc : ∀ x, (s.sym x).accessible = (s2.sym x).accessible := fun x => (steps_mono h3 (Bd.step h2 hb2 hb1) hl2 x).1
  have hacc2 : ∀ x, (s2.sym x).accessible = ((body s1 r).sym x).accessible := by
    intro x
    rw [h6]
    by_cases hx : x ∈ r.written <;> simp [noteObjs, hx]
  have hobj : ∀ x ∈ r.written, (s2.sym x).obj = r.newObj x := by
    intro x hx
    rw [h6]
    simp [noteObjs, body, hx]
  have e : s' = restore q.ctr s m.outputs := by
    unfold step at hs'
    rw [hq'] at hs'
    injection hs' with hs'
    exact hs'.symm
  have hout : m.outputs = (r.written.filter fun x => ((body s1 r).sym x).accessible).map fun x => (x, ((body s1 r).sym x).ts.2, ((body s1 r).sym x).obj) := by
    rw [h5]
    rfl
  have hsym : ∀ x, s'.sym x = if x ∈ r.written.filter fun x => ((body s1 r).sym x).accessible then
      { s.sym x with obj := ((body s1 r).sym x).obj, ts := (q.ctr, ((body s1 r).sym x).ts.2) } else s.sym x := by
    intro x
    rw [e, hout]
    exact restore_map q.ctr (fun x => ((body s1 r).sym x).ts.2) (fun x => ((body s1 r).sym x).obj) _ s x
  have hheap : s'.heap = s.heap := by
    rw [e]
    exact (restore_sym q.ctr m.outputs s 0).1
  refine ⟨pre, r, post, s1, s2, rfl, h1, h2, by rw [← hc, h5], by rw [h5], fun x hx ha => ?_, fun x hx => ?_, hheap⟩
  · have hin : x ∈ r.written.filter fun x => ((body s1 r).sym x).accessible := List.mem_filter.2 ⟨hx, by rw [← hacc2, ← hacc]; exact ha⟩
    have h7 := hsym x
    rw [if_pos hin] at h7
    have h8 : (s'.sym x).obj = r.newObj x := by rw [h7]; simp [body, hx]
    refine ⟨h8, by rw [h7]; simp [body, hx], hobj x hx, fun hn => ?_⟩
    unfold State.value
    rw [h8, hobj x hx, hheap]
    exact steps_heap h3 hn
  · have hin : x ∉ r.written.filter fun x => ((body s1 r).sym x).accessible := by
      intro hin
      obtain ⟨h8, h9⟩ := List.mem_filter.1 hin
      rcases hx with hx | hx
      · exact hx h8
      · rw [hacc, hacc2, h9] at hx
        cases hx
    rw [hsym x, if_neg hin]

/-- **C193** (violated): the value of a variable that a reused run gave an object is whatever the object holds now, so that it is not what the run computed whenever the object has been
changed since then so that it is not equal to it. -/
theorem reuse_value (max : Nat) (other : Comp N → Comp N → Bool) (s0 s s' : State N) (rs : List (Run N)) (q : Run N)
    (m : Rec N) (h0 : s0.table = []) (hb : Bd 0 s0) (hl : Later 0 rs) (hs : steps max other s0 rs = .ok s) (hq : hit max other s q = .ok (some m))
    (hs' : step max other s q = .ok s') :
    ∃ pre r post s1 s2, rs = pre ++ r :: post ∧ steps max other s0 pre = .ok s1 ∧ step max other s1 r = .ok s2 ∧ m.ctr = r.ctr ∧
      ∀ x ∈ r.written, (s.sym x).accessible = true → s'.value x = s.heap (r.newObj x) ∧
        (pyEq (s.heap (r.newObj x)) (s2.heap (r.newObj x)) = false → pyEq (s'.value x) (s2.value x) = false) := by
  obtain ⟨pre, r, post, s1, s2, e, h1, h2, -, h3, h4, -, h5⟩ := reuse_partial max other s0 s s' rs q m h0 hb hl hs hq hs'
  refine ⟨pre, r, post, s1, s2, e, h1, h2, h3, fun x hx ha => ?_⟩
  obtain ⟨h6, -, h7, -⟩ := h4 x hx ha
  unfold State.value
  rw [h6, h7, h5]
  exact ⟨rfl, id⟩

/-- A memoized cell `x = []`, run again. -/
def fresh (ctr : Int) : Run Nat := assign ctr 7 true false [] 10 (.list 10 [])

/-- `x.append(1)` in another cell. -/
def append (ctr : Int) : Run Nat := assign ctr 6 false false [] 10 (.list 10 [.num 1 1])

/-- `x = 3` in another cell. -/
def other3 (ctr : Int) : Run Nat := assign ctr 6 false false [] 11 (.num 1 3)

theorem bd_init : Bd 0 sInit := fun x => ⟨(by decide : (-1 : Int) ≤ 0), fun o t h => by cases h⟩

/-- `x = []`, `x = 3` and `x = []` again: reused, and `x` is the empty list. -/
example : ∃ s s' m, steps 1000000 (fun _ _ => false) sInit [fresh 1, other3 2] = .ok s ∧ hit 1000000 (fun _ _ => false) s (fresh 3) = .ok (some m) ∧
    step 1000000 (fun _ _ => false) s (fresh 3) = .ok s' ∧ Later 0 [fresh 1, other3 2] ∧ (∀ r' ∈ [other3 2], r'.muts 10 = none) ∧ pyEq (s'.value 1) (.list 10 []) = true := by
  refine ⟨_, _, _, rfl, rfl, rfl, ⟨by decide, by decide, trivial⟩, by decide, by decide⟩

/-- **C193** (violated): `x = []` in a memoized cell, `x.append(1)` in another one; running the first one again reuses its result, and `x` is `[1]` afterwards. -/
theorem reuse_violated : ∃ s s' m, steps 1000000 (fun _ _ => false) sInit [fresh 1, append 2] = .ok s ∧ hit 1000000 (fun _ _ => false) s (fresh 3) = .ok (some m) ∧
    step 1000000 (fun _ _ => false) s (fresh 3) = .ok s' ∧ Later 0 [fresh 1, append 2] ∧ Bd 0 sInit ∧ (s'.value 1) = .list 10 [.num 1 1] ∧ (body s (fresh 3)).value 1 = .list 10 [] := by
  refine ⟨_, _, _, rfl, rfl, rfl, ⟨by decide, by decide, trivial⟩, bd_init, rfl, rfl⟩

end Verif.Memo
