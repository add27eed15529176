import Verif.Wait.Model

/-!
# Waiting is exact (C87) and can always be decided (C88) -/

namespace Verif.Wait

variable {S : Type}

/-! ## Specification -/

/-- The symbol itself is stale: an input changed and the symbol was not updated since, nor did the user clear such marks. -/
def StaleOwn (w : World S) (s : S) : Prop := w.off s = false ∧ w.ctr s < w.required s ∧ w.minTs < w.required s

/-- The symbol or a part of its object is stale. Before the marks were cleared for the first time, parts are listed as waiting only if they are. -/
inductive Stale (w : World S) : S → Prop
  | own {s : S} : StaleOwn w s → Stale w s
  | listed {s q : S} : w.off s = false → q ∈ w.waiting s → w.minTs = -1 → Stale w s
  | part {s q : S} : w.off s = false → q ∈ w.waiting s → Stale w q → Stale w s

/-- The one or the other. -/
def StaleAt (w : World S) (s : S) : Bool → Prop
  | true => Stale w s
  | false => StaleOwn w s

/-- The dependency of `s` on `par` that arose in execution `t`, at position `p0`, can be seen from `pos`. -/
def Dep (w : World S) (s par : S) (t p0 pos : Int) : Prop := (∃ ts, (par, ts) ∈ w.parents s ∧ t ∈ ts) ∧ w.pos t = some p0 ∧ p0 ≤ pos

/-- `par` was updated in execution `u` by a cell that can be seen from `p0`. -/
def Upd (w : World S) (par : S) (u p0 : Int) : Prop := u ∈ w.updated par ∧ ∃ pu, w.pos u = some pu ∧ pu ≤ p0

/-- What it means that a symbol waits at a position of the notebook, if only cells above count: an input that it got from above has been
updated from above since, or waits itself there; or a part of its object waits. -/
inductive Waits (w : World S) : S → Int → Bool → Prop
  | updated {s par : S} {pos t p0 u : Int} {d : Bool} : StaleAt w s d → Dep w s par t p0 pos → Upd w par u p0 → t < u → Waits w s pos d
  | input {s par : S} {pos t p0 u : Int} {d : Bool} : StaleAt w s d → Dep w s par t p0 pos → Upd w par u p0 → Waits w par p0 true →
      Waits w s pos d
  | part {s q : S} {pos : Int} : Stale w s → q ∈ w.waiting s → Waits w q pos true → Waits w s pos true

/-! ## Proofs -/

theorem shallow_iff (w : World S) (s : S) : shallow w s = true ↔ StaleOwn w s := by
  simp only [shallow, StaleOwn, Bool.and_eq_true, Bool.not_eq_true', decide_eq_true_eq, Int.max_lt]

theorem fold_exact (P : S → Prop) (f : S → Except Err Bool) : ∀ (l : List S) (b0 b : Bool),
    (∀ q ∈ l, ∀ b, f q = .ok b → (b = true ↔ P q)) →
    l.foldlM (fun b q => if b then .ok true else f q) b0 = .ok b → (b = true ↔ b0 = true ∨ ∃ q ∈ l, P q) := by
  intro l
  induction l with
  | nil =>
    intro b0 b _ h
    simp [pure, Except.pure] at h
    simp [h]
  | cons q l ih =>
    intro b0 b hf h
    rw [List.foldlM_cons] at h
    cases b0 with
    | true =>
      simp only [if_true, bind, Except.bind] at h
      have := (ih true b (fun q hq => hf q (by simp [hq])) h)
      simp [this]
    | false =>
      simp only [Bool.false_eq_true, if_false, bind, Except.bind] at h
      cases hq : f q with
      | error e => rw [hq] at h; cases h
      | ok b1 =>
        rw [hq] at h
        have h1 := ih b1 b (fun q hq => hf q (by simp [hq])) h
        rw [h1, hf q (by simp) b1 hq]
        simp

/-- Whenever `is_waiting` answers, it answers right. -/
theorem isWaiting_exact (w : World S) : ∀ (n : Nat) (s : S) (b : Bool), isWaiting w n s = .ok b → (b = true ↔ Stale w s) := by
  intro n
  induction n with
  | zero => intro s b h; simp [isWaiting] at h
  | succ n ih =>
    intro s b h
    rw [isWaiting] at h
    by_cases ho : w.off s = true
    · rw [if_pos ho] at h
      cases h
      simp only [Bool.false_eq_true, false_iff]
      intro hs
      cases hs with
      | own h => rw [h.1] at ho; cases ho
      | listed h _ _ => rw [h] at ho; cases ho
      | part h _ _ => rw [h] at ho; cases ho
    · rw [if_neg ho] at h
      have ho' : w.off s = false := by simpa using ho
      by_cases hs : shallow w s = true
      · rw [if_pos hs] at h
        cases h
        simp only [true_iff]
        exact .own ((shallow_iff w s).mp hs)
      · rw [if_neg hs] at h
        have hown : ¬ StaleOwn w s := fun hx => hs ((shallow_iff w s).mpr hx)
        by_cases hm : w.minTs = -1
        · rw [if_pos hm] at h
          cases h
          constructor
          · intro hne
            cases hw : w.waiting s with
            | nil => simp [hw] at hne
            | cons q l => exact .listed ho' (q := q) (by simp [hw]) hm
          · intro hst
            cases hst with
            | own h => exact (hown h).elim
            | listed _ hq _ =>
              cases hw : w.waiting s with
              | nil => simp [hw] at hq
              | cons q l => rfl
            | part _ hq _ =>
              cases hw : w.waiting s with
              | nil => simp [hw] at hq
              | cons q l => rfl
        · rw [if_neg hm] at h
          have := fold_exact (Stale w) (isWaiting w n) (w.waiting s) false b (fun q _ b hb => ih q b hb) h
          rw [this]
          constructor
          · rintro (h | ⟨q, hq, hst⟩)
            · cases h
            · exact .part ho' hq hst
          · intro hst
            cases hst with
            | own h => exact (hown h).elim
            | listed _ _ h => exact (hm h).elim
            | part _ hq h => exact .inr ⟨_, hq, h⟩

/-- Parts that wait are of smaller rank. -/
def PartsRanked (w : World S) (rank : S → Nat) : Prop := ∀ s q, q ∈ w.waiting s → rank q < rank s

theorem fold_ok (f : S → Except Err Bool) : ∀ (l : List S) (b0 : Bool), (∀ q ∈ l, ∃ b, f q = .ok b) →
    ∃ b, l.foldlM (fun b q => if b then .ok true else f q) b0 = .ok b := by
  intro l
  induction l with
  | nil => intro b0 _; exact ⟨b0, rfl⟩
  | cons q l ih =>
    intro b0 hf
    rw [List.foldlM_cons]
    cases b0 with
    | true =>
      simp only [if_true, bind, Except.bind]
      exact ih true fun q hq => hf q (by simp [hq])
    | false =>
      obtain ⟨b, hb⟩ := hf q (by simp)
      simp only [Bool.false_eq_true, if_false, bind, Except.bind, hb]
      exact ih b fun q hq => hf q (by simp [hq])

/-- **C88**: whether a symbol is stale is decided, and decided right, if no object that waits is, through parts that wait, a part of itself. -/
theorem isWaiting_total_partial (w : World S) (rank : S → Nat) (hr : PartsRanked w rank) : ∀ (n : Nat) (s : S), rank s < n →
    ∃ b, isWaiting w n s = .ok b ∧ (b = true ↔ Stale w s) := by
  intro n
  induction n with
  | zero => intro s h; omega
  | succ n ih =>
    intro s hs
    have : ∃ b, isWaiting w (n + 1) s = .ok b := by
      rw [isWaiting]
      by_cases ho : w.off s = true
      · exact ⟨_, by rw [if_pos ho]⟩
      · rw [if_neg ho]
        by_cases hsh : shallow w s = true
        · exact ⟨_, by rw [if_pos hsh]⟩
        · rw [if_neg hsh]
          by_cases hm : w.minTs = -1
          · exact ⟨_, by rw [if_pos hm]⟩
          · rw [if_neg hm]
            refine fold_ok _ _ _ fun q hq => ?_
            obtain ⟨b, hb, _⟩ := ih q (by have := hr s q hq; omega)
            exact ⟨b, hb⟩
    obtain ⟨b, hb⟩ := this
    exact ⟨b, hb, isWaiting_exact w (n + 1) s b hb⟩

/-- The same on any graph as long as the marks were never cleared. -/
theorem isWaiting_total_uncleared (w : World S) (h : w.minTs = -1) (n : Nat) (s : S) :
    ∃ b, isWaiting w (n + 1) s = .ok b ∧ (b = true ↔ Stale w s) := by
  have : ∃ b, isWaiting w (n + 1) s = .ok b := by
    rw [isWaiting, h]
    by_cases ho : w.off s = true
    · exact ⟨_, by rw [if_pos ho]⟩
    · rw [if_neg ho]
      by_cases hsh : shallow w s = true
      · exact ⟨_, by rw [if_pos hsh]⟩
      · exact ⟨_, by rw [if_neg hsh, if_pos rfl]⟩
  obtain ⟨b, hb⟩ := this
  exact ⟨b, hb, isWaiting_exact w (n + 1) s b hb⟩

/-- A list `l` that is its own first item, `l[0]`, which waited when the marks were cleared after execution 4. -/
def knot : World Bool where
  off _ := false
  ctr _ := 3
  required s := if s then 4 else -1
  minTs := 4
  waiting _ := [true]
  parents _ := []
  updated _ := [3]
  pos _ := some 0
  anyOrder := false

/-- **C88 fails** for an object that contains itself (`l[0] = l if z else 0`, then `z` changes, then `%flow clear`): the recursion never ends. -/
theorem isWaiting_violated : ∀ n, isWaiting knot n false = .error .fuel ∧ isWaiting knot n true = .error .fuel := by
  intro n
  induction n with
  | zero => exact ⟨rfl, rfl⟩
  | succ n ih =>
    have h : ∀ s, isWaiting knot (n + 1) s = .error .fuel := by
      intro s
      have hsh : shallow knot s = false := by cases s <;> rfl
      rw [isWaiting, if_neg (by simp [knot]), if_neg (by simp [hsh]), if_neg (by simp [knot])]
      show List.foldlM (fun b q => if b then .ok true else isWaiting knot n q) false [true] = _
      simp [List.foldlM_cons, ih.2, bind, Except.bind]
    exact ⟨h false, h true⟩

variable [DecidableEq S]

theorem anyM_spec {α C : Type} (Inv : C → Prop) (P : α → Prop) (f : C → α → Except Err (Bool × C)) : ∀ (l : List α) (c : C),
    (∀ c a, a ∈ l → Inv c → ∃ b c', f c a = .ok (b, c') ∧ (b = true ↔ P a) ∧ Inv c') → Inv c →
    ∃ b c', anyM f c l = .ok (b, c') ∧ (b = true ↔ ∃ a ∈ l, P a) ∧ Inv c' := by
  intro l
  induction l with
  | nil => intro c _ hc; exact ⟨false, c, rfl, by simp, hc⟩
  | cons a l ih =>
    intro c hf hc
    obtain ⟨b, c1, h1, h2, h3⟩ := hf c a (by simp) hc
    cases b with
    | true => exact ⟨true, c1, by simp [anyM, h1], by simp [h2.mp rfl], h3⟩
    | false =>
      obtain ⟨b', c2, h4, h5, h6⟩ := ih c1 (fun c a ha => hf c a (by simp [ha])) h3
      have hn : ¬ P a := fun hp => by have := h2.mpr hp; cases this
      exact ⟨b', c2, by simp [anyM, h1, h4], by rw [h5]; simp [hn], h6⟩

/-- Inputs and waiting parts are of smaller rank: no symbol depends on itself. -/
structure Ranked (w : World S) (rank : S → Nat) : Prop where
  parts : PartsRanked w rank
  inputs : ∀ s par ts, (par, ts) ∈ w.parents s → rank par < rank s

/-- Every execution mentioned is on record. -/
structure Registered (w : World S) : Prop where
  deps : ∀ s par ts t, (par, ts) ∈ w.parents s → t ∈ ts → (w.pos t).isSome
  updates : ∀ s u, u ∈ w.updated s → (w.pos u).isSome

/-- The entry was made since the last execution. -/
def Cache.has (c : Cache S) (now : Int) (s : S) (p : Int) (d b : Bool) : Prop := c.entry s p d = some b ∧ now ≤ c.stamp s

/-- What is new in `c'` is right, and about symbols of rank below `r`. -/
def Ext (w : World S) (now : Int) (rank : S → Nat) (r : Nat) (c c' : Cache S) : Prop :=
  ∀ s p d b, c'.has now s p d b → c.has now s p d b ∨ (rank s < r ∧ (b = true ↔ Waits w s p d))

/-- What is kept about symbols of rank below `r` is right. -/
def Right (w : World S) (now : Int) (rank : S → Nat) (r : Nat) (c : Cache S) : Prop :=
  ∀ s p d b, rank s < r → c.has now s p d b → (b = true ↔ Waits w s p d)

omit [DecidableEq S] in
theorem ext_trans {w : World S} {now : Int} {rank : S → Nat} {r r' : Nat} {c c' c'' : Cache S} (hr : r' ≤ r) (h1 : Ext w now rank r c c')
    (h2 : Ext w now rank r' c' c'') : Ext w now rank r c c'' := by
  intro s p d b h
  rcases h2 s p d b h with h | ⟨h, hb⟩
  · exact h1 s p d b h
  · exact .inr ⟨by omega, hb⟩

omit [DecidableEq S] in
theorem right_ext {w : World S} {now : Int} {rank : S → Nat} {r : Nat} {c c' : Cache S} (h : Right w now rank r c) (h' : Ext w now rank r c c') :
    Right w now rank r c' := by
  intro s p d b hr hh
  rcases h' s p d b hh with h1 | h1
  · exact h s p d b hr h1
  · exact h1.2

theorem enter_has {c : Cache S} {now : Int} {s q : S} {p : Int} {d b : Bool} (h : (c.enter now s).has now q p d b) : c.has now q p d b := by
  unfold Cache.enter at h
  by_cases hn : now > c.stamp s
  · rw [if_pos hn] at h
    obtain ⟨h1, h2⟩ := h
    by_cases hq : q = s
    · simp [hq] at h1
    · simp [hq] at h1 h2
      exact ⟨h1, h2⟩
  · rw [if_neg hn] at h
    exact h

theorem enter_entry {c : Cache S} {now : Int} {s : S} {p : Int} {d b : Bool} (h : (c.enter now s).entry s p d = some b) :
    c.has now s p d b := by
  unfold Cache.enter at h
  by_cases hn : now > c.stamp s
  · rw [if_pos hn] at h
    simp at h
  · rw [if_neg hn] at h
    exact ⟨h, by omega⟩

theorem set_has {c : Cache S} {now : Int} {s q : S} {p p' : Int} {d d' b b' : Bool} (h : (c.set s p d b).has now q p' d' b') :
    (q = s ∧ p' = p ∧ d' = d ∧ b' = b) ∨ (¬ (q = s ∧ p' = p ∧ d' = d) ∧ c.has now q p' d' b') := by
  obtain ⟨h1, h2⟩ := h
  simp only [Cache.set] at h1 h2
  by_cases hq : q = s ∧ p' = p ∧ d' = d
  · rw [if_pos hq] at h1
    exact .inl ⟨hq.1, hq.2.1, hq.2.2, by simpa using h1.symm⟩
  · rw [if_neg hq] at h1
    exact .inr ⟨hq, h1, h2⟩

omit [DecidableEq S] in
/-- The search through inputs and parts, given that the recursive calls are right. -/
theorem impl_exact (w : World S) (now : Int) (rank : S → Nat) (hr : Ranked w rank) (hreg : Registered w)
    (self : Cache S → S → Int → Except Err (Bool × Cache S)) (s : S) (pos : Int) (deep : Bool) (hst : StaleAt w s deep)
    (hself : ∀ c q p, rank q < rank s → Right w now rank (rank q + 1) c → ∃ b c', self c q p = .ok (b, c') ∧ (b = true ↔ Waits w q p true) ∧
      Ext w now rank (rank q + 1) c c') (c0 : Cache S) (hc0 : Right w now rank (rank s) c0) :
    ∃ b c', impl w self c0 s pos deep = .ok (b, c') ∧ (b = true ↔ Waits w s pos deep) ∧ Ext w now rank (rank s) c0 c' := by
  have hcall : ∀ c q p, rank q < rank s → Ext w now rank (rank s) c0 c → ∃ b c', self c q p = .ok (b, c') ∧ (b = true ↔ Waits w q p true) ∧
      Ext w now rank (rank s) c0 c' := by
    intro c q p hq hc
    have hrc : Right w now rank (rank q + 1) c := fun s' p' d' b' hlt => right_ext hc0 hc s' p' d' b' (by omega)
    obtain ⟨b, c', h1, h2, h3⟩ := hself c q p hq hrc
    exact ⟨b, c', h1, h2, ext_trans (by omega) hc h3⟩
  have hloop : ∃ b c', anyM (fun c p => anyM (probeTs w self pos p.1) c p.2) c0 (w.parents s) = .ok (b, c') ∧
      (b = true ↔ ∃ p ∈ w.parents s, ∃ t ∈ p.2, ∃ p0, w.pos t = some p0 ∧ p0 ≤ pos ∧ ∃ u ∈ w.updated p.1, ∃ pu, w.pos u = some pu ∧ pu ≤ p0 ∧
        (t < u ∨ Waits w p.1 p0 true)) ∧ Ext w now rank (rank s) c0 c' := by
    refine anyM_spec (Ext w now rank (rank s) c0) _ _ _ _ ?_ (fun _ _ _ _ h => .inl h)
    rintro c ⟨par, ts⟩ hp hc
    have hrank := hr.inputs s par ts hp
    refine anyM_spec (Ext w now rank (rank s) c0) _ _ _ _ ?_ hc
    intro c t ht hc
    obtain ⟨p0, hp0⟩ := Option.isSome_iff_exists.mp (hreg.deps s par ts t hp ht)
    simp only [probeTs, hp0, Option.some.injEq]
    by_cases hgt : p0 > pos
    · rw [if_pos hgt]
      refine ⟨false, c, rfl, ?_, hc⟩
      simp only [Bool.false_eq_true, false_iff]
      rintro ⟨p1, rfl, hle, _⟩
      omega
    · rw [if_neg hgt]
      have hprobe : ∀ c u, u ∈ w.updated par → Ext w now rank (rank s) c0 c → ∃ b c', probeUpdate w self par t p0 c u = .ok (b, c') ∧
          (b = true ↔ ∃ pu, w.pos u = some pu ∧ pu ≤ p0 ∧ (t < u ∨ Waits w par p0 true)) ∧ Ext w now rank (rank s) c0 c' := by
        intro c u hu hc
        obtain ⟨pu, hpu⟩ := Option.isSome_iff_exists.mp (hreg.updates par u hu)
        simp only [probeUpdate, hpu, Option.some.injEq]
        by_cases h1 : pu > p0
        · rw [if_pos h1]
          refine ⟨false, c, rfl, ?_, hc⟩
          simp only [Bool.false_eq_true, false_iff]
          rintro ⟨p1, rfl, hle, _⟩
          omega
        · rw [if_neg h1]
          by_cases h2 : u > t
          · rw [if_pos h2]
            exact ⟨true, c, rfl, by simp only [true_iff]; exact ⟨pu, rfl, by omega, .inl h2⟩, hc⟩
          · rw [if_neg h2]
            obtain ⟨b, c', h3, h4, h5⟩ := hcall c par p0 hrank hc
            refine ⟨b, c', h3, h4.trans ?_, h5⟩
            constructor
            · exact fun h => ⟨pu, rfl, by omega, .inr h⟩
            · rintro ⟨p1, rfl, _, h | h⟩
              · omega
              · exact h
      obtain ⟨b, c', h1, h2, h3⟩ := anyM_spec (Ext w now rank (rank s) c0)
        (fun u => ∃ pu, w.pos u = some pu ∧ pu ≤ p0 ∧ (t < u ∨ Waits w par p0 true)) (probeUpdate w self par t p0) (w.updated par) c hprobe hc
      refine ⟨b, c', h1, h2.trans ?_, h3⟩
      constructor
      · rintro ⟨u, hu, h⟩
        exact ⟨p0, rfl, by omega, u, hu, h⟩
      · rintro ⟨p1, rfl, _, u, hu, h⟩
        exact ⟨u, hu, h⟩
  obtain ⟨b, c1, h1, h2, h3⟩ := hloop
  unfold impl
  rw [h1]
  cases b with
  | true =>
    obtain ⟨⟨par, ts⟩, hp, t, ht, p0, hp0, hle, u, hu, pu, hpu, hple, h⟩ := h2.mp rfl
    refine ⟨true, c1, rfl, ?_, h3⟩
    simp only [true_iff]
    rcases h with h | h
    · exact .updated hst ⟨⟨ts, hp, ht⟩, hp0, hle⟩ ⟨hu, pu, hpu, hple⟩ h
    · exact .input hst ⟨⟨ts, hp, ht⟩, hp0, hle⟩ ⟨hu, pu, hpu, hple⟩ h
  | false =>
    have hno : ∀ (par : S) (t p0 u : Int), Dep w s par t p0 pos → Upd w par u p0 → ¬ (t < u ∨ Waits w par p0 true) := by
      rintro par t p0 u ⟨⟨ts, hp, ht⟩, hp0, hle⟩ ⟨hu, pu, hpu, hple⟩ h
      have := h2.mpr ⟨(par, ts), hp, t, ht, p0, hp0, hle, u, hu, pu, hpu, hple, h⟩
      cases this
    cases deep with
    | false =>
      refine ⟨false, c1, rfl, ?_, h3⟩
      simp only [Bool.false_eq_true, false_iff]
      intro hw
      cases hw with
      | updated _ hd hu h => exact hno _ _ _ _ hd hu (.inl h)
      | input _ hd hu h => exact hno _ _ _ _ hd hu (.inr h)
    | true =>
      obtain ⟨b, c2, h4, h5, h6⟩ := anyM_spec (Ext w now rank (rank s) c0) (fun q => Waits w q pos true) (fun c q => self c q pos) (w.waiting s) c1
        (fun c q hq hc => hcall c q pos (hr.parts s q hq) hc) h3
      refine ⟨b, c2, by simp [h4], h5.trans ?_, h6⟩
      constructor
      · rintro ⟨q, hq, h⟩
        exact .part hst hq h
      · intro hw
        cases hw with
        | updated _ hd hu h => exact (hno _ _ _ _ hd hu (.inl h)).elim
        | input _ hd hu h => exact (hno _ _ _ _ hd hu (.inr h)).elim
        | part _ hq h => exact ⟨_, hq, h⟩

omit [DecidableEq S] in
theorem staleAt_of_waits {w : World S} {s : S} {pos : Int} {d : Bool} (h : Waits w s pos d) : StaleAt w s d := by
  cases h with
  | updated h _ _ _ => exact h
  | input h _ _ _ => exact h
  | part h _ _ => exact h

theorem waitsAt_exact (w : World S) (now : Int) (m : Nat) (rank : S → Nat) (hr : Ranked w rank) (hreg : Registered w) (ho : w.anyOrder = false) :
    ∀ (n : Nat) (c : Cache S) (s : S) (pos : Int) (deep : Bool), rank s < n → rank s < m → Right w now rank (rank s + 1) c →
    ∃ b c', waitsAt w now m n c s pos deep = .ok (b, c') ∧ (b = true ↔ Waits w s pos deep) ∧ Ext w now rank (rank s + 1) c c' := by
  intro n
  induction n with
  | zero => intro c s pos deep h; omega
  | succ n ih =>
    intro c s pos deep hn hm hc
    have hst : ∃ b, (if deep then isWaiting w m s else .ok (shallow w s)) = Except.ok b ∧ (b = true ↔ StaleAt w s deep) := by
      cases deep with
      | true =>
        obtain ⟨b, h1, h2⟩ := isWaiting_total_partial w rank hr.parts m s hm
        exact ⟨b, by simpa using h1, h2⟩
      | false => exact ⟨_, rfl, shallow_iff w s⟩
    obtain ⟨b, h1, h2⟩ := hst
    rw [waitsAt, h1]
    cases b with
    | false =>
      refine ⟨false, c, rfl, ?_, fun _ _ _ _ h => .inl h⟩
      simp only [Bool.false_eq_true, false_iff]
      intro hw
      have := h2.mpr (staleAt_of_waits hw)
      cases this
    | true =>
      simp only [ho, Bool.false_eq_true, if_false]
      cases he : (c.enter now s).entry s pos deep with
      | some b =>
        exact ⟨b, _, rfl, hc s pos deep b (by omega) (enter_entry he), fun q p d b h => .inl (enter_has h)⟩
      | none =>
        have hright : Right w now rank (rank s) ((c.enter now s).set s pos deep false) := by
          intro q p d b hq hh
          rcases set_has hh with ⟨rfl, _⟩ | ⟨_, hh⟩
          · omega
          · exact hc q p d b (by omega) (enter_has hh)
        obtain ⟨b, c2, h3, h4, h5⟩ := impl_exact w now rank hr hreg (fun c q p => waitsAt w now m n c q p true) s pos deep (h2.mp rfl)
          (fun c q p hq hcq => ih c q p true (by omega) (by omega) hcq) _ hright
        refine ⟨b, c2.set s pos deep b, by rw [h3], h4, ?_⟩
        intro q p d b' hh
        rcases set_has hh with ⟨rfl, rfl, rfl, rfl⟩ | ⟨hne, hh⟩
        · exact .inr ⟨by omega, h4⟩
        · rcases h5 q p d b' hh with h | ⟨hq, h⟩
          · rcases set_has h with ⟨rfl, rfl, rfl, rfl⟩ | ⟨_, h⟩
            · exact (hne ⟨rfl, rfl, rfl⟩).elim
            · exact .inl (enter_has h)
          · exact .inr ⟨by omega, h⟩

/-- Questions asked one after the other. -/
def ask (w : World S) (now : Int) (m n : Nat) : Cache S → List (S × Int × Bool) → Except Err (List Bool)
  | _, [] => .ok []
  | c, (s, pos, deep) :: l =>
    match waitsAt w now m n c s pos deep with
    | .error e => .error e
    | .ok (b, c') =>
      match ask w now m n c' l with
      | .error e => .error e
      | .ok bs => .ok (b :: bs)

/-- Nothing has been asked since the last execution. -/
def Fresh (c : Cache S) (now : Int) : Prop := ∀ s, c.stamp s < now

/-- **C87**, in-order semantics: all questions asked after an execution are answered right, in whichever order they are asked, if no symbol depends on
itself and nothing else happens in between. Missing: cycles and moved cells, see `waits_violated_cycle` and `waits_violated_moved`. -/
theorem waits_partial (w : World S) (now : Int) (m n : Nat) (rank : S → Nat) (hr : Ranked w rank) (hreg : Registered w)
    (ho : w.anyOrder = false) (hm : ∀ s, rank s < m) (hn : ∀ s, rank s < n) (c : Cache S) (hc : Fresh c now) (l : List (S × Int × Bool)) :
    ∃ bs, ask w now m n c l = .ok bs ∧ bs.length = l.length ∧
      ∀ (i : Nat) (s : S) (pos : Int) (d : Bool), l[i]? = some (s, pos, d) → (bs[i]? = some true ↔ Waits w s pos d) := by
  have key : ∀ (l : List (S × Int × Bool)) (c : Cache S), (∀ r, Right w now rank r c) → ∃ bs, ask w now m n c l = .ok bs ∧ bs.length = l.length ∧
      ∀ (i : Nat) (s : S) (pos : Int) (d : Bool), l[i]? = some (s, pos, d) → (bs[i]? = some true ↔ Waits w s pos d) := by
    intro l
    induction l with
    | nil => intro c _; exact ⟨[], rfl, rfl, by simp⟩
    | cons q l ih =>
      obtain ⟨s, pos, d⟩ := q
      intro c hc
      obtain ⟨b, c', h1, h2, h3⟩ := waitsAt_exact w now m rank hr hreg ho n c s pos d (hn s) (hm s) (hc _)
      have hc' : ∀ r, Right w now rank r c' := by
        intro r q p d' b' _ hh
        rcases h3 q p d' b' hh with h | h
        · exact hc (rank q + 1) q p d' b' (by omega) h
        · exact h.2
      obtain ⟨bs, h4, h5, h6⟩ := ih c' hc'
      refine ⟨b :: bs, by simp [ask, h1, h4], by simp [h5], ?_⟩
      intro i s' pos' d' hi
      cases i with
      | zero =>
        simp at hi
        obtain ⟨rfl, rfl, rfl⟩ := hi
        simpa using h2
      | succ i => simpa using h6 i s' pos' d' (by simpa using hi)
  refine key l c fun r q p d b _ hh => ?_
  have := hc q
  have := hh.2
  omega

/-- **C87**, any-order semantics, on any graph and with any kept answers: a symbol waits exactly if it, or a part of it, is stale. -/
theorem waits_any_order (w : World S) (now : Int) (m n : Nat) (ho : w.anyOrder = true) (c c' : Cache S) (s : S) (pos : Int) (d b : Bool)
    (h : waitsAt w now m (n + 1) c s pos d = .ok (b, c')) : b = true ↔ StaleAt w s d := by
  rw [waitsAt] at h
  have hst : ∀ b, (if d then isWaiting w m s else .ok (shallow w s)) = Except.ok b → (b = true ↔ StaleAt w s d) := by
    intro b hb
    cases d with
    | true => exact isWaiting_exact w m s b (by simpa using hb)
    | false =>
      simp at hb
      subst hb
      exact shallow_iff w s
  cases hw : (if d then isWaiting w m s else .ok (shallow w s)) with
  | error e => rw [hw] at h; cases h
  | ok b1 =>
    rw [hw] at h
    have := hst b1 hw
    cases b1 with
    | false =>
      cases h
      exact this
    | true =>
      simp only [ho, if_true] at h
      cases h
      exact this

/-! ## On any graph -/

theorem anyM_sound {α C : Type} (Inv : C → Prop) (P : α → Prop) (f : C → α → Except Err (Bool × C))
    (hf : ∀ c a b c', Inv c → f c a = .ok (b, c') → Inv c' ∧ (b = true → P a)) : ∀ (l : List α) (c : C) (b : Bool) (c' : C), Inv c →
    anyM f c l = .ok (b, c') → Inv c' ∧ (b = true → ∃ a ∈ l, P a) := by
  intro l
  induction l with
  | nil =>
    intro c b c' hc h
    cases h
    exact ⟨hc, by simp⟩
  | cons a l ih =>
    intro c b c' hc h
    rw [anyM] at h
    cases hfa : f c a with
    | error e => rw [hfa] at h; cases h
    | ok r =>
      obtain ⟨b1, c1⟩ := r
      rw [hfa] at h
      obtain ⟨h1, h2⟩ := hf c a b1 c1 hc hfa
      cases b1 with
      | true =>
        cases h
        exact ⟨h1, fun _ => ⟨a, by simp, h2 rfl⟩⟩
      | false =>
        obtain ⟨h3, h4⟩ := ih c1 b c' h1 h
        refine ⟨h3, fun hb => ?_⟩
        obtain ⟨q, hq, hp⟩ := h4 hb
        exact ⟨q, by simp [hq], hp⟩

/-- What is kept as waiting waits. -/
def Sound (w : World S) (now : Int) (c : Cache S) : Prop := ∀ s p d, c.has now s p d true → Waits w s p d

/-- A positive answer is right on any graph. -/
theorem waitsAt_sound (w : World S) (now : Int) (m : Nat) (ho : w.anyOrder = false) : ∀ (n : Nat) (c : Cache S) (s : S) (pos : Int) (deep b : Bool)
    (c' : Cache S), Sound w now c → waitsAt w now m n c s pos deep = .ok (b, c') → Sound w now c' ∧ (b = true → Waits w s pos deep) := by
  intro n
  induction n with
  | zero => intro c s pos deep b c' _ h; simp [waitsAt] at h
  | succ n ih =>
    intro c s pos deep b c' hc h
    rw [waitsAt] at h
    have hst : (if deep then isWaiting w m s else .ok (shallow w s)) = Except.ok true → StaleAt w s deep := by
      intro hb
      cases deep with
      | true => exact (isWaiting_exact w m s true (by simpa using hb)).mp rfl
      | false =>
        simp at hb
        exact (shallow_iff w s).mp hb
    cases hw : (if deep then isWaiting w m s else .ok (shallow w s)) with
    | error e => rw [hw] at h; cases h
    | ok b1 =>
      rw [hw] at h
      cases b1 with
      | false =>
        cases h
        exact ⟨hc, by simp⟩
      | true =>
        have hst := hst hw
        simp only [ho, Bool.false_eq_true, if_false] at h
        cases he : (c.enter now s).entry s pos deep with
        | some b2 =>
          rw [he] at h
          cases h
          refine ⟨fun q p d hh => hc q p d (enter_has hh), fun hb => ?_⟩
          subst hb
          exact hc s pos deep (enter_entry he)
        | none =>
          rw [he] at h
          simp only at h
          have hc1 : Sound w now ((c.enter now s).set s pos deep false) := by
            intro q p d hh
            rcases set_has hh with ⟨_, _, _, h⟩ | ⟨_, hh⟩
            · cases h
            · exact hc q p d (enter_has hh)
          cases hi : impl w (fun c q p => waitsAt w now m n c q p true) ((c.enter now s).set s pos deep false) s pos deep with
          | error e => rw [hi] at h; cases h
          | ok r =>
            obtain ⟨b3, c3⟩ := r
            rw [hi] at h
            simp only at h
            cases h
            have hmain : Sound w now c3 ∧ (b = true → Waits w s pos deep) := by
              unfold impl at hi
              cases ha : anyM (fun c p => anyM (probeTs w (fun c q p => waitsAt w now m n c q p true) pos p.1) c p.2)
                  ((c.enter now s).set s pos deep false) (w.parents s) with
              | error e => rw [ha] at hi; cases hi
              | ok r =>
                obtain ⟨b4, c4⟩ := r
                rw [ha] at hi
                have hpar := anyM_sound (Sound w now) (fun p : S × List Int => ∃ t ∈ p.2, ∃ p0, w.pos t = some p0 ∧ p0 ≤ pos ∧
                    ∃ u ∈ w.updated p.1, ∃ pu, w.pos u = some pu ∧ pu ≤ p0 ∧ (t < u ∨ Waits w p.1 p0 true)) _ ?_ (w.parents s) _ b4 c4 hc1 ha
                · obtain ⟨h4, h5⟩ := hpar
                  cases b4 with
                  | true =>
                    cases hi
                    refine ⟨h4, fun _ => ?_⟩
                    obtain ⟨⟨par, ts⟩, hp, t, ht, p0, hp0, hle, u, hu, pu, hpu, hple, h⟩ := h5 rfl
                    rcases h with h | h
                    · exact .updated hst ⟨⟨ts, hp, ht⟩, hp0, hle⟩ ⟨hu, pu, hpu, hple⟩ h
                    · exact .input hst ⟨⟨ts, hp, ht⟩, hp0, hle⟩ ⟨hu, pu, hpu, hple⟩ h
                  | false =>
                    simp only at hi
                    cases deep with
                    | false =>
                      cases hi
                      exact ⟨h4, by simp⟩
                    | true =>
                      rw [if_pos rfl] at hi
                      obtain ⟨h6, h7⟩ := anyM_sound (Sound w now) (fun q => Waits w q pos true) _
                        (fun c q b c' hc h => ih c q pos true b c' hc h) (w.waiting s) _ _ _ h4 hi
                      refine ⟨h6, fun hb => ?_⟩
                      obtain ⟨q, hq, hwq⟩ := h7 hb
                      exact .part hst hq hwq
                · rintro c ⟨par, ts⟩ b c' hc h
                  refine anyM_sound (Sound w now) _ _ ?_ ts c b c' hc h
                  intro c t b c' hc h
                  unfold probeTs at h
                  cases hp0 : w.pos t with
                  | none => rw [hp0] at h; cases h
                  | some p0 =>
                    rw [hp0] at h
                    simp only at h
                    by_cases hgt : p0 > pos
                    · rw [if_pos hgt] at h
                      cases h
                      exact ⟨hc, by simp⟩
                    · rw [if_neg hgt] at h
                      have hprobe : ∀ c u b c', Sound w now c → probeUpdate w (fun c q p => waitsAt w now m n c q p true) par t p0 c u = .ok (b, c') →
                          Sound w now c' ∧ (b = true → ∃ pu, w.pos u = some pu ∧ pu ≤ p0 ∧ (t < u ∨ Waits w par p0 true)) := by
                        intro c u b c' hc h
                        unfold probeUpdate at h
                        cases hpu : w.pos u with
                        | none => rw [hpu] at h; cases h
                        | some pu =>
                          rw [hpu] at h
                          simp only at h
                          by_cases h1 : pu > p0
                          · rw [if_pos h1] at h
                            cases h
                            exact ⟨hc, by simp⟩
                          · rw [if_neg h1] at h
                            by_cases h2 : u > t
                            · rw [if_pos h2] at h
                              cases h
                              exact ⟨hc, fun _ => ⟨pu, rfl, by omega, .inl h2⟩⟩
                            · rw [if_neg h2] at h
                              obtain ⟨h3, h4⟩ := ih c par p0 true b c' hc h
                              exact ⟨h3, fun hb => ⟨pu, rfl, by omega, .inr (h4 hb)⟩⟩
                      obtain ⟨h6, h7⟩ := anyM_sound (Sound w now)
                        (fun u => ∃ pu, w.pos u = some pu ∧ pu ≤ p0 ∧ (t < u ∨ Waits w par p0 true)) _ hprobe (w.updated par) c b c' hc h
                      refine ⟨h6, fun hb => ?_⟩
                      obtain ⟨u, hu, h⟩ := h7 hb
                      exact ⟨p0, rfl, by omega, u, hu, h⟩
            refine ⟨fun q p d hh => ?_, hmain.2⟩
            rcases set_has hh with ⟨rfl, rfl, rfl, rfl⟩ | ⟨_, hh⟩
            · exact hmain.2 rfl
            · exact hmain.1 q p d hh

/-- **C87**, in-order semantics, on any graph: a symbol that is said to wait does. -/
theorem waits_sound_partial (w : World S) (now : Int) (m n : Nat) (ho : w.anyOrder = false) : ∀ (l : List (S × Int × Bool)) (c : Cache S)
    (bs : List Bool), Sound w now c → ask w now m n c l = .ok bs →
    ∀ (i : Nat) (s : S) (pos : Int) (d : Bool), l[i]? = some (s, pos, d) → bs[i]? = some true → Waits w s pos d := by
  intro l
  induction l with
  | nil => intro c bs _ _ i s pos d h; simp at h
  | cons q l ih =>
    obtain ⟨s0, pos0, d0⟩ := q
    intro c bs hc h i s pos d hi hb
    rw [ask] at h
    cases hw : waitsAt w now m n c s0 pos0 d0 with
    | error e => rw [hw] at h; cases h
    | ok r =>
      obtain ⟨b, c'⟩ := r
      rw [hw] at h
      simp only at h
      obtain ⟨h1, h2⟩ := waitsAt_sound w now m ho n c s0 pos0 d0 b c' hc hw
      cases ha : ask w now m n c' l with
      | error e => rw [ha] at h; cases h
      | ok bs' =>
        rw [ha] at h
        cases h
        cases i with
        | zero =>
          simp at hi hb
          obtain ⟨rfl, rfl, rfl⟩ := hi
          exact h2 hb
        | succ i => exact ih c' bs' h1 ha i s pos d (by simpa using hi) (by simpa using hb)

/-! ## Examples and counterexamples -/

/-- Nothing asked yet. -/
def empty : Cache Nat := { stamp := fun _ => -1, entry := fun _ _ _ => none }

/-- Cells `z = 0` at the top, `y = z` below, `x = [y]` below; `z` has been run again. Symbols: 0 is `z`, 1 is `y`, 2 is `x[0]`, 3 is `x`. -/
def tower : World Nat where
  off _ := false
  ctr s := if s = 0 then 4 else if s = 1 then 2 else 3
  required s := if s = 0 then -1 else if s = 3 then -1 else 4
  minTs := -1
  waiting s := if s = 3 then [2] else []
  parents s := if s = 1 then [(0, [2])] else if s = 2 then [(1, [3])] else []
  updated s := if s = 0 then [1, 4] else if s = 1 then [2] else [3]
  pos t := if t = 2 then some 1 else if t = 3 then some 2 else some 0
  anyOrder := false

example : Ranked tower (fun s => s) ∧ Registered tower ∧ Fresh empty 4 ∧
    ask tower 4 9 9 empty [(3, 5, true), (3, 1, true), (3, 5, false), (1, 1, true)] = .ok [true, false, false, true] := by
  refine ⟨⟨?_, ?_⟩, ⟨?_, ?_⟩, ?_, by decide⟩
  · intro s q h
    simp only [tower] at h
    split at h
    · simp at h; simp; omega
    · simp at h
  · intro s par ts h
    simp only [tower] at h
    split at h
    · simp at h; omega
    · split at h
      · simp at h; omega
      · simp at h
  · intro s par ts t _ _
    simp only [tower]
    split
    · rfl
    · split <;> rfl
  · intro s u _
    simp only [tower]
    split
    · rfl
    · split <;> rfl
  · intro s
    simp [empty]

/-- The marks cleared after execution 3 or after execution 4. -/
example : isWaiting { tower with minTs := 3 } 9 3 = .ok true ∧ isWaiting { tower with minTs := 4 } 9 3 = .ok false := by decide

/-- Cells `z = 0` and `b = 0` at the top, `a = b + z; b = a` below; `z` has been run again. 0 is `a`, 1 is `b`, 2 is `z`. -/
def loop : World Nat where
  off _ := false
  ctr s := if s = 2 then 4 else 3
  required s := if s = 2 then -1 else 4
  minTs := -1
  waiting _ := []
  parents s := if s = 0 then [(1, [3]), (2, [3])] else if s = 1 then [(0, [3])] else []
  updated s := if s = 0 then [3] else if s = 1 then [1, 3] else [2, 4]
  pos t := if t = 3 then some 1 else some 0
  anyOrder := false

/-- **C87 fails** for symbols that depend on each other: whether `b` waits depends on which of the two is asked about first. -/
theorem waits_violated_cycle : Fresh empty 4 ∧ ask loop 4 9 9 empty [(0, 1, true), (1, 1, true)] = .ok [true, false] ∧
    ask loop 4 9 9 empty [(1, 1, true), (0, 1, true)] = .ok [true, true] ∧ Waits loop 1 1 true := by
  have h : ask loop 4 9 9 empty [(1, 1, true), (0, 1, true)] = .ok [true, true] := by decide
  refine ⟨fun s => by simp [empty], by decide, h, ?_⟩
  exact waits_sound_partial loop 4 9 9 rfl _ empty _ (fun s p d hh => by simp [Cache.has, empty] at hh) h 0 1 1 true rfl rfl

/-- The same notebook with `z = 0` moved to the end. -/
def moved : World Nat := { tower with pos := fun t => if t = 2 then some 0 else if t = 3 then some 1 else some 2 }

/-- **C87 fails** when cells are moved: the answers given before are given again. After the move `y = z` is above `z = 0`, so that
`y` does not wait for it. -/
theorem waits_violated_moved : ∃ c b, waitsAt tower 4 9 9 empty 1 1 true = .ok (b, c) ∧ b = true ∧
    (∃ c', waitsAt moved 4 9 9 c 1 1 true = .ok (true, c')) ∧ ¬ Waits moved 1 1 true := by
  have hr : Ranked moved (fun s => s) := by
    refine ⟨?_, ?_⟩
    · intro s q h
      simp only [moved, tower] at h
      split at h
      · simp at h; simp; omega
      · simp at h
    · intro s par ts h
      simp only [moved, tower] at h
      split at h
      · simp at h; omega
      · split at h
        · simp at h; omega
        · simp at h
  have hreg : Registered moved := by
    refine ⟨fun s par ts t _ _ => ?_, fun s u _ => ?_⟩ <;>
    · simp only [moved]
      split
      · rfl
      · split <;> rfl
  refine ⟨_, _, rfl, rfl, ⟨_, rfl⟩, ?_⟩
  obtain ⟨b, c', h1, h2, _⟩ := waitsAt_exact moved 4 9 (fun s => s) hr hreg rfl 9 empty 1 1 true (by simp) (by simp)
    (fun s p d b _ hh => by simp [Cache.has, empty] at hh)
  intro hw
  have hb := h2.mpr hw
  subst hb
  have : (waitsAt moved 4 9 9 empty 1 1 true).map (·.1) = .ok false := by decide
  rw [h1] at this
  simp [Except.map] at this

end Verif.Wait
