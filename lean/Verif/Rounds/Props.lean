import Verif.Rounds.Spec

/-!
# The client asks when all cells have finished -/

namespace Verif.Rounds
open Spec

variable {code : Nat → Bool}

/-- What becomes of a run when its cell is run again. -/
def hit (cs : List Nat) (code : Nat → Bool) (e : Entry) : Entry :=
  if e.cell ∈ cs ∧ code e.cell = true ∧ e.fate = .waiting then { e with fate := .rejected } else e

theorem begin_len (b c : Nat) (rs : List Entry) : (beginOne code b rs c).length = rs.length + 1 := by
  simp only [beginOne]
  split <;> simp [replace]

theorem begin_old (b c : Nat) (rs : List Entry) (k : Nat) (hk : k < rs.length) : (beginOne code b rs c)[k]? = (rs[k]?).map (hit [c] code) := by
  simp only [beginOne]
  split
  · rename_i hc
    rw [List.getElem?_append_left (by simpa [replace] using hk)]
    simp only [replace, List.getElem?_map]
    congr 1
    funext e
    simp only [hit, List.mem_singleton]
    by_cases h1 : e.cell = c
    · subst h1; simp [hc]
    · simp [h1]
  · rename_i hc
    rw [List.getElem?_append_left hk]
    cases hx : rs[k]? with
    | none => rfl
    | some e =>
      simp only [Option.map_some, hit, List.mem_singleton]
      by_cases h1 : e.cell = c
      · subst h1; simp [hc]
      · simp [h1]

theorem begin_new (b c : Nat) (rs : List Entry) : (beginOne code b rs c)[rs.length]? = some ⟨b, c, if code c then .waiting else .rejected⟩ := by
  simp only [beginOne]
  split
  · rename_i hc
    rw [List.getElem?_append_right (by simp [replace])]
    simp [replace]
  · simp

theorem hit_hit (c : Nat) (cs : List Nat) (e : Entry) : hit cs code (hit [c] code e) = hit (c :: cs) code e := by
  obtain ⟨b, x, f⟩ := e
  simp only [hit, List.mem_cons]
  by_cases h1 : x = c <;> by_cases h2 : x ∈ cs <;> by_cases h3 : code x = true <;> by_cases h4 : f = Fate.waiting <;> simp_all

theorem begins (b : Nat) (cs : List Nat) (rs : List Entry) :
    (cs.foldl (beginOne code b) rs).length = rs.length + cs.length ∧
      (∀ k, k < rs.length → (cs.foldl (beginOne code b) rs)[k]? = (rs[k]?).map (hit cs code)) ∧
      ∀ i c, cs[i]? = some c →
        (cs.foldl (beginOne code b) rs)[rs.length + i]? = some (hit (cs.drop (i + 1)) code ⟨b, c, if code c then .waiting else .rejected⟩) := by
  induction cs generalizing rs with
  | nil =>
    refine ⟨rfl, fun k _ => ?_, fun i c h => by simp at h⟩
    cases hx : rs[k]? <;> simp [hit, hx]
  | cons x cs ih =>
    obtain ⟨h1, h2, h3⟩ := ih (beginOne code b rs x)
    rw [begin_len] at h1 h2 h3
    simp only [List.foldl_cons]
    refine ⟨by rw [h1]; simp; omega, fun k hk => ?_, fun i c hc => ?_⟩
    · rw [h2 k (by omega), begin_old b x rs k hk]
      cases rs[k]? with
      | none => rfl
      | some e => simp [hit_hit]
    · cases i with
      | zero =>
        simp only [List.getElem?_cons_zero, Option.some.injEq] at hc
        subst hc
        rw [Nat.add_zero, h2 _ (by omega), begin_new]
        simp
      | succ i =>
        simp only [List.getElem?_cons_succ] at hc
        have := h3 i c hc
        rw [show rs.length + (i + 1) = rs.length + 1 + i by omega, this]
        simp

/-- The runs the model keeps are those that were started. -/
theorem started_lt {h : List Event} {k b c : Nat} (hs : (started h)[k]? = some (b, c)) : b < rounds h := by
  induction h with
  | nil => simp [started] at hs
  | cons e h ih =>
    cases e with
    | batch cs =>
      simp only [started] at hs
      simp only [rounds]
      rcases Nat.lt_or_ge k (started h).length with hk | hk
      · rw [List.getElem?_append_left hk] at hs
        have := ih hs
        split <;> omega
      · rw [List.getElem?_append_right hk, List.getElem?_map] at hs
        cases hx : cs[k - (started h).length]? with
        | none => simp [hx] at hs
        | some y =>
          simp [hx] at hs
          rw [if_neg (by rintro rfl; simp at hx)]
          omega
    | rerun c => exact ih hs
    | reply k s => exact ih hs
    | cancel k => exact ih hs

theorem open_lt {h : List Event} {k : Nat} (ho : Open code h k) : k < (started h).length := by
  induction h generalizing k with
  | nil => exact ho.elim
  | cons e h ih =>
    cases e with
    | batch cs =>
      simp only [started, List.length_append, List.length_map]
      rcases ho with ⟨ho, _⟩ | ⟨i, c, rfl, hc, _⟩
      · have := ih ho; omega
      · have := (List.getElem?_eq_some_iff.1 hc).1
        omega
    | rerun c => exact ih ho.1
    | reply j s => exact ih ho.1
    | cancel j => exact ih ho.1

theorem open_code {h : List Event} {k b c : Nat} (ho : Open code h k) (hs : (started h)[k]? = some (b, c)) : code c = true := by
  induction h generalizing k with
  | nil => exact ho.elim
  | cons e h ih =>
    cases e with
    | batch cs =>
      simp only [started] at hs
      rcases ho with ⟨ho, _⟩ | ⟨i, c', rfl, hc, hcode, _⟩
      · rw [List.getElem?_append_left (open_lt ho)] at hs
        exact ih ho hs
      · rw [List.getElem?_append_right (by omega), List.getElem?_map] at hs
        simp [hc] at hs
        rw [← hs.2]; exact hcode
    | rerun c => exact ih ho.1 hs
    | reply j s => exact ih ho.1 hs
    | cancel j => exact ih ho.1 hs

/-- What the model keeps for each run and each round. -/
structure Inv (code : Nat → Bool) (h : List Event) : Prop where
  same : (run code h).runs.map (fun e => (e.batch, e.cell)) = started h
  count : (run code h).batches.length = rounds h
  waits : ∀ k e, (run code h).runs[k]? = some e → (e.fate = .waiting ↔ Open code h k)
  ended : ∀ k e, (run code h).runs[k]? = some e → (e.fate = .resolved ↔ Ended code h k)
  nums : ∀ b n f, (run code h).batches[b]? = some (n, f) →
    0 < n ∧ n = (run code h).runs.countP (fun e => e.batch == b) ∧ f = (run code h).runs.countP (fun e => e.batch == b && e.fate == .resolved)
  asks : ∀ b, (b ∈ (run code h).asked ↔ ∃ n, (run code h).batches[b]? = some (n, n))
  once : (run code h).asked.Nodup

theorem ended_lt {h : List Event} {k : Nat} (he : Ended code h k) : k < (started h).length := by
  induction h generalizing k with
  | nil => exact he.elim
  | cons e h ih =>
    cases e with
    | batch cs =>
      have := ih he
      simp only [started, List.length_append]
      omega
    | rerun c => exact ih he
    | reply j s =>
      rcases he with he | ⟨_, ho⟩
      · exact ih he
      · exact open_lt (h := h) ho
    | cancel j => exact ih he

theorem replace_map (c : Nat) (rs : List Entry) : (replace c rs).map (fun e => (e.batch, e.cell)) = rs.map fun e => (e.batch, e.cell) := by
  simp only [replace, List.map_map]
  congr 1
  funext e
  simp only [Function.comp]
  split <;> rfl

theorem replace_batch (c b : Nat) (rs : List Entry) : (replace c rs).countP (fun e => e.batch == b) = rs.countP (fun e => e.batch == b) := by
  simp only [replace, List.countP_map]
  congr 1
  funext e
  simp only [Function.comp]
  split <;> rfl

theorem replace_resolved (c b : Nat) (rs : List Entry) :
    (replace c rs).countP (fun e => e.batch == b && e.fate == .resolved) = rs.countP (fun e => e.batch == b && e.fate == .resolved) := by
  simp only [replace, List.countP_map]
  congr 1
  funext e
  simp only [Function.comp]
  split
  · rename_i h; rw [h.2]; rfl
  · rfl

theorem begins_map (b : Nat) (cs : List Nat) (rs : List Entry) :
    (cs.foldl (beginOne code b) rs).map (fun e => (e.batch, e.cell)) = rs.map (fun e => (e.batch, e.cell)) ++ cs.map fun c => (b, c) := by
  induction cs generalizing rs with
  | nil => simp
  | cons c cs ih =>
    simp only [List.foldl_cons, ih]
    simp only [beginOne]
    split <;> simp [replace_map]

theorem begins_batch (b b' : Nat) (cs : List Nat) (rs : List Entry) :
    (cs.foldl (beginOne code b) rs).countP (fun e => e.batch == b') = rs.countP (fun e => e.batch == b') + if b = b' then cs.length else 0 := by
  induction cs generalizing rs with
  | nil => simp
  | cons c cs ih =>
    simp only [List.foldl_cons, ih]
    simp only [beginOne]
    by_cases hb : b = b'
    · subst hb
      split <;> simp [replace_batch] <;> omega
    · split <;> simp [replace_batch, hb]

theorem begins_resolved (b b' : Nat) (cs : List Nat) (rs : List Entry) :
    (cs.foldl (beginOne code b) rs).countP (fun e => e.batch == b' && e.fate == .resolved) = rs.countP (fun e => e.batch == b' && e.fate == .resolved) := by
  induction cs generalizing rs with
  | nil => simp
  | cons c cs ih =>
    simp only [List.foldl_cons, ih]
    simp only [beginOne]
    split <;> simp [replace_resolved]

theorem Inv.at {h : List Event} (i : Inv code h) {k : Nat} {e : Entry} (he : (run code h).runs[k]? = some e) : (started h)[k]? = some (e.batch, e.cell) := by
  rw [← i.same, List.getElem?_map, he]; rfl

theorem Inv.len {h : List Event} (i : Inv code h) : (run code h).runs.length = (started h).length := by
  rw [← i.same, List.length_map]

/-- Nothing changes. -/
theorem Inv.skip {h : List Event} (i : Inv code h) {e : Event} (hr : run code (e :: h) = run code h) (hs : started (e :: h) = started h) (hn : rounds (e :: h) = rounds h)
    (ho : ∀ k, Open code (e :: h) k ↔ Open code h k) (hd : ∀ k, Ended code (e :: h) k ↔ Ended code h k) : Inv code (e :: h) := by
  constructor
  · rw [hr, hs]; exact i.same
  · rw [hr, hn]; exact i.count
  · intro k x hx; rw [hr] at hx; rw [ho]; exact i.waits k x hx
  · intro k x hx; rw [hr] at hx; rw [hd]; exact i.ended k x hx
  · intro b n f hb; rw [hr] at hb ⊢; exact i.nums b n f hb
  · intro b; rw [hr]; exact i.asks b
  · rw [hr]; exact i.once

theorem hit_fate (cs : List Nat) (e : Entry) : ((hit cs code e).fate = .waiting ↔ e.fate = .waiting ∧ ¬ (e.cell ∈ cs ∧ code e.cell = true)) ∧
    ((hit cs code e).fate = .resolved ↔ e.fate = .resolved) := by
  simp only [hit]
  split
  · rename_i h
    simp [h.1, h.2.1, h.2.2]
  · rename_i h
    refine ⟨⟨fun hw => ⟨hw, fun hx => h ⟨hx.1, hx.2, hw⟩⟩, fun hw => hw.1⟩, Iff.rfl⟩

theorem inv_batch {h : List Event} (ih : Inv code h) (cs : List Nat) : Inv code (.batch cs :: h) := by
  by_cases hcs : cs = []
  · subst hcs
    refine ih.skip ?_ ?_ ?_ ?_ ?_
    · simp [run, step, executeCells]
    · simp [started]
    · simp [rounds]
    · intro k; simp [Open]
    · intro k; exact Iff.rfl
  · obtain ⟨l1, l2, l3⟩ := begins (code := code) (run code h).batches.length cs (run code h).runs
    have hrun : run code (.batch cs :: h) =
        { run code h with runs := cs.foldl (beginOne code (run code h).batches.length) (run code h).runs, batches := (run code h).batches ++ [(cs.length, 0)] } := by
      simp [run, step, executeCells, hcs]
    have bound : ∀ k (e : Entry), (run code h).runs[k]? = some e → e.batch < rounds h := fun k e he => started_lt (ih.at he)
    -- where a run is
    have split : ∀ k e, (cs.foldl (beginOne code (run code h).batches.length) (run code h).runs)[k]? = some e →
        (∃ e₀, (run code h).runs[k]? = some e₀ ∧ e = hit cs code e₀) ∨
          ∃ i c, k = (started h).length + i ∧ cs[i]? = some c ∧ e = hit (cs.drop (i + 1)) code ⟨(run code h).batches.length, c, if code c then .waiting else .rejected⟩ := by
      intro k e he
      rcases Nat.lt_or_ge k (run code h).runs.length with hk | hk
      · left
        rw [l2 k hk] at he
        cases hx : (run code h).runs[k]? with
        | none => simp [hx] at he
        | some e₀ => simp [hx] at he; exact ⟨e₀, rfl, he.symm⟩
      · right
        have hlt := (List.getElem?_eq_some_iff.1 he).1
        have hi : k - (run code h).runs.length < cs.length := by omega
        have := l3 (k - (run code h).runs.length) _ (List.getElem?_eq_getElem hi)
        rw [show (run code h).runs.length + (k - (run code h).runs.length) = k by omega, he] at this
        exact ⟨_, _, by rw [← ih.len]; omega, List.getElem?_eq_getElem hi, Option.some.inj this⟩
    constructor
    · rw [hrun]
      simp only [begins_map, ih.same, started, ih.count]
    · rw [hrun]
      simp [rounds, hcs, ih.count]
    · intro k e he
      rw [hrun] at he
      rcases split k e he with ⟨e₀, h0, rfl⟩ | ⟨i, c, hk, hc, rfl⟩
      · have hlt : k < (started h).length := by rw [← ih.len]; exact (List.getElem?_eq_some_iff.1 h0).1
        rw [(hit_fate cs e₀).1, ih.waits k e₀ h0]
        simp only [Open, ih.at h0, Option.some.injEq, Prod.mk.injEq]
        constructor
        · rintro ⟨ho, hn⟩
          refine Or.inl ⟨ho, ?_⟩
          rintro b c ⟨_, rfl⟩ hx
          exact hn ⟨hx, open_code ho (ih.at h0)⟩
        · rintro (⟨ho, hn⟩ | ⟨i, c, hk, _⟩)
          · exact ⟨ho, fun hx => hn _ _ ⟨rfl, rfl⟩ hx.1⟩
          · omega
      · rw [(hit_fate _ _).1]
        simp only [Open]
        constructor
        · rintro ⟨h1, h2⟩
          have hcode : code c = true := by
            cases hx : code c with
            | true => rfl
            | false => simp [hx] at h1
          exact Or.inr ⟨i, c, hk, hc, hcode, fun hx => h2 ⟨hx, hcode⟩⟩
        · rintro (⟨ho, _⟩ | ⟨i', c', hk', hc', hcode, hn⟩)
          · have := open_lt ho; omega
          · have : i' = i := by omega
            subst this
            rw [hc] at hc'
            cases hc'
            exact ⟨by simp [hcode], fun hx => hn hx.1⟩
    · intro k e he
      rw [hrun] at he
      rcases split k e he with ⟨e₀, h0, rfl⟩ | ⟨i, c, hk, hc, rfl⟩
      · rw [(hit_fate cs e₀).2]
        exact ih.ended k e₀ h0
      · rw [(hit_fate _ _).2]
        constructor
        · intro hx
          by_cases hcode : code c = true <;> simp [hcode] at hx
        · intro hx
          have := ended_lt (h := h) hx
          omega
    · intro b n f hb
      rw [hrun] at hb ⊢
      simp only at hb ⊢
      rw [begins_batch, begins_resolved]
      rcases Nat.lt_or_ge b (run code h).batches.length with hlt | hge
      · rw [List.getElem?_append_left hlt] at hb
        obtain ⟨n1, n2, n3⟩ := ih.nums b n f hb
        rw [if_neg (by omega)]
        exact ⟨n1, n2, n3⟩
      · rw [List.getElem?_append_right hge] at hb
        have hb0 : b - (run code h).batches.length = 0 := by
          have := (List.getElem?_eq_some_iff.1 hb).1
          simpa using this
        rw [hb0] at hb
        simp at hb
        have hbe : (run code h).batches.length = b := by omega
        obtain ⟨rfl, rfl⟩ := hb
        rw [if_pos hbe]
        have hz : ∀ e ∈ (run code h).runs, ¬ e.batch = b := by
          intro e he hx
          obtain ⟨k, hk⟩ := List.mem_iff_getElem?.1 he
          have := bound k e hk
          rw [ih.count] at hbe
          omega
        refine ⟨List.length_pos_iff.2 hcs, ?_, ?_⟩
        · rw [List.countP_eq_zero.2 (by intro e he; simpa using hz e he)]
          omega
        · rw [List.countP_eq_zero.2 (by intro e he; simp [hz e he])]
    · intro b
      rw [hrun]
      simp only
      rw [ih.asks b]
      constructor
      · rintro ⟨n, hn⟩
        exact ⟨n, by rw [List.getElem?_append_left (List.getElem?_eq_some_iff.1 hn).1]; exact hn⟩
      · rintro ⟨n, hn⟩
        rcases Nat.lt_or_ge b (run code h).batches.length with hlt | hge
        · rw [List.getElem?_append_left hlt] at hn
          exact ⟨n, hn⟩
        · rw [List.getElem?_append_right hge] at hn
          have hb0 : b - (run code h).batches.length = 0 := by
            have := (List.getElem?_eq_some_iff.1 hn).1
            simpa using this
          rw [hb0] at hn
          simp at hn
          have := List.length_pos_iff.2 hcs
          omega
    · rw [hrun]; exact ih.once

theorem inv_rerun {h : List Event} (ih : Inv code h) (c : Nat) : Inv code (.rerun c :: h) := by
  have get : ∀ (k : Nat) (e : Entry), (replace c (run code h).runs)[k]? = some e → ∃ e₀ : Entry, (run code h).runs[k]? = some e₀ ∧
      e = (if e₀.cell = c ∧ e₀.fate = .waiting then { e₀ with fate := .rejected } else e₀) := by
    intro k e he
    simp only [replace, List.getElem?_map] at he
    cases hx : (run code h).runs[k]? with
    | none => simp [hx] at he
    | some e₀ => simp [hx] at he; exact ⟨e₀, rfl, he.symm⟩
  constructor
  · simp only [run, step, replace_map, started]; exact ih.same
  · exact ih.count
  · intro k e he
    simp only [run, step] at he
    obtain ⟨e₀, h0, rfl⟩ := get k e he
    simp only [Open, ih.at h0, ← ih.waits k e₀ h0]
    split
    · rename_i hx
      simp [hx.1]
    · rename_i hx
      constructor
      · intro hw
        refine ⟨hw, fun b hb => ?_⟩
        simp at hb
        exact hx ⟨hb.2, hw⟩
      · exact fun hw => hw.1
  · intro k e he
    simp only [run, step] at he
    obtain ⟨e₀, h0, rfl⟩ := get k e he
    simp only [Ended, ← ih.ended k e₀ h0]
    split
    · rename_i hx; simp [hx.2]
    · rfl
  · intro b n f hb
    simp only [run, step] at hb ⊢
    rw [replace_batch, replace_resolved]
    exact ih.nums b n f hb
  · exact ih.asks
  · exact ih.once

/-- A run of which the client waits for a reply gets another fate. -/
theorem set_fate {h : List Event} (ih : Inv code h) {k : Nat} {e : Entry} (he : (run code h).runs[k]? = some e) (f : Fate) :
    ((run code h).runs.set k { e with fate := f }).map (fun e => (e.batch, e.cell)) = started h ∧
      ∀ j x, ((run code h).runs.set k { e with fate := f })[j]? = some x → (j = k ∧ x = { e with fate := f }) ∨ (j ≠ k ∧ (run code h).runs[j]? = some x) := by
  have hlt := (List.getElem?_eq_some_iff.1 he).1
  constructor
  · rw [← ih.same]
    apply List.ext_getElem?
    intro j
    simp only [List.getElem?_map, List.getElem?_set]
    by_cases hj : k = j
    · subst hj
      rw [if_pos rfl, if_pos hlt, he]
      rfl
    · simp [hj]
  · intro j x hx
    rw [List.getElem?_set] at hx
    by_cases hj : k = j
    · subst hj
      simp [hlt] at hx
      exact Or.inl ⟨rfl, hx.symm⟩
    · rw [if_neg hj] at hx
      exact Or.inr ⟨Ne.symm hj, hx⟩

theorem set_batch {rs : List Entry} {k : Nat} {e : Entry} (he : rs[k]? = some e) (f : Fate) (b : Nat) :
    (rs.set k { e with fate := f }).countP (fun e => e.batch == b) = rs.countP (fun e => e.batch == b) := by
  obtain ⟨hlt, hg⟩ := List.getElem?_eq_some_iff.1 he
  have pos : ∀ (h : (e.batch == b) = true), 0 < rs.countP (fun e => e.batch == b) :=
    fun h => List.countP_pos_iff.2 ⟨e, List.mem_of_getElem? he, h⟩
  rw [List.countP_set hlt, hg]
  cases hb : (e.batch == b) with
  | true => have := pos hb; simp only [if_true]; omega
  | false => simp

theorem set_resolved {rs : List Entry} {k : Nat} {e : Entry} (he : rs[k]? = some e) (hw : e.fate ≠ .resolved) (f : Fate) (b : Nat) :
    (rs.set k { e with fate := f }).countP (fun e => e.batch == b && e.fate == .resolved) =
      rs.countP (fun e => e.batch == b && e.fate == .resolved) + if e.batch = b ∧ f = .resolved then 1 else 0 := by
  obtain ⟨hlt, hg⟩ := List.getElem?_eq_some_iff.1 he
  rw [List.countP_set hlt, hg]
  have : (e.fate == Fate.resolved) = false := by simpa using hw
  simp [this]

/-- A run that has not ended is missing. -/
theorem room {rs : List Entry} {k : Nat} {e : Entry} (he : rs[k]? = some e) (hw : e.fate ≠ .resolved) :
    rs.countP (fun x => x.batch == e.batch && x.fate == .resolved) + 1 ≤ rs.countP (fun x => x.batch == e.batch) := by
  have h1 := set_resolved he hw .resolved e.batch
  have h2 := set_batch he .resolved e.batch
  rw [if_pos ⟨rfl, rfl⟩] at h1
  rw [← h1, ← h2]
  refine List.countP_mono_left fun x _ hx => ?_
  simp at hx
  simp [hx.1]

theorem inv_reply {h : List Event} (ih : Inv code h) (k : Nat) (star : Bool) : Inv code (.reply k star :: h) := by
  by_cases ho : Open code h k
  · have hk : k < (run code h).runs.length := by rw [ih.len]; exact open_lt ho
    obtain ⟨e, he⟩ : ∃ e, (run code h).runs[k]? = some e := ⟨_, List.getElem?_eq_getElem hk⟩
    have hw : e.fate = .waiting := (ih.waits k e he).2 ho
    have hb : e.batch < (run code h).batches.length := by rw [ih.count]; exact started_lt (ih.at he)
    obtain ⟨⟨n, f⟩, hnf⟩ : ∃ p, (run code h).batches[e.batch]? = some p := ⟨_, List.getElem?_eq_getElem hb⟩
    have hrun : run code (.reply k star :: h) =
        { runs := (run code h).runs.set k { e with fate := .resolved }
          batches := (run code h).batches.set e.batch (n, f + 1)
          executed := if star then (run code h).executed else e.cell :: (run code h).executed
          asked := if f + 1 = n then (run code h).asked ++ [e.batch] else (run code h).asked } := by
      simp [run, step, onDone, he, hw, hnf]
    obtain ⟨s1, s2⟩ := set_fate ih he .resolved
    obtain ⟨n1, n2, n3⟩ := ih.nums e.batch n f hnf
    have hr : e.fate ≠ .resolved := by rw [hw]; simp
    have hle : f + 1 ≤ n := by rw [n2, n3]; exact room he hr
    have bget : ∀ b, ((run code h).batches.set e.batch (n, f + 1))[b]? = if b = e.batch then some (n, f + 1) else (run code h).batches[b]? := by
      intro b
      rw [List.getElem?_set]
      by_cases hx : e.batch = b
      · subst hx; simp [hb]
      · simp [hx, Ne.symm hx]
    constructor
    · rw [hrun]; exact s1
    · rw [hrun]
      simp only [List.length_set, rounds]
      exact ih.count
    · intro j x hx
      rw [hrun] at hx
      simp only [Open]
      rcases s2 j x hx with ⟨rfl, rfl⟩ | ⟨hj, hx⟩
      · simp
      · rw [ih.waits j x hx]
        exact ⟨fun h => ⟨h, hj⟩, fun h => h.1⟩
    · intro j x hx
      rw [hrun] at hx
      simp only [Ended]
      rcases s2 j x hx with ⟨rfl, rfl⟩ | ⟨hj, hx⟩
      · simp [ho]
      · rw [ih.ended j x hx]
        exact ⟨Or.inl, fun h => h.elim id fun h => absurd h.1 hj⟩
    · intro b n' f' hb'
      rw [hrun] at hb' ⊢
      simp only at hb' ⊢
      rw [set_batch he, set_resolved he hr]
      rw [bget] at hb'
      by_cases hx : b = e.batch
      · subst hx
        simp at hb'
        obtain ⟨rfl, rfl⟩ := hb'
        exact ⟨n1, n2, by simp [n3]⟩
      · rw [if_neg hx] at hb'
        obtain ⟨m1, m2, m3⟩ := ih.nums b n' f' hb'
        refine ⟨m1, m2, ?_⟩
        rw [if_neg (fun h => hx h.1.symm)]
        exact m3
    · intro b
      rw [hrun]
      simp only
      rw [bget]
      have hold := ih.asks b
      by_cases hx : b = e.batch
      · subst hx
        have hno : e.batch ∉ (run code h).asked := by
          rw [hold, hnf]
          rintro ⟨m, hm⟩
          simp at hm
          omega
        split
        · rename_i hf
          simp [hf]
        · rename_i hf
          simp [hno, hf]
      · rw [if_neg hx, ← hold]
        split
        · simp [hx]
        · rfl
    · rw [hrun]
      simp only
      split
      · rename_i hf
        have hno : e.batch ∉ (run code h).asked := by
          rw [ih.asks, hnf]
          rintro ⟨m, hm⟩
          simp at hm
          omega
        rw [List.nodup_append]
        refine ⟨ih.once, by simp, ?_⟩
        intro a ha b hb' hab
        simp at hb'
        subst hb' hab
        exact hno ha
      · exact ih.once
  · refine ih.skip ?_ rfl rfl ?_ ?_
    · simp only [run, step, onDone]
      split
      · rfl
      · rename_i e he
        rw [if_pos]
        exact fun hw => ho ((ih.waits k e he).1 hw)
    · intro j
      simp only [Open]
      exact ⟨fun h => h.1, fun h => ⟨h, fun hx => ho (hx ▸ h)⟩⟩
    · intro j
      simp only [Ended]
      exact ⟨fun h => h.elim id fun h => absurd (h.1 ▸ h.2) ho, Or.inl⟩

theorem inv_cancel {h : List Event} (ih : Inv code h) (k : Nat) : Inv code (.cancel k :: h) := by
  by_cases ho : Open code h k
  · have hk : k < (run code h).runs.length := by rw [ih.len]; exact open_lt ho
    obtain ⟨e, he⟩ : ∃ e, (run code h).runs[k]? = some e := ⟨_, List.getElem?_eq_getElem hk⟩
    have hw : e.fate = .waiting := (ih.waits k e he).2 ho
    have hrun : run code (.cancel k :: h) = { run code h with runs := (run code h).runs.set k { e with fate := .rejected } } := by
      simp [run, step, onCancel, he, hw]
    obtain ⟨s1, s2⟩ := set_fate ih he .rejected
    constructor
    · rw [hrun]; exact s1
    · rw [hrun]; exact ih.count
    · intro j x hx
      rw [hrun] at hx
      simp only [Open]
      rcases s2 j x hx with ⟨rfl, rfl⟩ | ⟨hj, hx⟩
      · simp
      · rw [ih.waits j x hx]
        exact ⟨fun h => ⟨h, hj⟩, fun h => h.1⟩
    · intro j x hx
      rw [hrun] at hx
      simp only [Ended]
      rcases s2 j x hx with ⟨rfl, rfl⟩ | ⟨hj, hx⟩
      · rw [← ih.ended j e he, hw]
        simp
      · exact ih.ended j x hx
    · intro b n' f' hb'
      rw [hrun] at hb' ⊢
      simp only at hb' ⊢
      rw [set_batch he, set_resolved he (by rw [hw]; simp)]
      simpa using ih.nums b n' f' hb'
    · rw [hrun]; exact ih.asks
    · rw [hrun]; exact ih.once
  · refine ih.skip ?_ rfl rfl ?_ ?_
    · simp only [run, step, onCancel]
      split
      · rfl
      · rename_i e he
        rw [if_pos]
        exact fun hw => ho ((ih.waits k e he).1 hw)
    · intro j
      simp only [Open]
      exact ⟨fun h => h.1, fun h => ⟨h, fun hx => ho (hx ▸ h)⟩⟩
    · intro j; exact Iff.rfl

theorem inv (h : List Event) : Inv code h := by
  induction h with
  | nil => exact ⟨rfl, rfl, by simp [run], by simp [run], by simp [run], by simp [run], by simp [run]⟩
  | cons e h ih =>
    cases e with
    | batch cs => exact inv_batch ih cs
    | rerun c => exact inv_rerun ih c
    | reply k s => exact inv_reply ih k s
    | cancel k => exact inv_cancel ih k

/-- **Asked exactly when all have ended.** The client has asked for the next schedule for a round exactly if the kernel has replied for all its cells while the client was waiting for
them. -/
theorem asked_iff (h : List Event) (b : Nat) : b ∈ (run code h).asked ↔ AllEnded code h b := by
  have i := inv (code := code) h
  rw [i.asks]
  constructor
  · rintro ⟨n, hn⟩
    have hlt := (List.getElem?_eq_some_iff.1 hn).1
    rw [i.count] at hlt
    refine ⟨hlt, fun k c hk => ?_⟩
    obtain ⟨_, n2, n3⟩ := i.nums b n n hn
    have hkl : k < (run code h).runs.length := by rw [i.len]; exact (List.getElem?_eq_some_iff.1 hk).1
    obtain ⟨e, he⟩ : ∃ e, (run code h).runs[k]? = some e := ⟨_, List.getElem?_eq_getElem hkl⟩
    have hx := i.at he
    rw [hk] at hx
    simp at hx
    refine (i.ended k e he).1 ?_
    refine Classical.byContradiction fun hne => ?_
    have := room he hne
    rw [← hx.1] at this
    omega
  · rintro ⟨hlt, hall⟩
    rw [← i.count] at hlt
    obtain ⟨⟨n, f⟩, hnf⟩ : ∃ p, (run code h).batches[b]? = some p := ⟨_, List.getElem?_eq_getElem hlt⟩
    obtain ⟨_, n2, n3⟩ := i.nums b n f hnf
    have : f = n := by
      rw [n2, n3]
      apply List.countP_congr
      intro e he
      obtain ⟨k, hk⟩ := List.mem_iff_getElem?.1 he
      simp only [Bool.and_eq_true, beq_iff_eq]
      constructor
      · exact fun h => h.1
      · intro hb
        have := hall k e.cell (by rw [i.at hk, hb])
        exact ⟨hb, (i.ended k e hk).2 this⟩
    exact ⟨n, by rw [hnf, this]⟩

/-- **At most once.** -/
theorem asked_once (h : List Event) : (run code h).asked.Nodup := (inv h).once

/-- A run that neither has ended nor is waited for never ends. -/
theorem never_ends {h : List Event} {k : Nat} (hs : k < (started h).length) (ho : ¬ Open code h k) (he : ¬ Ended code h k) :
    ∀ es, ¬ Open code (es ++ h) k ∧ ¬ Ended code (es ++ h) k ∧ (started (es ++ h))[k]? = (started h)[k]? := by
  intro es
  induction es with
  | nil => exact ⟨ho, he, rfl⟩
  | cons e es ih =>
    obtain ⟨h1, h2, h3⟩ := ih
    have hl : k < (started (es ++ h)).length := by
      refine Classical.byContradiction fun hx => ?_
      rw [List.getElem?_eq_none (by omega)] at h3
      rw [List.getElem?_eq_getElem hs] at h3
      cases h3
    cases e with
    | batch cs =>
      refine ⟨?_, h2, ?_⟩
      · rintro (⟨hx, _⟩ | ⟨i, c, hk, _⟩)
        · exact h1 hx
        · have hk : k = (started (es ++ h)).length + i := hk
          omega
      · simp only [List.cons_append, started]
        rw [List.getElem?_append_left hl]
        exact h3
    | rerun c => exact ⟨fun hx => h1 hx.1, h2, h3⟩
    | reply j s => exact ⟨fun hx => h1 hx.1, fun hx => hx.elim h2 fun hx => h1 hx.2, h3⟩
    | cancel j => exact ⟨fun hx => h1 hx.1, h2, h3⟩

/-- A run that was lost is the end of its round: nothing is asked for, whatever happens. -/
theorem lost_never_asked {h : List Event} {k b c : Nat} (hs : (started h)[k]? = some (b, c)) (ho : ¬ Open code h k) (he : ¬ Ended code h k) (es : List Event) :
    b ∉ (run code (es ++ h)).asked := by
  obtain ⟨_, h2, h3⟩ := never_ends (List.getElem?_eq_some_iff.1 hs).1 ho he es
  rw [asked_iff]
  exact fun hx => h2 (hx.2 k c (h3.trans hs))

/-- The runs of a round that has just begun. -/
theorem fresh (h : List Event) (cs : List Nat) {i c : Nat} (hc : cs[i]? = some c) :
    (started (.batch cs :: h))[(started h).length + i]? = some (rounds h, c) ∧ ¬ Ended code (.batch cs :: h) ((started h).length + i) := by
  constructor
  · simp only [started]
    rw [List.getElem?_append_right (by omega), List.getElem?_map]
    simp [hc]
  · intro hx
    have := ended_lt (h := h) hx
    omega

/-- **A cell twice.** If a cell is run twice in a round, then no schedule is ever asked for, whatever happens. -/
theorem twice_never_asked (h es : List Event) (cs : List Nat) (c i j : Nat) (hij : i < j) (hi : cs[i]? = some c) (hj : cs[j]? = some c) :
    rounds h ∉ (run code (es ++ .batch cs :: h)).asked := by
  obtain ⟨h1, h2⟩ := fresh (code := code) h cs hi
  refine lost_never_asked h1 ?_ h2 es
  rintro (⟨ho, _⟩ | ⟨i', c', hk, hc, _, hn⟩)
  · have := open_lt ho; omega
  · have : i' = i := by omega
    subst this
    rw [hi] at hc
    cases hc
    refine hn (List.mem_iff_getElem?.2 ⟨j - (i' + 1), ?_⟩)
    rw [List.getElem?_drop, show i' + 1 + (j - (i' + 1)) = j by omega]
    exact hj

/-- **Text.** If a cell that is no code cell is among those that are run, then no schedule is ever asked for. -/
theorem text_never_asked (h es : List Event) (cs : List Nat) (c : Nat) (hc : c ∈ cs) (ht : code c = false) : rounds h ∉ (run code (es ++ .batch cs :: h)).asked := by
  obtain ⟨i, hi⟩ := List.mem_iff_getElem?.1 hc
  obtain ⟨h1, h2⟩ := fresh (code := code) h cs hi
  refine lost_never_asked h1 ?_ h2 es
  rintro (⟨ho, _⟩ | ⟨i', c', hk, hc', hcode, _⟩)
  · have := open_lt ho; omega
  · have : i' = i := by omega
    subst this
    rw [hi] at hc'
    cases hc'
    rw [ht] at hcode
    cases hcode

/-- **Run again.** If a cell is run again while the client is waiting for it, then no schedule is ever asked for after the round it belonged to. -/
theorem rerun_never_asked (h es : List Event) (k b c : Nat) (hs : (started h)[k]? = some (b, c)) (ho : Open code h k) : b ∉ (run code (es ++ .rerun c :: h)).asked := by
  refine lost_never_asked (h := .rerun c :: h) (k := k) hs (fun hx => hx.2 b hs) ?_ es
  intro hx
  have i := inv (code := code) h
  have hk : k < (run code h).runs.length := by rw [i.len]; exact open_lt ho
  obtain ⟨e, he⟩ : ∃ e, (run code h).runs[k]? = some e := ⟨_, List.getElem?_eq_getElem hk⟩
  have h1 := (i.waits k e he).2 ho
  have h2 := (i.ended k e he).2 hx
  rw [h1] at h2
  cases h2

/-- **All end.** Distinct code cells that are run together, and for each of which the kernel replies with nothing else happening in between: the client asks once, after the last reply and not
before. -/
theorem asked_partial (h : List Event) (cs : List Nat) (hn : cs ≠ []) (hd : cs.Nodup) (hc : ∀ c ∈ cs, code c = true) (s : Nat → Bool) (m : Nat) :
    rounds h ∈ (run code (((List.range m).map fun i => Event.reply ((started h).length + i) (s i)).reverse ++ .batch cs :: h)).asked ↔ cs.length ≤ m := by
  have st : ∀ m, started (((List.range m).map fun i => Event.reply ((started h).length + i) (s i)).reverse ++ .batch cs :: h) = started (.batch cs :: h) ∧
      rounds (((List.range m).map fun i => Event.reply ((started h).length + i) (s i)).reverse ++ .batch cs :: h) = rounds h + 1 := by
    intro m
    induction m with
    | zero => simp [rounds, hn]
    | succ m ih => simpa [List.range_succ, started, rounds] using ih
  have key : ∀ m i, i < cs.length →
      (Open code (((List.range m).map fun i => Event.reply ((started h).length + i) (s i)).reverse ++ .batch cs :: h) ((started h).length + i) ↔ m ≤ i) ∧
        (Ended code (((List.range m).map fun i => Event.reply ((started h).length + i) (s i)).reverse ++ .batch cs :: h) ((started h).length + i) ↔ i < m) := by
    intro m i hi
    induction m with
    | zero =>
      refine ⟨⟨fun _ => Nat.zero_le _, fun _ => Or.inr ⟨i, cs[i], rfl, List.getElem?_eq_getElem hi, hc _ (List.getElem_mem hi), ?_⟩⟩, ⟨fun hx => ?_, fun hx => by omega⟩⟩
      · intro hx
        obtain ⟨j, hj⟩ := List.mem_iff_getElem?.1 hx
        rw [List.getElem?_drop] at hj
        obtain ⟨hj1, hj2⟩ := List.getElem?_eq_some_iff.1 hj
        exact List.pairwise_iff_getElem.1 hd i _ hi hj1 (by omega) hj2.symm
      · exact absurd hx (fresh h cs (List.getElem?_eq_getElem hi)).2
    | succ m ih =>
      obtain ⟨h1, h2⟩ := ih
      simp only [List.range_succ, List.map_append, List.reverse_append, List.map_cons, List.map_nil, List.reverse_cons, List.reverse_nil, List.nil_append, List.cons_append, Open, Ended, h1, h2]
      omega
  rw [asked_iff]
  simp only [AllEnded, (st m).1, (st m).2]
  constructor
  · rintro ⟨_, hall⟩
    refine Classical.byContradiction fun hx => ?_
    have hm : m < cs.length := by omega
    have := hall _ _ (fresh (code := code) h cs (List.getElem?_eq_getElem hm)).1
    have := (key m m hm).2.1 this
    omega
  · intro hm
    refine ⟨by omega, fun k c hk => ?_⟩
    simp only [started] at hk
    rcases Nat.lt_or_ge k (started h).length with hlt | hge
    · rw [List.getElem?_append_left hlt] at hk
      have := started_lt hk
      omega
    · rw [List.getElem?_append_right hge, List.getElem?_map] at hk
      have hi : k - (started h).length < cs.length := by
        refine Classical.byContradiction fun hx => ?_
        rw [List.getElem?_eq_none (by omega)] at hk
        cases hk
      have := (key m _ hi).2.2 (by omega)
      rwa [show (started h).length + (k - (started h).length) = k by omega] at this

/-- **Which cells count as executed.** -/
theorem executed_iff (h : List Event) (c : Nat) :
    c ∈ (run code h).executed ↔ ∃ h₁ h₂ k b, h = h₂ ++ .reply k false :: h₁ ∧ Open code h₁ k ∧ (started h₁)[k]? = some (b, c) := by
  induction h with
  | nil => simp [run]
  | cons e h ih =>
    have peel : (∃ h₁ h₂ k b, e :: h = h₂ ++ .reply k false :: h₁ ∧ Open code h₁ k ∧ (started h₁)[k]? = some (b, c)) ↔
        (∃ k b, e = .reply k false ∧ Open code h k ∧ (started h)[k]? = some (b, c)) ∨ c ∈ (run code h).executed := by
      rw [ih]
      constructor
      · rintro ⟨h₁, h₂, k, b, he, ho, hs⟩
        cases h₂ with
        | nil =>
          simp only [List.nil_append, List.cons.injEq] at he
          obtain ⟨rfl, rfl⟩ := he
          exact Or.inl ⟨k, b, rfl, ho, hs⟩
        | cons x h₂ =>
          simp only [List.cons_append, List.cons.injEq] at he
          exact Or.inr ⟨h₁, h₂, k, b, he.2, ho, hs⟩
      · rintro (⟨k, b, rfl, ho, hs⟩ | ⟨h₁, h₂, k, b, rfl, ho, hs⟩)
        · exact ⟨h, [], k, b, rfl, ho, hs⟩
        · exact ⟨h₁, e :: h₂, k, b, rfl, ho, hs⟩
    rw [peel]
    have i := inv (code := code) h
    cases e with
    | batch cs =>
      simp only [run, step, executeCells]
      split <;> simp
    | rerun x => simp [run, step]
    | cancel k =>
      simp only [run, step, onCancel]
      split
      · simp
      · split <;> simp
    | reply k star =>
      simp only [run, step, onDone]
      cases hx : (run code h).runs[k]? with
      | none =>
        have hno : ¬ Open code h k := fun ho => by
          have := open_lt ho
          rw [← i.len] at this
          rw [List.getElem?_eq_getElem this] at hx
          cases hx
        constructor
        · exact Or.inr
        · rintro (⟨k', b, he, ho, _⟩ | h')
          · cases he; exact absurd ho hno
          · exact h'
      | some e =>
        by_cases hw : e.fate = .waiting
        · have ho := (i.waits k e hx).1 hw
          simp only [hw, ne_eq, not_true, if_false]
          cases star with
          | true => simp
          | false =>
            simp only [Bool.false_eq_true, if_false, List.mem_cons, Event.reply.injEq, and_true]
            constructor
            · rintro (rfl | h')
              · exact Or.inl ⟨k, e.batch, rfl, ho, i.at hx⟩
              · exact Or.inr h'
            · rintro (⟨k', b, rfl, _, hs⟩ | h')
              · rw [i.at hx] at hs
                simp at hs
                exact Or.inl hs.2.symm
              · exact Or.inr h'
        · simp only [ne_eq, hw, not_false_iff, if_true]
          constructor
          · exact Or.inr
          · rintro (⟨k', b, he, ho, _⟩ | h')
            · cases he; exact absurd ((i.waits k e hx).2 ho) hw
            · exact h'

/-- **Both forced and drawn along.** If the mode is lazy and reactivity is in batches, and a cell that was not run yet is both forced and drawn along by others, then the reactive run never goes
on: no schedule is asked for. -/
theorem overlap_never_asked (h es : List Event) (forced cascading done present : List Nat) (c : Nat) (h1 : c ∈ forced) (h2 : c ∈ cascading) (h3 : c ∉ done) (h4 : c ∈ present) :
    rounds h ∉ (run code (es ++ .batch (lazyBatch forced cascading done present) :: h)).asked := by
  have m1 : c ∈ forced.filter fun c => !done.contains c && present.contains c := by simp [h1, h3, h4]
  have m2 : c ∈ cascading.filter fun c => !done.contains c && present.contains c := by simp [h2, h3, h4]
  obtain ⟨i, hi⟩ := List.mem_iff_getElem?.1 m1
  obtain ⟨j, hj⟩ := List.mem_iff_getElem?.1 m2
  have hlt := (List.getElem?_eq_some_iff.1 hi).1
  refine twice_never_asked h es _ c i ((forced.filter fun c => !done.contains c && present.contains c).length + j) (by omega) ?_ ?_
  · simp only [lazyBatch, List.filter_append]
    rw [List.getElem?_append_left hlt]
    exact hi
  · simp only [lazyBatch, List.filter_append]
    rw [List.getElem?_append_right (by omega), Nat.add_sub_cancel_left]
    exact hj

end Verif.Rounds
