import Verif.Phantom.Spec

/-!
# Usages of several runs of the same cell are reported -/

namespace Verif.Phantom
open Spec

theorem cellAt_ok {runs : List Nat} {n : Int} {id : Nat} : cellAt runs n = .ok id ↔ RunOf runs id n := by
  unfold cellAt RunOf
  by_cases h : n ≤ 0
  · simp only [if_pos h]
    constructor
    · intro q; cases q
    · rintro ⟨k, hk, -⟩; omega
  · simp only [if_neg h]
    cases hr : runs[n.toNat - 1]? with
    | none =>
      constructor
      · intro q; cases q
      · rintro ⟨k, hk, hi⟩
        have : n.toNat - 1 = k := by omega
        rw [this, hi] at hr
        cases hr
    | some i =>
      constructor
      · intro q
        cases q
        exact ⟨n.toNat - 1, by omega, hr⟩
      · rintro ⟨k, hk, hi⟩
        have : n.toNat - 1 = k := by omega
        rw [this, hi] at hr
        cases hr
        rfl

theorem real_iff {runs : List Nat} {n : Int} : Real runs n ↔ ∃ id, RunOf runs id n := by
  unfold Real RunOf
  constructor
  · rintro ⟨h1, h2⟩
    have hk : n.toNat - 1 < runs.length := by omega
    exact ⟨runs[n.toNat - 1], n.toNat - 1, by omega, by simp [hk]⟩
  · rintro ⟨id, k, hk, hi⟩
    have := (List.getElem?_eq_some_iff.1 hi).1
    omega

theorem runOf_unique {runs : List Nat} {n : Int} {a b : Nat} (h1 : RunOf runs a n) (h2 : RunOf runs b n) : a = b := by
  obtain ⟨k, hk, hi⟩ := h1
  obtain ⟨l, hl, hj⟩ := h2
  have : k = l := by omega
  subst this
  rw [hi] at hj
  exact Option.some.inj hj

/-- The members of the sets, and that they have no duplicates. -/
theorem get_add (d : List (Nat × List Int)) (id i : Nat) (n m : Int) :
    m ∈ (Assoc.get (add d id n) i).getD [] ↔ m ∈ (Assoc.get d i).getD [] ∨ (i = id ∧ m = n) := by
  unfold add
  rw [Assoc.get_set]
  by_cases h : i = id
  · subst h
    simp [List.mem_insert_iff, or_comm]
  · simp [h]

theorem nodup_add {d : List (Nat × List Int)} (hd : ∀ i, ((Assoc.get d i).getD []).Nodup) (id : Nat) (n : Int) (i : Nat) :
    ((Assoc.get (add d id n) i).getD []).Nodup := by
  unfold add
  rw [Assoc.get_set]
  by_cases h : i = id
  · subst h
    simpa using List.Nodup.insert (hd i)
  · simpa [h] using hd i

theorem gather_ok {runs : List Nat} {ns : List Int} {d d' : List (Nat × List Int)} (h : gather runs d ns = .ok d') (hk : (Assoc.keys d).Nodup)
    (hd : ∀ i, ((Assoc.get d i).getD []).Nodup) :
    (Assoc.keys d').Nodup ∧ (∀ i, ((Assoc.get d' i).getD []).Nodup) ∧
      ∀ i m, m ∈ (Assoc.get d' i).getD [] ↔ m ∈ (Assoc.get d i).getD [] ∨ (m ∈ ns ∧ RunOf runs i m) := by
  induction ns generalizing d with
  | nil =>
    simp only [gather, Except.ok.injEq] at h
    subst h
    exact ⟨hk, hd, fun i m => by simp⟩
  | cons n ns ih =>
    unfold gather at h
    cases hc : cellAt runs n with
    | error e => rw [hc] at h; cases h
    | ok id =>
      rw [hc] at h
      obtain ⟨a, b, c⟩ := ih h (Assoc.nodup_set hk _ _) (nodup_add hd id n)
      refine ⟨a, b, fun i m => ?_⟩
      rw [c, get_add]
      have hr := cellAt_ok.1 hc
      constructor
      · rintro ((q | ⟨rfl, rfl⟩) | ⟨q, r⟩)
        · exact .inl q
        · exact .inr ⟨by simp, hr⟩
        · exact .inr ⟨by simp [q], r⟩
      · rintro (q | ⟨q, r⟩)
        · exact .inl (.inl q)
        · rcases List.mem_cons.1 q with rfl | q
          · exact .inl (.inr ⟨runOf_unique r hr, rfl⟩)
          · exact .inr ⟨q, r⟩

theorem gather_error {runs : List Nat} {ns : List Int} (h : ∃ n ∈ ns, ¬ Real runs n) (d : List (Nat × List Int)) : ∃ e, gather runs d ns = .error e := by
  induction ns generalizing d with
  | nil => obtain ⟨n, hn, -⟩ := h; simp at hn
  | cons n ns ih =>
    unfold gather
    cases hc : cellAt runs n with
    | error e => exact ⟨e, rfl⟩
    | ok id =>
      refine ih ?_ _
      obtain ⟨m, hm, hr⟩ := h
      rcases List.mem_cons.1 hm with rfl | hm
      · exact absurd (real_iff.2 ⟨id, cellAt_ok.1 hc⟩) hr
      · exact ⟨m, hm, hr⟩

theorem gather_total {runs : List Nat} {ns : List Int} (h : ∀ n ∈ ns, Real runs n) (d : List (Nat × List Int)) : ∃ d', gather runs d ns = .ok d' := by
  induction ns generalizing d with
  | nil => exact ⟨d, rfl⟩
  | cons n ns ih =>
    unfold gather
    obtain ⟨id, hid⟩ := real_iff.1 (h n (by simp))
    rw [cellAt_ok.2 hid]
    exact ih (fun m hm => h m (by simp [hm])) _

theorem two_of_length {l : List Int} (h : 2 ≤ l.length) (hn : l.Nodup) : ∃ m n, m ≠ n ∧ m ∈ l ∧ n ∈ l := by
  match l, h with
  | a :: b :: l, _ =>
    simp only [List.nodup_cons, List.mem_cons, not_or] at hn
    exact ⟨a, b, hn.1.1, by simp, by simp⟩

theorem length_of_two {l : List Int} {m n : Int} (h : m ≠ n) (hm : m ∈ l) (hn : n ∈ l) : 2 ≤ l.length := by
  match l with
  | [] => simp at hm
  | [a] => simp at hm hn; omega
  | a :: b :: l => simp

theorem infoOf_ok {runs : List Nat} {c : Asked} {d : List (Nat × List Int)} (h : infoOf runs c = .ok d) (i : Nat) (S : List Int) (hS : (i, S) ∈ d) :
    S.Nodup ∧ 2 ≤ S.length ∧ ∀ m, m ∈ S ↔ (i = c.id ∧ m = runs.length) ∨ (m ∈ c.used ∧ RunOf runs i m) := by
  unfold infoOf at h
  cases hg : gather runs (add [] c.id runs.length) c.used with
  | error e => rw [hg] at h; cases h
  | ok d' =>
    rw [hg] at h
    cases h
    obtain ⟨a, b, q⟩ := gather_ok hg (Assoc.nodup_set (by simp [Assoc.keys]) _ _) (nodup_add (by simp) _ _)
    obtain ⟨hm, hl⟩ := List.mem_filter.1 hS
    have hget := (Assoc.get_eq_some_iff a).2 hm
    have hb := b i
    simp only [hget, Option.getD_some] at hb
    refine ⟨hb, by simpa using hl, fun m => ?_⟩
    have := q i m
    simpa [hget, get_add] using this

theorem infoOf_mem {runs : List Nat} {c : Asked} {d : List (Nat × List Int)} (h : infoOf runs c = .ok d) (i : Nat) {m n : Int} (hne : m ≠ n)
    (hm : (i = c.id ∧ m = runs.length) ∨ (m ∈ c.used ∧ RunOf runs i m)) (hn : (i = c.id ∧ n = runs.length) ∨ (n ∈ c.used ∧ RunOf runs i n)) : ∃ S, (i, S) ∈ d := by
  unfold infoOf at h
  cases hg : gather runs (add [] c.id runs.length) c.used with
  | error e => rw [hg] at h; cases h
  | ok d' =>
    rw [hg] at h
    cases h
    obtain ⟨a, b, q⟩ := gather_ok hg (Assoc.nodup_set (by simp [Assoc.keys]) _ _) (nodup_add (by simp) _ _)
    have h1 := (q i m).2 (by simpa [get_add] using hm)
    have h2 := (q i n).2 (by simpa [get_add] using hn)
    cases hget : Assoc.get d' i with
    | none => simp [hget] at h1
    | some S =>
      simp only [hget, Option.getD_some] at h1 h2
      exact ⟨S, List.mem_filter.2 ⟨Assoc.mem_of_get hget, by simpa using length_of_two hne h1 h2⟩⟩

/-- **C191** (partial): if the cell uses only what runs have set, then the cells found for it, but for the cell itself, are exactly those of which it uses two different runs, and they are
given with exactly the runs that it uses.

Full statement: the same for the cell itself, and whatever it uses, and the client is told. All of these are false, see `own_wrong`, `fails`, `switch_only_breaks`. -/
theorem found_partial (runs : List Nat) (c : Asked) (hr : ∀ n ∈ c.used, Real runs n) : ∃ d, infoOf runs c = .ok d ∧ ∀ i, i ≠ c.id →
    ((∃ S, (i, S) ∈ d) ↔ UsesTwo runs c i) ∧ ∀ S, (i, S) ∈ d → ∀ m, m ∈ S ↔ m ∈ c.used ∧ RunOf runs i m := by
  obtain ⟨d', hd'⟩ := gather_total hr (add [] c.id runs.length)
  refine ⟨d'.filter fun p => decide (2 ≤ p.2.length), by simp [infoOf, hd'], fun i hi => ?_⟩
  have h : infoOf runs c = .ok (d'.filter fun p => decide (2 ≤ p.2.length)) := by simp [infoOf, hd']
  refine ⟨⟨?_, ?_⟩, ?_⟩
  · rintro ⟨S, hS⟩
    obtain ⟨a, b, q⟩ := infoOf_ok h i S hS
    obtain ⟨m, n, hne, hm, hn⟩ := two_of_length b a
    have h1 := (q m).1 hm
    have h2 := (q n).1 hn
    simp only [hi, false_and, false_or] at h1 h2
    exact ⟨m, n, hne, h1.1, h2.1, h1.2, h2.2⟩
  · rintro ⟨m, n, hne, hm, hn, h1, h2⟩
    exact infoOf_mem h i hne (.inr ⟨hm, h1⟩) (.inr ⟨hn, h2⟩)
  · intro S hS m
    have := (infoOf_ok h i S hS).2.2 m
    simpa [hi] using this

/-- **C191** (violated): a cell that uses one of its own runs, and that was not the last to run, is itself found, with the number of the last run, which is another cell's. -/
theorem own_wrong (runs : List Nat) (last : Nat) (c : Asked) (n : Int) (hr : ∀ m ∈ c.used, Real (runs ++ [last]) m) (hn : n ∈ c.used) (hown : RunOf (runs ++ [last]) c.id n)
    (hl : last ≠ c.id) : ∃ d S, infoOf (runs ++ [last]) c = .ok d ∧ (c.id, S) ∈ d ∧ (runs.length + 1 : Int) ∈ S ∧ ¬ RunOf (runs ++ [last]) c.id (runs.length + 1) := by
  obtain ⟨d, hd, -⟩ := found_partial (runs ++ [last]) c hr
  have hnot : ¬ RunOf (runs ++ [last]) c.id (runs.length + 1) := by
    rintro ⟨k, hk, hi⟩
    have : k = runs.length := by omega
    subst this
    simp at hi
    exact hl hi
  have hne : ((runs ++ [last]).length : Int) ≠ n := by
    rintro rfl
    simp at hown
    exact hnot hown
  obtain ⟨S, hS⟩ := infoOf_mem hd c.id hne (.inl ⟨rfl, rfl⟩) (.inr ⟨hn, hown⟩)
  refine ⟨d, S, hd, hS, ?_, hnot⟩
  have := ((infoOf_ok hd _ S hS).2.2 (runs ++ [last]).length).2 (.inl ⟨rfl, rfl⟩)
  simpa using this

theorem loop_error {runs : List Nat} {cs : List Asked} (h : ∃ c ∈ cs, ∃ n ∈ c.used, ¬ Real runs n) (info : List (Nat × List (Nat × List Int))) :
    ∃ e, loop true runs info cs = .error e := by
  induction cs generalizing info with
  | nil => obtain ⟨c, hc, -⟩ := h; simp at hc
  | cons x cs ih =>
    unfold loop
    simp only [if_true]
    cases hx : infoOf runs x with
    | error e => exact ⟨e, rfl⟩
    | ok d =>
      refine ih ?_ _
      obtain ⟨c, hc, hn⟩ := h
      rcases List.mem_cons.1 hc with rfl | hc
      · obtain ⟨e, he⟩ := gather_error hn (add [] c.id runs.length)
        simp [infoOf, he] at hx
      · exact ⟨c, hc, hn⟩

theorem loop_off (runs : List Nat) (cs : List Asked) (info : List (Nat × List (Nat × List Int))) : loop false runs info cs = .ok info := by
  induction cs with
  | nil => rfl
  | cons c cs ih => simpa [loop] using ih

/-- **C191** (violated): with the setting on, the check of all cells fails as soon as one of them uses a symbol that no run has set. -/
theorem fails (runs : List Nat) (field : List (Nat × List (Nat × List Int))) (cs : List Asked) (c : Asked) (hc : c ∈ cs) (n : Int) (hn : n ∈ c.used) (hr : ¬ Real runs n) :
    ∃ e, check true runs field cs = .error e := by
  obtain ⟨e, he⟩ := loop_error ⟨c, hc, n, hn, hr⟩ []
  exact ⟨e, by simp [check, he]⟩

/-- **C191** (violated): the answer is never another one than with the setting off, whatever the cells use; with the setting on the check can only fail in addition. -/
theorem switch_only_breaks (runs : List Nat) (field : List (Nat × List (Nat × List Int))) (cs : List Asked) :
    check true runs field cs = check false runs field cs ∨ ∃ e, check true runs field cs = .error e := by
  unfold check
  rw [loop_off]
  cases loop true runs [] cs with
  | error e => exact .inr ⟨e, rfl⟩
  | ok d => exact .inl rfl

end Verif.Phantom
