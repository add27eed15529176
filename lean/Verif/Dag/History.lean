import Verif.Dag.Props
import Mathlib.Order.Basic

/-! # C69, C70: the exported graph and the history of the notebook -/

namespace Verif.Dag
open Verif

/-! ## Specification -/

/-- The symbol of an operation. -/
def Op.sym : Op → Nat
  | .update x _ => x
  | .use x _ => x
  | .live x _ _ => x

/-- The time of an operation. -/
def Op.time : Op → Timestamp
  | .update _ t => t
  | .use _ t => t
  | .live _ t _ => t

/-- Is the operation part of an execution (and not of a check of the content of a cell)? -/
def Op.dynamic : Op → Bool
  | .live _ _ _ => false
  | _ => true

/-- `v` is the time of the last update of `x` in the history, or of its creation. -/
inductive LastUpdate (t0 : Nat → Timestamp) (x : Nat) : List Op → Timestamp → Prop where
  | created : LastUpdate t0 x [] (t0 x)
  | update {h t} : LastUpdate t0 x (h ++ [.update x t]) t
  | other {h op v} : (∀ t, op ≠ .update x t) → LastUpdate t0 x h v → LastUpdate t0 x (h ++ [op]) v

/-- During the history `x` was read at time `u` when it was last updated at the earlier time `v`. -/
def Reads (t0 : Nat → Timestamp) (h : List Op) (x : Nat) (u v : Timestamp) : Prop :=
  ∃ i, h[i]? = some (.use x u) ∧ LastUpdate t0 x (h.take i) v ∧ v < u

/-- Cell `c` read a shown value that was last updated in cell `p`. -/
def ReadEdge (info : Nat → Info) (t0 : Nat → Timestamp) (h : List Op) (all : List Nat) (p c : Int) : Prop :=
  ∃ x ∈ all, ∃ y u v, Shown info x y ∧ (info y).imp = false ∧ Reads t0 h x u v ∧ u.cellNum = c ∧ v.cellNum = p ∧ p ≠ c

/-- Time runs forward: later executions have no smaller time, symbols are made before they are used, and all times are
times of statements. (The check of a cell has a time of that cell's last execution, which may be long past.) -/
def Forward (t0 : Nat → Timestamp) (h : List Op) : Prop :=
  h.Pairwise (fun a b => a.dynamic = true → b.dynamic = true → a.sym = b.sym → a.time ≤ b.time) ∧
    (∀ op ∈ h, op.time.isInitialized = true ∧ (op.dynamic = true → t0 op.sym ≤ op.time)) ∧
    ∀ x, (t0 x).isInitialized = true

/-! ## Lemmas -/

theorem run_snoc (info : Nat → Info) (fuel : Nat) (t0 : Nat → Timestamp) (h : List Op) (op : Op) :
    run info fuel t0 (h ++ [op]) = step info fuel (run info fuel t0 h) op := by
  unfold run; rw [List.foldl_append]; rfl

theorem initTs_of_init (info : Nat → Info) (s : St) (fuel : Nat) (seen : List Nat) (x : Nat) (h : (s x).ts.isInitialized = true) :
    initTs info s fuel seen x = (s x).ts := by
  cases fuel with
  | zero => rfl
  | succ n => unfold initTs; rw [if_pos h]

theorem initTs_mem (info : Nat → Info) (s : St) (fuel : Nat) (seen : List Nat) (x : Nat) :
    ∃ y, initTs info s fuel seen x = (s y).ts := by
  induction fuel generalizing seen x with
  | zero => exact ⟨x, rfl⟩
  | succ n ih =>
    unfold initTs
    split
    · exact ⟨x, rfl⟩
    · split
      · exact ⟨x, rfl⟩
      · exact ih _ _

theorem mem_latestFirst {l : List Timestamp} {t : Timestamp} : t ∈ latestFirst l ↔ t ∈ l := by
  unfold latestFirst
  exact (List.perm_insertionSort _ l).mem_iff

theorem sorted_latestFirst (l : List Timestamp) : (latestFirst l).Pairwise fun a b => b ≤ a := by
  unfold latestFirst
  have : Std.Total (fun a b : Timestamp => b ≤ a) := ⟨fun a b => le_total b a⟩
  have : IsTrans Timestamp (fun a b : Timestamp => b ≤ a) := ⟨fun a b c h1 h2 => le_trans h2 h1⟩
  exact List.pairwise_insertionSort _ l

/-- A use at run time counts iff all initialised updates are earlier, and there is one. -/
theorem isUsage_dynamic (visible : Timestamp → Bool) (u : Timestamp) (l : List Timestamp) (hl : l.Pairwise fun a b => b ≤ a) :
    isUsage visible false u l false = true ↔
      (∃ t ∈ l, t.isInitialized = true) ∧ ∀ t ∈ l, t.isInitialized = true → t < u := by
  induction l with
  | nil => simp [isUsage]
  | cons t l ih =>
    rw [List.pairwise_cons] at hl
    unfold isUsage
    by_cases ht : t.isInitialized = true
    · simp only [ht, Bool.not_true, Bool.false_eq_true, if_false, Bool.not_false, Bool.or_true, if_true, decide_eq_true_eq]
      constructor
      · intro h
        refine ⟨⟨t, by simp, ht⟩, fun t' ht' _ => ?_⟩
        rcases List.mem_cons.1 ht' with rfl | h1
        · exact h
        · exact lt_of_le_of_lt (hl.1 _ h1) h
      · intro h; exact h.2 t (by simp) ht
    · simp only [ht, Bool.not_false, if_true]
      rw [ih hl.2]
      constructor
      · rintro ⟨⟨t1, h1, h2⟩, h3⟩
        refine ⟨⟨t1, List.mem_cons_of_mem _ h1, h2⟩, fun t' ht' hi => ?_⟩
        rcases List.mem_cons.1 ht' with rfl | h4
        · exact absurd hi ht
        · exact h3 _ h4 hi
      · rintro ⟨⟨t1, h1, h2⟩, h3⟩
        rcases List.mem_cons.1 h1 with rfl | h4
        · exact absurd h2 ht
        · exact ⟨⟨t1, h4, h2⟩, fun t' ht' => h3 _ (List.mem_cons_of_mem _ ht')⟩

theorem mem_updatedTimes {info : Nat → Info} {fuel : Nat} {s : St} {x : Nat} {t : Timestamp} :
    t ∈ updatedTimes info fuel s x ↔ t ∈ (s x).updated ∨ (t = initTs info s fuel [] x ∧ t.isInitialized = true) := by
  unfold updatedTimes
  simp only
  split
  · rename_i hi
    split
    · rename_i hm
      constructor
      · exact .inl
      · rintro (h | ⟨rfl, -⟩)
        · exact h
        · exact hm
    · rw [List.mem_append, List.mem_singleton]
      constructor
      · rintro (h | rfl)
        · exact .inl h
        · exact .inr ⟨rfl, hi⟩
      · rintro (h | ⟨rfl, -⟩)
        · exact .inl h
        · exact .inr rfl
  · rename_i hi
    constructor
    · exact .inl
    · rintro (h | ⟨rfl, h⟩)
      · exact h
      · exact absurd h hi

/-- `dag_exact` for notebooks where every value has been given a time of its own: the outputs of a cell are the shown values, other than imports, that
were made there, now or earlier, or whose version of there is used in another cell. -/
theorem dag_outputs (info : Nat → Info) (fuel : Nat) (s : St) (all : List Nat) (r : List (Int × Entry))
    (h : create info fuel s all = .ok r) (hi : ∀ x ∈ all, (s x).ts.isInitialized = true) (c : Int) (e : Entry) (hc : (c, e) ∈ r) (n : Nat) :
    n ∈ e.outputs ↔ ∃ x ∈ all, ∃ y, Shown info x y ∧ (info y).imp = false ∧ (info y).name = n ∧
      ((∃ u v, Uses s x u v ∧ v.cellNum = c ∧ u.cellNum ≠ c) ∨ (s x).ts.cellNum = c ∨ ∃ t ∈ (s x).updated, t.cellNum = c) := by
  rw [(dag_exact info fuel s all r h c e hc).out n]
  have key : ∀ x ∈ all, (∃ t ∈ updatedTimes info fuel s x, t.cellNum = c) ↔ ((s x).ts.cellNum = c ∨ ∃ t ∈ (s x).updated, t.cellNum = c) := by
    intro x hx
    have h0 : initTs info s fuel [] x = (s x).ts := by
      cases fuel with
      | zero => rfl
      | succ n => rw [initTs, if_pos (hi x hx)]
    simp only [mem_updatedTimes, h0]
    constructor
    · rintro ⟨t, h1 | ⟨rfl, _⟩, h2⟩
      · exact .inr ⟨t, h1, h2⟩
      · exact .inl h2
    · rintro (h1 | ⟨t, h1, h2⟩)
      · exact ⟨_, .inr ⟨rfl, hi x hx⟩, h1⟩
      · exact ⟨t, .inl h1, h2⟩
  constructor
  · rintro ⟨x, hx, y, h1, h2, h3, h4⟩
    exact ⟨x, hx, y, h1, h2, h3, h4.imp_right (key x hx).1⟩
  · rintro ⟨x, hx, y, h1, h2, h3, h4⟩
    exact ⟨x, hx, y, h1, h2, h3, h4.imp_right (key x hx).2⟩

/-! ## Histories without checks -/

theorem lastUpdate_nil {t0 : Nat → Timestamp} {x : Nat} {v : Timestamp} : LastUpdate t0 x [] v ↔ v = t0 x := by
  constructor
  · intro h
    generalize hl : ([] : List Op) = l at h
    cases h with
    | created => rfl
    | update => exact absurd hl (by simp)
    | other => exact absurd hl (by simp)
  · rintro rfl; exact .created

theorem lastUpdate_snoc {t0 : Nat → Timestamp} {x : Nat} {h : List Op} {op : Op} {v : Timestamp} :
    LastUpdate t0 x (h ++ [op]) v ↔ op = .update x v ∨ ((∀ t, op ≠ .update x t) ∧ LastUpdate t0 x h v) := by
  constructor
  · intro H
    generalize hl : h ++ [op] = l at H
    cases H with
    | created => exact absurd hl (by simp)
    | update =>
      have := List.append_inj' hl rfl
      simp only [List.cons.injEq, and_true] at this
      exact .inl this.2
    | other h1 h2 =>
      have := List.append_inj' hl rfl
      simp only [List.cons.injEq, and_true] at this
      obtain ⟨rfl, rfl⟩ := this
      exact .inr ⟨h1, h2⟩
  · rintro (rfl | ⟨h1, h2⟩)
    · exact .update
    · exact .other h1 h2

theorem reads_snoc {t0 : Nat → Timestamp} {h : List Op} {op : Op} {x : Nat} {u v : Timestamp} :
    Reads t0 (h ++ [op]) x u v ↔ Reads t0 h x u v ∨ (op = .use x u ∧ LastUpdate t0 x h v ∧ v < u) := by
  unfold Reads
  constructor
  · rintro ⟨i, h1, h2, h3⟩
    by_cases hi : i < h.length
    · rw [List.getElem?_append_left hi] at h1
      rw [List.take_append_of_le_length (by omega)] at h2
      exact .inl ⟨i, h1, h2, h3⟩
    · rw [List.getElem?_append_right (by omega)] at h1
      have h4 : i - h.length = 0 := by
        by_contra hne
        rw [List.getElem?_eq_none (by simp; omega)] at h1
        cases h1
      have h5 : i = h.length := by omega
      subst h5
      simp only [Nat.sub_self, List.getElem?_cons_zero, Option.some.injEq] at h1
      rw [List.take_append_of_le_length le_rfl, List.take_length] at h2
      exact .inr ⟨h1, h2, h3⟩
  · rintro (⟨i, h1, h2, h3⟩ | ⟨rfl, h2, h3⟩)
    · have hi : i < h.length := (List.getElem?_eq_some_iff.1 h1).1
      refine ⟨i, by rw [List.getElem?_append_left hi]; exact h1, ?_, h3⟩
      rw [List.take_append_of_le_length (by omega)]; exact h2
    · refine ⟨h.length, by simp, ?_, h3⟩
      rw [List.take_append_of_le_length le_rfl, List.take_length]; exact h2

/-- What holds after a history of executions. -/
structure Inv (t0 : Nat → Timestamp) (h : List Op) (s : St) : Prop where
  last : ∀ x v, LastUpdate t0 x h v ↔ v = (s x).ts
  init : ∀ x, (s x).ts.isInitialized = true
  upd : ∀ x, ∀ t ∈ (s x).updated, t ≤ (s x).ts ∧ t.isInitialized = true
  ops : ∀ x, (s x).ts = t0 x ∨ ∃ op ∈ h, op.sym = x ∧ op.time = (s x).ts
  nodup : ∀ x, (Assoc.keys (s x).used).Nodup
  used : ∀ x u v, (u, v) ∈ (s x).used ↔ Reads t0 h x u v
  old : ∀ x u v, (u, v) ∈ (s x).used → v = (s x).ts ∨ u ≤ (s x).ts
  key : ∀ x u v, (u, v) ∈ (s x).used → ∃ op ∈ h, op.sym = x ∧ op.time = u
  live : ∀ x, (s x).live = []

theorem inv_run (info : Nat → Info) (fuel : Nat) (t0 : Nat → Timestamp) (h : List Op) (hf : Forward t0 h)
    (hd : ∀ op ∈ h, op.dynamic = true) : Inv t0 h (run info fuel t0 h) := by
  induction h using List.reverseRecOn with
  | nil =>
    refine ⟨fun x v => lastUpdate_nil, hf.2.2, by simp [run, fresh], fun x => .inl rfl, by simp [run, fresh, Assoc.keys],
      fun x u v => ?_, by simp [run, fresh], by simp [run, fresh], by simp [run, fresh]⟩
    simp [run, fresh, Reads]
  | append_singleton h op ih =>
    obtain ⟨hp, ht, h0⟩ := hf
    rw [List.pairwise_append] at hp
    have I := ih ⟨hp.1, fun o ho => ht o (List.mem_append_left _ ho), h0⟩ fun o ho => hd o (List.mem_append_left _ ho)
    have hbefore : ∀ o ∈ h, o.sym = op.sym → o.time ≤ op.time := fun o ho =>
      hp.2.2 o ho op (by simp) (hd o (List.mem_append_left _ ho)) (hd op (by simp))
    have hop : t0 op.sym ≤ op.time ∧ op.time.isInitialized = true :=
      ⟨(ht op (by simp)).2 (hd op (by simp)), (ht op (by simp)).1⟩
    have hts : (run info fuel t0 h op.sym).ts ≤ op.time := by
      rcases I.ops op.sym with h1 | ⟨o, ho, h1, h2⟩
      · rw [h1]; exact hop.1
      · rw [← h2]; exact hbefore o ho h1
    rw [run_snoc]
    generalize run info fuel t0 h = s at I hts
    cases op with
    | live x t visible => exact absurd (hd _ (List.mem_append_right _ (List.mem_singleton.2 rfl))) (by simp [Op.dynamic])
    | update x t =>
      simp only [Op.sym, Op.time] at hbefore hop hts
      have hne : ∀ y, y ≠ x → step info fuel s (.update x t) y = s y := fun y hy => by simp [step, refresh, hy]
      have hx : step info fuel s (.update x t) x = { s x with
          updated := if (s x).ts ∈ (s x).updated then (s x).updated else (s x).updated ++ [(s x).ts]
          ts := t } := by simp [step, refresh]
      have hused : ∀ y, (step info fuel s (.update x t) y).used = (s y).used := by
        intro y
        by_cases hy : y = x
        · subst hy; rw [hx]
        · rw [hne y hy]
      refine ⟨fun y v => ?_, fun y => ?_, fun y => ?_, fun y => ?_, fun y => by rw [hused]; exact I.nodup y, fun y u v => ?_, fun y u v hm => ?_, fun y u v hm => ?_, fun y => ?_⟩
      · rw [lastUpdate_snoc]
        by_cases hy : y = x
        · subst hy
          rw [hx]
          simp only [Op.update.injEq, true_and]
          constructor
          · rintro (h1 | ⟨h1, -⟩)
            · exact h1.symm
            · exact absurd rfl (h1 t)
          · intro h1; exact .inl h1.symm
        · rw [hne y hy, ← I.last]
          constructor
          · rintro (h1 | h1)
            · injection h1 with h1; exact absurd h1.symm hy
            · exact h1.2
          · intro h1; exact .inr ⟨fun t' h2 => by injection h2 with h2; exact hy h2.symm, h1⟩
      · by_cases hy : y = x
        · subst hy; rw [hx]; exact hop.2
        · rw [hne y hy]; exact I.init y
      · by_cases hy : y = x
        · subst hy
          rw [hx]
          simp only
          intro t' ht'
          have h1 : t' ∈ (s y).updated ∨ t' = (s y).ts := by
            split at ht'
            · exact .inl ht'
            · rw [List.mem_append, List.mem_singleton] at ht'; exact ht'
          rcases h1 with h1 | rfl
          · exact ⟨le_trans (I.upd y t' h1).1 hts, (I.upd y t' h1).2⟩
          · exact ⟨hts, I.init y⟩
        · rw [hne y hy]; exact I.upd y
      · by_cases hy : y = x
        · subst hy; rw [hx]; exact .inr ⟨.update y t, by simp, rfl, rfl⟩
        · rw [hne y hy]
          rcases I.ops y with h1 | ⟨o, ho, h1⟩
          · exact .inl h1
          · exact .inr ⟨o, List.mem_append_left _ ho, h1⟩
      · rw [hused, I.used, reads_snoc]
        constructor
        · exact .inl
        · rintro (h1 | ⟨h1, -⟩)
          · exact h1
          · cases h1
      · rw [hused] at hm
        by_cases hy : y = x
        · subst hy
          obtain ⟨o, ho, h1, h2⟩ := I.key y u v hm
          rw [hx]
          exact .inr (h2 ▸ hbefore o ho h1)
        · rw [hne y hy]; exact I.old y u v hm
      · rw [hused] at hm
        obtain ⟨o, ho, h1⟩ := I.key y u v hm
        exact ⟨o, List.mem_append_left _ ho, h1⟩
      · by_cases hy : y = x
        · subst hy; rw [hx]; exact I.live y
        · rw [hne y hy]; exact I.live y
    | use x t =>
      simp only [Op.sym, Op.time] at hbefore hop hts
      have hit : initTs info s fuel [] x = (s x).ts := initTs_of_init info s fuel [] x (I.init x)
      have hus : isUsage (fun _ => true) false t (latestFirst (updatedTimes info fuel s x)) false = true ↔ (s x).ts < t := by
        rw [isUsage_dynamic _ _ _ (sorted_latestFirst _)]
        constructor
        · rintro ⟨-, h1⟩
          exact h1 _ (mem_latestFirst.2 (mem_updatedTimes.2 (.inr ⟨hit.symm, I.init x⟩))) (I.init x)
        · intro h1
          refine ⟨⟨(s x).ts, mem_latestFirst.2 (mem_updatedTimes.2 (.inr ⟨hit.symm, I.init x⟩)), I.init x⟩, fun t' ht' _ => ?_⟩
          rw [mem_latestFirst, mem_updatedTimes, hit] at ht'
          rcases ht' with h2 | ⟨rfl, -⟩
          · exact lt_of_le_of_lt (I.upd x t' h2).1 h1
          · exact h1
      have hlast : ∀ y v, LastUpdate t0 y (h ++ [.use x t]) v ↔ LastUpdate t0 y h v := by
        intro y v
        rw [lastUpdate_snoc]
        constructor
        · rintro (h1 | h1)
          · cases h1
          · exact h1.2
        · intro h1; exact .inr ⟨fun t' h2 => (by cases h2), h1⟩
      have hops : ∀ y, (s y).ts = t0 y ∨ ∃ op ∈ h ++ [.use x t], op.sym = y ∧ op.time = (s y).ts := by
        intro y
        rcases I.ops y with h1 | ⟨o, ho, h1⟩
        · exact .inl h1
        · exact .inr ⟨o, List.mem_append_left _ ho, h1⟩
      by_cases hlt : (s x).ts < t
      · have hne : ∀ y, y ≠ x → step info fuel s (.use x t) y = s y := by
          intro y hy
          simp only [step, recordUse, hus.2 hlt, hop.2, Bool.and_true, if_true, if_neg hy]
        have hx : step info fuel s (.use x t) x = { s x with used := Assoc.set (s x).used t (s x).ts } := by
          simp only [step, recordUse, hus.2 hlt, hop.2, Bool.and_true, if_true, hit, Bool.false_eq_true, if_false]
        have hmem : ∀ u v, (u, v) ∈ Assoc.set (s x).used t (s x).ts ↔ (u, v) ∈ (s x).used ∨ (u = t ∧ v = (s x).ts) := by
          intro u v
          rw [← Assoc.get_eq_some_iff (Assoc.nodup_set (I.nodup x) _ _), ← Assoc.get_eq_some_iff (I.nodup x), Assoc.get_set]
          by_cases hu : u = t
          · subst hu
            simp only [if_true, Option.some.injEq, true_and]
            constructor
            · intro h1; exact .inr h1.symm
            · rintro (h1 | h1)
              · rw [Assoc.get_eq_some_iff (I.nodup x)] at h1
                rcases I.old x u v h1 with h2 | h2
                · exact h2.symm
                · exact absurd hlt (not_lt.2 h2)
              · exact h1.symm
          · simp [hu]
        have hts' : ∀ y, (step info fuel s (.use x t) y).ts = (s y).ts := by
          intro y
          by_cases hy : y = x
          · subst hy; rw [hx]
          · rw [hne y hy]
        refine ⟨fun y v => by rw [hlast, hts', I.last], fun y => by rw [hts']; exact I.init y, fun y => ?_, fun y => by rw [hts']; exact hops y, fun y => ?_, fun y u v => ?_, fun y u v hm => ?_, fun y u v hm => ?_, fun y => ?_⟩
        · by_cases hy : y = x
          · subst hy; rw [hx]; exact I.upd y
          · rw [hne y hy]; exact I.upd y
        · by_cases hy : y = x
          · subst hy; rw [hx]; exact Assoc.nodup_set (I.nodup y) _ _
          · rw [hne y hy]; exact I.nodup y
        · rw [reads_snoc]
          by_cases hy : y = x
          · subst hy
            rw [hx]
            simp only
            rw [hmem, I.used, I.last]
            constructor
            · rintro (h1 | ⟨rfl, rfl⟩)
              · exact .inl h1
              · exact .inr ⟨rfl, rfl, hlt⟩
            · rintro (h1 | ⟨h1, h2, -⟩)
              · exact .inl h1
              · injection h1 with _ h1; exact .inr ⟨h1.symm, h2⟩
          · rw [hne y hy, I.used]
            constructor
            · exact .inl
            · rintro (h1 | ⟨h1, -⟩)
              · exact h1
              · injection h1 with h1; exact absurd h1.symm hy
        · rw [hts']
          by_cases hy : y = x
          · subst hy
            rw [hx] at hm
            rcases (hmem u v).1 hm with h1 | ⟨-, h1⟩
            · exact I.old y u v h1
            · exact .inl h1
          · rw [hne y hy] at hm; exact I.old y u v hm
        · have h2 : (u, v) ∈ (s y).used ∨ (y = x ∧ u = t) := by
            by_cases hy : y = x
            · subst hy
              rw [hx] at hm
              rcases (hmem u v).1 hm with h1 | ⟨h1, -⟩
              · exact .inl h1
              · exact .inr ⟨rfl, h1⟩
            · rw [hne y hy] at hm; exact .inl hm
          rcases h2 with h2 | ⟨rfl, rfl⟩
          · obtain ⟨o, ho, h1⟩ := I.key y u v h2
            exact ⟨o, List.mem_append_left _ ho, h1⟩
          · exact ⟨.use y u, by simp, rfl, rfl⟩
        · by_cases hy : y = x
          · subst hy; rw [hx]; exact I.live y
          · rw [hne y hy]; exact I.live y
      · have hs : step info fuel s (.use x t) = s := by
          simp only [step, recordUse]
          rw [if_neg]
          simp only [Bool.and_eq_true, not_and]
          intro h1; exact absurd (hus.1 h1) hlt
        rw [hs]
        refine ⟨fun y v => by rw [hlast, I.last], I.init, I.upd, hops, I.nodup, fun y u v => ?_, I.old, fun y u v hm => ?_, I.live⟩
        · rw [reads_snoc, I.used]
          constructor
          · exact .inl
          · rintro (h1 | ⟨h1, h2, h3⟩)
            · exact h1
            · injection h1 with h1 h4
              subst h1; subst h4
              rw [I.last] at h2
              subst h2
              exact absurd h3 hlt
        · obtain ⟨o, ho, h1⟩ := I.key y u v hm
          exact ⟨o, List.mem_append_left _ ho, h1⟩

/-! ## C69 -/

/-- **C69** (partial): if nothing but executions happened, the exported edges are exactly the edges from the cell that last updated a
value to the cell that read it. Checks of cell contents are left out (see `dag_cycle_violated`). -/
theorem dag_reads_partial (info : Nat → Info) (fuel : Nat) (t0 : Nat → Timestamp) (h : List Op) (all : List Nat)
    (hf : Forward t0 h) (hd : ∀ op ∈ h, op.dynamic = true) (r : List (Int × Entry))
    (hr : create info fuel (run info fuel t0 h) all = .ok r) (c : Int) (e : Entry) (hc : (c, e) ∈ r) :
    (∀ p, p ∈ e.parents ↔ ReadEdge info t0 h all p c) ∧ ∀ p, p ∈ e.children ↔ ReadEdge info t0 h all c p := by
  have I := inv_run info fuel t0 h hf hd
  have E := dag_exact info fuel _ all r hr c e hc
  have hu : ∀ x u v, Uses (run info fuel t0 h) x u v ↔ Reads t0 h x u v := by
    intro x u v
    unfold Uses
    rw [I.live, I.used]; simp
  refine ⟨fun p => ?_, fun p => ?_⟩
  · rw [E.par]; unfold Edge ReadEdge; simp only [hu]
  · rw [E.chi]; unfold Edge ReadEdge; simp only [hu]

theorem edge_lt (info : Nat → Info) (t0 : Nat → Timestamp) (h : List Op) (all : List Nat) (p c : Int)
    (H : Relation.TransGen (ReadEdge info t0 h all) p c) : p < c := by
  have h1 : ∀ p c, ReadEdge info t0 h all p c → p < c := by
    rintro p c ⟨x, _, y, u, v, _, _, ⟨i, _, _, hlt⟩, rfl, rfl, hne⟩
    rw [Timestamp.lt_def] at hlt
    omega
  induction H with
  | single h2 => exact h1 _ _ h2
  | tail _ h2 ih => exact lt_trans ih (h1 _ _ h2)

/-- **C69** (partial): the graph of such an export has no cycle, and every edge goes from an earlier execution to a later one. -/
theorem dag_acyclic_partial (info : Nat → Info) (fuel : Nat) (t0 : Nat → Timestamp) (h : List Op) (all : List Nat)
    (hf : Forward t0 h) (hd : ∀ op ∈ h, op.dynamic = true) (r : List (Int × Entry))
    (hr : create info fuel (run info fuel t0 h) all = .ok r) (p c : Int)
    (H : Relation.TransGen (fun p c => ∃ e, (c, e) ∈ r ∧ p ∈ e.parents) p c) : p < c := by
  refine edge_lt info t0 h all p c (Relation.TransGen.mono (fun p c => ?_) p c H)
  rintro ⟨e, he, hp⟩
  exact ((dag_reads_partial info fuel t0 h all hf hd r hr c e he).1 p).1 hp

/-! ### Example -/

/-- Every symbol is a global variable. -/
def plain : Nat → Info := fun x => ⟨some x, [], true, false, false, false, false, true, x⟩

/-- `y = 0` (cell 1, symbol 0), `x = y` (cell 2, symbol 1), `x = x + y` (cell 3). -/
def made : Nat → Timestamp := fun x => if x = 0 then ⟨1, 0⟩ else ⟨2, 0⟩

/-- The operations of these cells. -/
def three : List Op := [.use 0 ⟨2, 0⟩, .use 1 ⟨3, 0⟩, .use 0 ⟨3, 0⟩, .update 1 ⟨3, 0⟩]

/-- The entries, if there was no exception. -/
def shown (r : Except Err (List (Int × Entry))) : Option (List (Int × Entry)) :=
  match r with
  | .ok l => some l
  | .error _ => none

example : Forward made three ∧ ∀ op ∈ three, op.dynamic = true := by
  refine ⟨⟨by decide +kernel, by decide +kernel, fun x => ?_⟩, by decide +kernel⟩
  unfold made; split <;> decide

example : shown (create plain 3 (run plain 3 made three) [0, 1]) =
    some [(2, ⟨[], [0], [1], [1], [3]⟩), (3, ⟨[], [0, 1], [1], [1, 2], []⟩), (1, ⟨[], [], [0], [], [2, 3]⟩)] := by
  decide +kernel

/-- What `dag_outputs` asks for, in the notebook of three cells. -/
example : ∀ x ∈ [0, 1], ((run plain 3 made three) x).ts.isInitialized = true := by decide +kernel

/-! ### Checks of contents -/

/-- **C69 fails** if the content of a cell is checked after it was edited: with `y = 0` (cell 1) and `x = y` (cell 2), the client
reports that the first cell now says `y = x`. Nothing is run, but cells 1 and 2 are then exported as parents of each other. -/
theorem dag_cycle_violated : ∃ h r, Forward made h ∧ create plain 3 (run plain 3 made h) [0, 1] = .ok r ∧
    Relation.TransGen (fun p c => ∃ e, (c, e) ∈ r ∧ p ∈ e.parents) 1 1 := by
  refine ⟨[.use 0 ⟨2, 0⟩, .live 1 ⟨1, 0⟩ fun _ => true],
    [(2, ⟨[], [0], [1], [1], [1]⟩), (1, ⟨[], [1], [0], [2], [2]⟩)], ⟨?_, ?_, fun x => ?_⟩, ?_, ?_⟩
  · simp [Op.dynamic]
  · intro op hop
    simp only [List.mem_cons, List.not_mem_nil, or_false] at hop
    rcases hop with rfl | rfl
    · exact ⟨by decide, by decide⟩
    · exact ⟨by decide, by simp [Op.dynamic]⟩
  · unfold made; split <;> decide
  · rfl
  · exact .tail (.single (b := 2) ⟨_, List.mem_cons_self, by simp⟩) ⟨_, List.mem_cons_of_mem _ List.mem_cons_self, by simp⟩

/-! ## C70 -/

/-- The times that occur in the tables. -/
structure Times (P : Timestamp → Prop) (s : St) : Prop where
  ts : ∀ x, P (s x).ts
  upd : ∀ x, ∀ t ∈ (s x).updated, P t
  used : ∀ x u v, Uses s x u v → P u ∧ P v

theorem mem_set {κ ν : Type} [DecidableEq κ] {l : List (κ × ν)} {k k' : κ} {v v' : ν} (h : (k', v') ∈ Assoc.set l k v) :
    (k', v') ∈ l ∨ (k' = k ∧ v' = v) := by
  induction l with
  | nil => simp [Assoc.set] at h; exact .inr h
  | cons p l ih =>
    obtain ⟨k1, v1⟩ := p
    unfold Assoc.set at h
    split at h
    · rename_i he
      rcases List.mem_cons.1 h with h1 | h1
      · injection h1 with h1 h2; exact .inr ⟨h1.trans he, h2⟩
      · exact .inl (List.mem_cons_of_mem _ h1)
    · rcases List.mem_cons.1 h with h1 | h1
      · exact .inl (h1 ▸ List.mem_cons_self)
      · rcases ih h1 with h2 | h2
        · exact .inl (List.mem_cons_of_mem _ h2)
        · exact .inr h2

theorem times_recordUse (P : Timestamp → Prop) (info : Nat → Info) (fuel : Nat) (visible : Timestamp → Bool) (static : Bool)
    (t : Timestamp) (ht : P t) (x : Nat) (s : St) (h : Times P s) : Times P (recordUse info fuel visible static t x s) := by
  unfold recordUse
  split
  · simp only
    obtain ⟨z, hz⟩ := initTs_mem info s fuel [] x
    cases static with
    | true =>
      simp only [if_true]
      refine ⟨fun y => ?_, fun y => ?_, fun y u v hu => ?_⟩
      · split
        · exact h.ts x
        · exact h.ts y
      · split
        · exact h.upd x
        · exact h.upd y
      · unfold Uses at hu
        simp only at hu
        split at hu
        · rename_i hy
          subst hy
          rcases hu with hu | hu
          · exact h.used y u v (.inl hu)
          · rcases mem_set hu with h1 | ⟨rfl, rfl⟩
            · exact h.used y u v (.inr h1)
            · exact ⟨ht, hz ▸ h.ts z⟩
        · exact h.used y u v hu
    | false =>
      simp only [Bool.false_eq_true, if_false]
      refine ⟨fun y => ?_, fun y => ?_, fun y u v hu => ?_⟩
      · split
        · exact h.ts x
        · exact h.ts y
      · split
        · exact h.upd x
        · exact h.upd y
      · unfold Uses at hu
        simp only at hu
        split at hu
        · rename_i hy
          subst hy
          rcases hu with hu | hu
          · rcases mem_set hu with h1 | ⟨rfl, rfl⟩
            · exact h.used y u v (.inl h1)
            · exact ⟨ht, hz ▸ h.ts z⟩
          · exact h.used y u v (.inr hu)
        · exact h.used y u v hu
  · exact h

theorem times_run (P : Timestamp → Prop) (info : Nat → Info) (fuel : Nat) (t0 : Nat → Timestamp) (h : List Op)
    (h0 : ∀ x, P (t0 x)) (hp : ∀ op ∈ h, P op.time) : Times P (run info fuel t0 h) := by
  induction h using List.reverseRecOn with
  | nil => exact ⟨h0, by simp [run, fresh], by simp [run, fresh, Uses]⟩
  | append_singleton h op ih =>
    have I := ih fun o ho => hp o (List.mem_append_left _ ho)
    have ht := hp op (by simp)
    rw [run_snoc]
    cases op with
    | use x t => exact times_recordUse P info fuel _ false t ht x _ I
    | live x t visible => exact times_recordUse P info fuel visible true t ht x _ I
    | update x t =>
      refine ⟨fun y => ?_, fun y => ?_, fun y u v hu => ?_⟩
      · simp only [step, refresh]
        split
        · exact ht
        · exact I.ts y
      · simp only [step, refresh]
        split
        · intro t' h1
          simp only at h1
          split at h1
          · exact I.upd x t' h1
          · rw [List.mem_append, List.mem_singleton] at h1
            rcases h1 with h1 | rfl
            · exact I.upd x t' h1
            · exact I.ts x
        · exact I.upd y
      · unfold Uses at hu
        simp only [step, refresh] at hu
        split at hu
        · rename_i hy
          subst hy
          exact I.used y u v hu
        · exact I.used y u v hu

/-- **C70** (partial): if all symbols were made by executed cells, every cell in the export is an executed one (`executed` says which
numbers of cells have been executed). Symbols made without a time, by reading a name that has no symbol, are left out. -/
theorem dag_cells_partial (info : Nat → Info) (fuel : Nat) (t0 : Nat → Timestamp) (h : List Op) (all : List Nat)
    (executed : Int → Prop) (h0 : ∀ x, executed (t0 x).cellNum) (hp : ∀ op ∈ h, executed op.time.cellNum)
    (r : List (Int × Entry)) (hr : create info fuel (run info fuel t0 h) all = .ok r) (c : Int) (hc : c ∈ r.map Prod.fst) :
    executed c := by
  have T := times_run (fun t => executed t.cellNum) info fuel t0 h h0 hp
  have hg := collect_good info fuel (run info fuel t0 h) all
  rw [(create_spec info fuel _ all r hr).2.1, mem_relevant] at hc
  have hup : ∀ x, ∀ t ∈ updatedTimes info fuel (run info fuel t0 h) x, executed t.cellNum := by
    intro x t ht
    rw [mem_updatedTimes] at ht
    rcases ht with h1 | ⟨rfl, -⟩
    · exact T.upd x t h1
    · obtain ⟨z, hz⟩ := initTs_mem info (run info fuel t0 h) fuel [] x
      rw [hz]; exact T.ts z
  rcases hc with ⟨y, h1⟩ | ⟨y, h1⟩ | ⟨y, h1⟩ | ⟨p, h1⟩ | ⟨p, h1⟩
  · obtain ⟨x, _, u, v, _, _, hu, rfl⟩ := (hg.imp c y).1 h1
    exact (T.used x u v hu).1
  · obtain ⟨x, _, u, v, _, _, hu, rfl, _⟩ := (hg.inp c y).1 h1
    exact (T.used x u v hu).1
  · obtain ⟨x, _, _, _, ⟨u, v, hu, rfl, _⟩ | ⟨t, ht, rfl⟩⟩ := (hg.out c y).1 h1
    · exact (T.used x u v hu).2
    · exact hup x t ht
  · obtain ⟨x, _, _, u, v, _, _, hu, rfl, _⟩ := (hg.par c p).1 h1
    exact (T.used x u v hu).1
  · obtain ⟨x, _, _, u, v, _, _, hu, _, rfl, _⟩ := (hg.chi c p).1 h1
    exact (T.used x u v hu).2

example : ∀ c ∈ [2, 3, 1], (c : Int) ∈ [1, 2, 3] := by
  intro c hc
  exact dag_cells_partial plain 3 made three [0, 1] (· ∈ [1, 2, 3])
    (fun x => by unfold made; split <;> simp) (by decide)
    [(2, ⟨[], [0], [1], [1], [3]⟩), (3, ⟨[], [0, 1], [1], [1, 2], []⟩), (1, ⟨[], [], [0], [], [2, 3]⟩)] rfl c hc

/-- **C70 fails** if a symbol was made without a time and is assigned later, for example a name from a starred import: the export
contains a cell number -1, which claims to have made the value. -/
theorem dag_cells_violated (t : Timestamp) (ht : t.isInitialized = true) :
    ∃ e, create plain 1 (run plain 1 (fun _ => Timestamp.uninitialized) [.update 0 t]) [0] =
      .ok [(-1, e), (t.cellNum, e)] ∧ e.outputs = [0] := by
  have hc : t.cellNum ≠ -1 := by
    have h1 := (Bool.and_eq_true _ _ ▸ ht : _ ∧ _).1
    have h2 : t.cellNum > -1 := of_decide_eq_true h1
    omega
  have hne : t ≠ Timestamp.uninitialized := fun e => hc (by rw [e]; rfl)
  refine ⟨⟨[], [], [0], [], []⟩, ?_, rfl⟩
  have hu : updatedTimes plain 1 (run plain 1 (fun _ => Timestamp.uninitialized) [.update 0 t]) 0 =
      [Timestamp.uninitialized, t] := by
    simp [updatedTimes, run, step, refresh, fresh, initTs, ht, hne]
  have hcol : collect plain 1 (run plain 1 (fun _ => Timestamp.uninitialized) [.update 0 t]) [0] =
      ⟨[], [], [(-1, 0), (t.cellNum, 0)], [], []⟩ := by
    simp only [collect, List.foldl_cons, List.foldl_nil, addSym, topOf, plain]
    simp only [Bool.not_true, Bool.or_self, Bool.false_eq_true, if_false]
    rw [hu]
    simp [run, step, refresh, fresh, addUpdate, add, Timestamp.uninitialized, hc]
  unfold create
  simp only
  rw [hcol]
  simp [relevant, add, entries, entryOf, valuesAt, plain, hc, Ne.symm hc, bind, Except.bind, pure, Except.pure]

end Verif.Dag
