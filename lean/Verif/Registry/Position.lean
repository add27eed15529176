import Mathlib.Data.List.Sort
import Mathlib.Data.Nat.Basic
import Mathlib.Order.WithBot
import Verif.Base.Assoc

set_option linter.unusedSectionVars false

/-! # Positions of cells in the notebook: C21

`data_model/cell.py` 81-82 (`_position_by_cell_id`, `_cell_id_by_position`), 175-186, 420-437, 458-469, 497-502.
Positions are natural numbers or `float("inf")` (`⊤`). -/

namespace Verif.Registry.Pos
open Verif
variable {ι : Type} [DecidableEq ι]

/-- A position: a number, or `float("inf")`. -/
abbrev P := WithTop Nat

/-- `_position_by_cell_id` and `_cell_id_by_position`, `data_model/cell.py` 81-82. -/
structure St (ι : Type) where
  pos : List (ι × P)
  byPos : List (P × ι)

/-- Class initialisation, `data_model/cell.py` 81-82. -/
def St.init : St ι := ⟨[], []⟩

/-- The loop that refills `_cell_id_by_position`, `data_model/cell.py` 426-431. -/
def refill (report : List (ι × P)) : List (ι × P) → List (P × ι)
  | old => old.foldl (fun d x => match Assoc.get report x.1 with
      | some p => Assoc.set d p x.1
      | none => d) []

/-- The report with the vanished cells added at infinity, `data_model/cell.py` 427-429. -/
def withVanished (report old : List (ι × P)) : List (ι × P) :=
  report ++ (old.filter fun x => x.1 ∉ Assoc.keys report).map fun x => (x.1, ⊤)

/-- `set_cell_positions`, `data_model/cell.py` 419-432. `inOrder` is the condition of lines 422-425 (in-order semantics
in a notebook interface). -/
def setPositions (inOrder : Bool) (s : St ι) (report : List (ι × P)) : St ι :=
  if inOrder then ⟨withVanished report s.pos, refill report s.pos⟩ else ⟨report, s.byPos⟩

/-- `_override_position_index_for_current_flow_semantics`, `data_model/cell.py` 458-469, entered and left; every
computation of `get_max_used_live_symbol_cell_counter` (726) does this. `anyOrder` is the condition of line 465. -/
def override (inOrder anyOrder : Bool) (s : St ι) : St ι :=
  setPositions inOrder (if anyOrder then setPositions inOrder s [] else s) s.pos

/-- `at_position`, `data_model/cell.py` 497-502, as an id. -/
def atPosition (s : St ι) (p : P) : Option ι := (s.pos.find? fun x => x.2 = p).map Prod.fst

/-- `iterate_over_notebook_in_position_order`, `data_model/cell.py` 434-437, as ids. -/
def iterate (s : St ι) : List ι := ((s.byPos.insertionSort fun a b => a.1 ≤ b.1)).map Prod.snd

/-- What happens to the positions. -/
inductive Op (ι : Type) where
  /-- The client reports an order (`comm_manager.py` 322). -/
  | report (r : List (ι × P))
  /-- A check of a cell (`data_model/cell.py` 726). -/
  | check

/-- One operation under in-order semantics in a notebook, `data_model/cell.py` 419-432, 458-469. -/
def step (s : St ι) : Op ι → St ι
  | .report r => setPositions true s r
  | .check => override true false s

/-- A history of operations under in-order semantics in a notebook. -/
def run (s : St ι) (ops : List (Op ι)) : St ι := ops.foldl step s

/-! ## Specification -/

/-- A report of the client: every cell once, every position once, all finite. -/
structure Report (r : List (ι × P)) : Prop where
  ids : (r.map Prod.fst).Nodup
  places : (r.map Prod.snd).Nodup
  finite : ∀ x ∈ r, x.2 ≠ ⊤

/-- All reports in a history are reports. -/
def Reports (ops : List (Op ι)) : Prop := ∀ r, Op.report r ∈ ops → Report r

/-- Some report of the history lists the cell. -/
def Seen (ops : List (Op ι)) (id : ι) : Prop := ∃ r, Op.report r ∈ ops ∧ id ∈ r.map Prod.fst

/-- `l` lists the cells of `r` in the order of their positions. -/
def InOrderOf (r : List (ι × P)) (l : List ι) : Prop :=
  (∀ id, id ∈ l ↔ id ∈ r.map Prod.fst) ∧
  l.Pairwise fun a b => ∃ p q, (a, p) ∈ r ∧ (b, q) ∈ r ∧ p < q

/-! ## Lemmas -/

theorem keys_withVanished {r old : List (ι × P)} {id : ι} :
    id ∈ Assoc.keys (withVanished r old) ↔ id ∈ Assoc.keys r ∨ id ∈ Assoc.keys old := by
  unfold withVanished Assoc.keys
  simp only [List.map_append, List.map_map, List.mem_append, List.mem_map, List.mem_filter, decide_eq_true_eq,
    Function.comp]
  constructor
  · rintro (h | ⟨x, ⟨h1, _⟩, rfl⟩)
    · exact .inl h
    · exact .inr ⟨x, h1, rfl⟩
  · rintro (h | ⟨x, h1, rfl⟩)
    · exact .inl h
    · by_cases hx : ∃ a ∈ r, a.1 = x.1
      · exact .inl hx
      · exact .inr ⟨x, ⟨h1, by simpa using hx⟩, rfl⟩

theorem mem_withVanished {r old : List (ι × P)} {x : ι × P} : x ∈ withVanished r old ↔
    x ∈ r ∨ (x.2 = ⊤ ∧ x.1 ∉ Assoc.keys r ∧ x.1 ∈ Assoc.keys old) := by
  unfold withVanished
  simp only [List.mem_append, List.mem_map, List.mem_filter, decide_eq_true_eq]
  constructor
  · rintro (h | ⟨y, ⟨h1, h2⟩, rfl⟩)
    · exact .inl h
    · exact .inr ⟨rfl, h2, List.mem_map.2 ⟨y, h1, rfl⟩⟩
  · rintro (h | ⟨h1, h2, h3⟩)
    · exact .inl h
    · obtain ⟨y, hy, hyx⟩ := List.mem_map.1 h3
      exact .inr ⟨y, ⟨hy, by rw [hyx]; exact h2⟩, by rw [hyx, ← h1]⟩

theorem nodup_withVanished {r old : List (ι × P)} (hr : (Assoc.keys r).Nodup) (ho : (Assoc.keys old).Nodup) :
    (Assoc.keys (withVanished r old)).Nodup := by
  unfold withVanished
  unfold Assoc.keys at hr ho ⊢
  simp only [List.map_append, List.map_map]
  rw [List.nodup_append]
  refine ⟨hr, ?_, ?_⟩
  · have : (List.map (Prod.fst ∘ fun x : ι × P => (x.1, (⊤ : P))) (old.filter fun x => x.1 ∉ r.map Prod.fst)) =
        (old.filter fun x => x.1 ∉ r.map Prod.fst).map Prod.fst := by
      apply List.map_congr_left; intro a _; rfl
    rw [this]
    exact ho.sublist (List.filter_sublist.map _)
  · intro a ha b hb
    obtain ⟨x, hx, rfl⟩ := List.mem_map.1 hb
    have hx := of_decide_eq_true (List.mem_filter.1 hx).2
    rintro rfl
    exact hx ha

theorem nodup_run {ops : List (Op ι)} (h : Reports ops) {s : St ι} (hs : (Assoc.keys s.pos).Nodup) :
    (Assoc.keys (run s ops).pos).Nodup := by
  induction ops generalizing s with
  | nil => exact hs
  | cons o ops ih =>
    refine ih (fun r hr => h r (List.mem_cons_of_mem _ hr)) ?_
    cases o with
    | report r =>
      simp only [step, setPositions, if_true]
      exact nodup_withVanished (h r (by simp)).ids hs
    | check =>
      simp only [step, override, setPositions, if_true, Bool.false_eq_true, if_false]
      exact nodup_withVanished hs hs

theorem keys_run {ops : List (Op ι)} {s : St ι} {id : ι} :
    id ∈ Assoc.keys (run s ops).pos ↔ id ∈ Assoc.keys s.pos ∨ Seen ops id := by
  induction ops generalizing s with
  | nil => simp [run, Seen]
  | cons o ops ih =>
    show id ∈ Assoc.keys (run (step s o) ops).pos ↔ _
    rw [ih]
    cases o with
    | report r =>
      simp only [step, setPositions, if_true, keys_withVanished, Seen, List.mem_cons, Op.report.injEq]
      constructor
      · rintro ((h | h) | ⟨r', h1, h2⟩)
        · exact .inr ⟨r, .inl rfl, h⟩
        · exact .inl h
        · exact .inr ⟨r', .inr h1, h2⟩
      · rintro (h | ⟨r', rfl | h1, h2⟩)
        · exact .inl (.inr h)
        · exact .inl (.inl h2)
        · exact .inr ⟨r', h1, h2⟩
    | check =>
      simp only [step, override, setPositions, if_true, Bool.false_eq_true, if_false, keys_withVanished, Seen,
        List.mem_cons, reduceCtorEq, false_or, or_self]

/-- Refilling, when positions of the cells concerned are distinct. -/
theorem mem_refill {r : List (ι × P)} (hr : (Assoc.keys r).Nodup) (hp : (r.map Prod.snd).Nodup) :
    ∀ (old : List (ι × P)) (d : List (P × ι)), (Assoc.keys d).Nodup → (∀ x ∈ d, (x.2, x.1) ∈ r) →
      let d' := old.foldl (fun d x => match Assoc.get r x.1 with
        | some p => Assoc.set d p x.1
        | none => d) d
      (Assoc.keys d').Nodup ∧ (∀ x ∈ d', (x.2, x.1) ∈ r) ∧
      ∀ p id, (p, id) ∈ d' ↔ (p, id) ∈ d ∨ ((id, p) ∈ r ∧ id ∈ Assoc.keys old) := by
  have inj : ∀ {a b : ι} {p : P}, (a, p) ∈ r → (b, p) ∈ r → a = b := by
    intro a b p ha hb
    have := List.inj_on_of_nodup_map hp ha hb rfl
    exact congrArg Prod.fst this
  have inj' : ∀ {a : ι} {p q : P}, (a, p) ∈ r → (a, q) ∈ r → p = q := by
    intro a p q ha hb
    have := List.inj_on_of_nodup_map hr ha hb rfl
    exact congrArg Prod.snd this
  intro old
  induction old with
  | nil => intro d hd hm; exact ⟨hd, hm, by simp [Assoc.keys]⟩
  | cons x old ih =>
    intro d hd hm
    simp only [List.foldl_cons]
    cases hx : Assoc.get r x.1 with
    | none =>
      simp only
      obtain ⟨h1, h2, h3⟩ := ih d hd hm
      refine ⟨h1, h2, ?_⟩
      intro p id
      rw [h3 p id]
      simp only [Assoc.keys, List.map_cons, List.mem_cons]
      constructor
      · rintro (h | ⟨h, h'⟩)
        · exact .inl h
        · exact .inr ⟨h, .inr h'⟩
      · rintro (h | ⟨h, rfl | h'⟩)
        · exact .inl h
        · exact absurd (List.mem_map.2 ⟨_, h, rfl⟩) (Assoc.get_eq_none_iff.1 hx)
        · exact .inr ⟨h, h'⟩
    | some q =>
      simp only
      have hxr : (x.1, q) ∈ r := Assoc.mem_of_get hx
      have hset : ∀ p id, (p, id) ∈ Assoc.set d q x.1 ↔ (p, id) ∈ d ∨ (p = q ∧ id = x.1) := by
        intro p id
        rw [← Assoc.get_eq_some_iff (Assoc.nodup_set hd q x.1), ← Assoc.get_eq_some_iff hd, Assoc.get_set]
        by_cases hpq : p = q
        · subst hpq
          simp only [if_true, Option.some.injEq, true_and]
          constructor
          · rintro rfl; exact .inr rfl
          · rintro (h | rfl)
            · exact inj hxr (hm _ (Assoc.mem_of_get h))
            · rfl
        · simp [hpq]
      obtain ⟨h1, h2, h3⟩ := ih (Assoc.set d q x.1) (Assoc.nodup_set hd _ _) (by
        rintro ⟨p, id⟩ h
        rcases (hset p id).1 h with h | ⟨rfl, rfl⟩
        · exact hm _ h
        · exact hxr)
      refine ⟨h1, h2, ?_⟩
      intro p id
      rw [h3 p id, hset]
      simp only [Assoc.keys, List.map_cons, List.mem_cons]
      constructor
      · rintro ((h | ⟨rfl, rfl⟩) | ⟨h, h'⟩)
        · exact .inl h
        · exact .inr ⟨hxr, .inl rfl⟩
        · exact .inr ⟨h, .inr h'⟩
      · rintro (h | ⟨h, rfl | h'⟩)
        · exact .inl (.inl h)
        · exact .inl (.inr ⟨inj' h hxr, rfl⟩)
        · exact .inr ⟨h, h'⟩

theorem sorted_byPos {d : List (P × ι)} (hd : (Assoc.keys d).Nodup) :
    (d.insertionSort fun a b => a.1 ≤ b.1).Pairwise fun a b => a.1 < b.1 := by
  have hperm := List.perm_insertionSort (fun a b : P × ι => a.1 ≤ b.1) d
  have hs : (d.insertionSort fun a b => a.1 ≤ b.1).Pairwise fun a b => a.1 ≤ b.1 := by
    have : Std.Total (fun a b : P × ι => a.1 ≤ b.1) := ⟨fun a b => le_total a.1 b.1⟩
    have : IsTrans (P × ι) (fun a b : P × ι => a.1 ≤ b.1) := ⟨fun a b c h1 h2 => le_trans h1 h2⟩
    exact List.pairwise_insertionSort _ d
  have hn : ((d.insertionSort fun a b => a.1 ≤ b.1).map Prod.fst).Nodup := (hperm.map _).nodup_iff.2 hd
  rw [List.Nodup, List.pairwise_map] at hn
  exact (hs.and hn).imp fun h => lt_of_le_of_ne h.1 h.2

/-! ## Properties -/

/-- C21, lookup by position. After the client reports an order, the cell found at a position is the one the client placed
there; whatever was reported before, under any semantics. -/
theorem at_position_exact (inOrder : Bool) (s : St ι) (r : List (ι × P)) (hr : Report r) (p : Nat) (id : ι) :
    atPosition (setPositions inOrder s r) p = some id ↔ (id, (p : P)) ∈ r := by
  have inj : ∀ {a b : ι} {p : P}, (a, p) ∈ r → (b, p) ∈ r → a = b := by
    intro a b p ha hb
    exact congrArg Prod.fst (List.inj_on_of_nodup_map hr.places ha hb rfl)
  have key : ∀ l : List (ι × P), (∀ x ∈ l, x.2 = (p : P) → x ∈ r) → ((id, (p : P)) ∈ r → (id, (p : P)) ∈ l) →
      ((l.find? fun x => x.2 = (p : P)).map Prod.fst = some id ↔ (id, (p : P)) ∈ r) := by
    intro l hl hl'
    constructor
    · intro h
      rw [Option.map_eq_some_iff] at h
      obtain ⟨⟨a, q⟩, h, rfl⟩ := h
      have h1 := List.mem_of_find?_eq_some h
      have h2 := List.find?_some h
      simp only [decide_eq_true_eq] at h2
      subst h2
      exact hl _ h1 rfl
    · intro h
      have hmem := hl' h
      cases hf : l.find? fun x => x.2 = (p : P) with
      | none =>
        rw [List.find?_eq_none] at hf
        exact absurd (decide_eq_true rfl) (hf _ hmem)
      | some y =>
        obtain ⟨a, q⟩ := y
        have h1 := List.mem_of_find?_eq_some hf
        have h2 := List.find?_some hf
        simp only [decide_eq_true_eq] at h2
        subst h2
        simp only [Option.map_some, Option.some.injEq]
        exact inj (hl _ h1 rfl) h
  unfold atPosition setPositions
  cases inOrder with
  | true =>
    simp only [if_true]
    apply key
    · intro x hx hxp
      rcases mem_withVanished.1 hx with h | ⟨h, _⟩
      · exact h
      · rw [h] at hxp; exact absurd hxp (WithTop.coe_ne_top).symm
    · intro h; exact mem_withVanished.2 (.inl h)
  | false =>
    simp only [Bool.false_eq_true, if_false]
    exact key r (fun _ h _ => h) (fun h => h)

/-- The reports used in the examples: three cells, then a reordering with one of them gone and a new one. -/
def r1 : List (Nat × P) := [(10, some 0), (20, some 1), (30, some 2)]
def r2 : List (Nat × P) := [(30, some 0), (10, some 1), (40, some 2)]

theorem r1_report : Report r1 := ⟨by decide, by decide, by decide⟩
theorem r2_report : Report r2 := ⟨by decide, by decide, by decide⟩

example : atPosition (setPositions true (run St.init [.report r1]) r2) (1 : Nat) = some 10 := by decide

/-- C21, vanished cells. Under in-order semantics in a notebook, after any history ending in a report, a cell that an
earlier report listed and the last one does not is placed after all cells of the last report. -/
theorem vanished_last (ops : List (Op ι)) (h : Reports ops) (r : List (ι × P)) (hr : Report r) (id : ι)
    (hseen : Seen ops id) (hgone : id ∉ r.map Prod.fst) :
    ∃ p, Assoc.get (run St.init (ops ++ [.report r])).pos id = some p ∧
      ∀ id' q, (id', q) ∈ r → Assoc.get (run St.init (ops ++ [.report r])).pos id' = some q ∧ q < p := by
  have hrun : (run St.init (ops ++ [.report r])).pos = withVanished r (run St.init ops).pos := by
    simp [run, step, setPositions]
  have hn : (Assoc.keys (withVanished r (run (St.init : St ι) ops).pos)).Nodup :=
    nodup_withVanished hr.ids (nodup_run h (by simp [St.init, Assoc.keys]))
  rw [hrun]
  refine ⟨⊤, ?_, ?_⟩
  · rw [Assoc.get_eq_some_iff hn, mem_withVanished]
    exact .inr ⟨rfl, hgone, keys_run.2 (.inr hseen)⟩
  · intro id' q hq
    refine ⟨(Assoc.get_eq_some_iff hn).2 (mem_withVanished.2 (.inl hq)), ?_⟩
    exact lt_top_iff_ne_top.2 (hr.finite _ hq)

example : Reports [Op.report r1, .check] ∧ Seen [Op.report r1, .check] 20 ∧ 20 ∉ r2.map Prod.fst :=
  ⟨by intro r hr; simp at hr; subst hr; exact r1_report, ⟨r1, by simp, by decide⟩, by decide⟩

/-- C21, iteration, partial. Under in-order semantics in a notebook, if every cell of the last report was already in some
earlier report, iterating in position order visits exactly the cells of the last report, in order.

Missing: reports with new cells (which are skipped) and iteration after a cell was checked (which adds a vanished cell);
see `iterate_violated`. -/
theorem iterate_exact_partial (ops : List (Op ι)) (r : List (ι × P)) (hr : Report r)
    (hknown : ∀ id ∈ r.map Prod.fst, Seen ops id) : InOrderOf r (iterate (run St.init (ops ++ [.report r]))) := by
  have hrun : (run St.init (ops ++ [.report r])).byPos = refill r (run St.init ops).pos := by
    simp [run, step, setPositions]
  obtain ⟨h1, h2, h3⟩ := mem_refill hr.ids hr.places (run (St.init : St ι) ops).pos [] (by simp [Assoc.keys]) (by simp)
  unfold iterate
  rw [hrun]
  constructor
  · intro id
    simp only [List.mem_map]
    constructor
    · rintro ⟨x, hx, rfl⟩
      rw [List.mem_insertionSort] at hx
      exact ⟨_, h2 x hx, rfl⟩
    · rintro ⟨x, hx, rfl⟩
      refine ⟨(x.2, x.1), ?_, rfl⟩
      rw [List.mem_insertionSort]
      exact (h3 x.2 x.1).2 (.inr ⟨hx, keys_run.2 (.inr (hknown _ (List.mem_map.2 ⟨x, hx, rfl⟩)))⟩)
  · rw [List.pairwise_map]
    have hs := sorted_byPos (d := refill r (run (St.init : St ι) ops).pos) h1
    refine (List.Pairwise.imp_of_mem ?_ hs)
    intro a b ha hb hab
    rw [List.mem_insertionSort] at ha hb
    exact ⟨a.1, b.1, h2 a ha, h2 b hb, hab⟩

/-- A reordering of known cells. -/
def r3 : List (Nat × P) := [(30, some 0), (10, some 1)]

example : Report r3 ∧ (∀ id ∈ r3.map Prod.fst, Seen [Op.report r1, .check] id) ∧
    iterate (run St.init ([Op.report r1, .check] ++ [.report r3])) = [30, 10] :=
  ⟨⟨by decide, by decide, by decide⟩, fun id hid => ⟨r1, by simp, by revert id; decide⟩, by decide⟩

/-- C21 fails for iteration: after the first report nothing is visited, a cell that is new in a report is skipped, and
after a cell was checked a cell that is no longer in the notebook is visited. -/
theorem iterate_violated :
    iterate (run St.init [Op.report r1]) = [] ∧
    iterate (run St.init [Op.report r1, .report r2]) = [30, 10] ∧
    iterate (run St.init [Op.report r1, .report r3, .check]) = [30, 10, 20] := by
  refine ⟨by decide, by decide, by decide⟩

end Verif.Registry.Pos
