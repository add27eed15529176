import Verif.Comm.Placeholder

set_option linter.unusedSectionVars false

/-! # Cells executed before the client told their ids: C40 -/

namespace Verif.Comm.Placeholder
open Verif
variable {ι κ : Type} [DecidableEq ι] [DecidableEq κ]

/-- The reported ids which are not known, in the order of the notebook. -/
def unknown (report : List (ι × Registry.Pos.P)) (s : St ι κ) : List ι :=
  (order report).filter fun id => id ∉ Assoc.keys s.cur

/-- The ids of placeholder cells are not among the reported ones: they are made by the kernel (execution counts,
`interactiveshell.py` 567-571), the others by the client. -/
def Foreign (report : List (ι × Registry.Pos.P)) (s : St ι κ) : Prop :=
  ∀ r, Current s r → s.ph r = true → s.idOf r ∉ Assoc.keys report

theorem assign_post {s : St ι κ} (hi : Inv s) {report : List (ι × Registry.Pos.P)} (hr : (Assoc.keys report).Nodup)
    (hf : Foreign report s) (text : ι → Option κ) (fails : Nat → ι → Bool) :
    Post text (order report) (withPlaceholders s) s (assign report text fails s).2 ∧
      (assign report text fails s).1 ≠ .assertion := by
  have h := loop_post text fails (order report) (withPlaceholders s) s hi (nodup_withPlaceholders hi)
    (fun r h => ((mem_withPlaceholders hi).1 h).1) (fun r h => ((mem_withPlaceholders hi).1 h).2) (nodup_order hr)
    (fun r h => by
      rw [mem_order]
      exact hf r ((mem_withPlaceholders hi).1 h).1 ((mem_withPlaceholders hi).1 h).2)
  unfold assign
  by_cases h0 : withPlaceholders s = []
  · rw [if_pos h0]
    exact ⟨⟨hi, rfl, rfl, fun _ _ => ⟨rfl, rfl⟩, fun r hr => (by rw [h0] at hr; cases hr), fun _ => Iff.rfl⟩,
      by simp⟩
  · rw [if_neg h0]; exact h

/-- **C40**: for every report of the client, and however the processing ends (also by an exception),

* a cell which is not a current placeholder keeps its id;
* a placeholder either stays one, with its id, or receives one of the reported ids, which was not known and whose
  reported content is the content of the cell; it is then no placeholder any more, so it never receives another id;
* distinct current cells, whether renamed or not, have distinct ids afterwards, under which they are found;
* a known id of a cell that is no placeholder still means that cell. -/
theorem placeholder_ids {s : St ι κ} (hi : Inv s) {report : List (ι × Registry.Pos.P)} (hr : (Assoc.keys report).Nodup)
    (hf : Foreign report s) (text : ι → Option κ) (fails : Nat → ι → Bool) :
    let s' := (assign report text fails s).2
    (∀ r, ¬ (Current s r ∧ s.ph r = true) → s'.idOf r = s.idOf r ∧ s'.ph r = s.ph r) ∧
    (∀ r, Current s r → s.ph r = true → (s'.idOf r = s.idOf r ∧ s'.ph r = true) ∨
      (s'.idOf r ∈ Assoc.keys report ∧ Assoc.get s.cur (s'.idOf r) = none ∧
        text (s'.idOf r) = some (s.content r) ∧ s'.ph r = false)) ∧
    (∀ r r', Current s r → Current s r' → r ≠ r' → s'.idOf r ≠ s'.idOf r') ∧
    (∀ r, Current s r → Assoc.get s'.cur (s'.idOf r) = some r) ∧
    (∀ id r, Assoc.get s.cur id = some r → s.ph r = false → Assoc.get s'.cur id = some r) ∧
    Inv s' := by
  obtain ⟨⟨p1, p2, p3, p4, p5, p6⟩, -⟩ := assign_post hi hr hf text fails
  have hkeep : ∀ r, ¬ (Current s r ∧ s.ph r = true) → (assign report text fails s).2.idOf r = s.idOf r ∧
      (assign report text fails s).2.ph r = s.ph r := fun r h => p4 r (by rw [mem_withPlaceholders hi]; exact h)
  refine ⟨hkeep, ?_, ?_, ?_, ?_, p1⟩
  · intro r h1 h2
    rcases p5 r ((mem_withPlaceholders hi).2 ⟨h1, h2⟩) with h | ⟨h3, h4, h5, h6⟩
    · exact .inl h
    · exact .inr ⟨mem_order.1 h3, Assoc.get_eq_none_iff.2 h4, h5, h6⟩
  · intro r r' h1 h2 hne he
    have h3 := (p6 r).2 h1
    have h4 := (p6 r').2 h2
    unfold Current at h3 h4
    rw [he, h4] at h3
    cases h3
    exact hne rfl
  · intro r h1; exact (p6 r).2 h1
  · intro id r h1 h2
    obtain ⟨h3, h4⟩ := hi.current_iff.1 h1
    obtain ⟨h5, -⟩ := hkeep r (by simp [h2])
    have h6 := (p6 r).2 h3
    unfold Current at h6
    rw [h5, h4] at h6
    exact h6

/-! ## Which placeholder receives which id -/

theorem filter_find {p : Nat → Bool} {ps : List Nat} {r : Nat} (h : ps.find? p = some r) :
    ps.filter p = r :: (ps.erase r).filter p := by
  induction ps with
  | nil => cases h
  | cons x ps ih =>
    by_cases hx : p x = true
    · rw [List.find?_cons_of_pos hx] at h
      cases h
      simp [hx]
    · rw [List.find?_cons_of_neg hx] at h
      have hr : p r = true := List.find?_some h
      have hne : x ≠ r := by rintro rfl; exact hx hr
      rw [List.erase_cons_tail (by simpa using hne), List.filter_cons_of_neg hx, List.filter_cons_of_neg hx, ih h]

theorem filter_erase_of_neg {p : Nat → Bool} {ps : List Nat} {r : Nat} (h : ¬ p r = true) :
    (ps.erase r).filter p = ps.filter p := by
  induction ps with
  | nil => rfl
  | cons x ps ih =>
    by_cases hx : x = r
    · subst hx; rw [List.erase_cons_head, List.filter_cons_of_neg h]
    · rw [List.erase_cons_tail (by simpa using hx), List.filter_cons, List.filter_cons, ih]

theorem loop_exact (text : ι → Option κ) (ids : List ι) (ps : List Nat) (s : St ι κ)
    (hi : Inv s) (hps : ps.Nodup) (hcur : ∀ r ∈ ps, Current s r) (hph : ∀ r ∈ ps, s.ph r = true)
    (hids : ids.Nodup) (hdisj : ∀ r ∈ ps, s.idOf r ∉ ids)
    (htext : ∀ id ∈ ids, id ∉ Assoc.keys s.cur → (text id).isSome) :
    (loop text (fun _ _ => false) ids ps s).1 = .ok ∧
    ∀ (c : κ) (k r : Nat), (ps.filter fun r => s.content r = c)[k]? = some r →
      (loop text (fun _ _ => false) ids ps s).2.idOf r =
        ((ids.filter fun id => id ∉ Assoc.keys s.cur ∧ text id = some c)[k]?).getD (s.idOf r) := by
  induction ids generalizing ps s with
  | nil => simp [loop]
  | cons id ids ih =>
    have hids' := (List.nodup_cons.1 hids).2
    have hnew := (List.nodup_cons.1 hids).1
    have hdisj' : ∀ r ∈ ps, s.idOf r ∉ ids := fun r hr h => hdisj r hr (List.mem_cons_of_mem _ h)
    have htext' : ∀ id ∈ ids, id ∉ Assoc.keys s.cur → (text id).isSome :=
      fun x hx => htext x (List.mem_cons_of_mem _ hx)
    unfold loop
    by_cases hk : id ∈ Assoc.keys s.cur
    · rw [if_pos hk]
      obtain ⟨h1, h2⟩ := ih ps s hi hps hcur hph hids' hdisj' htext'
      refine ⟨h1, fun c k r hr => ?_⟩
      rw [List.filter_cons_of_neg (by simp [hk])]
      exact h2 c k r hr
    · rw [if_neg hk]
      cases ht : text id with
      | none => have := htext id List.mem_cons_self hk; rw [ht] at this; cases this
      | some c0 =>
        cases hf : ps.find? fun r => s.content r = c0 with
        | none =>
          simp only [hf]
          obtain ⟨h1, h2⟩ := ih ps s hi hps hcur hph hids' hdisj' htext'
          refine ⟨h1, fun c k r hr => ?_⟩
          by_cases hc : c0 = c
          · subst hc
            have : ps.filter (fun r => s.content r = c0) = [] := by
              rw [List.filter_eq_nil_iff]; exact List.find?_eq_none.1 hf
            rw [this] at hr; simp at hr
          · rw [List.filter_cons_of_neg (by simp [ht, hc])]
            exact h2 c k r hr
        | some r0 =>
          have hr0 : r0 ∈ ps := List.mem_of_find?_eq_some hf
          have hrc : s.content r0 = c0 := by simpa using List.find?_some hf
          simp only [hf, updateId_eq (hcur r0 hr0)]
          rw [if_neg (by simp)]
          -- the state after one assignment, by `loop_post` on a single id
          have hpost := loop_post text (fun _ _ => false) [id] ps s hi hps hcur hph (by simp)
            (fun r hr => by
              intro h; exact hdisj r hr (by rw [List.mem_singleton.1 h]; exact List.mem_cons_self))
          have hone : loop text (fun _ _ => false) [id] ps s = (.ok, { s with
              idOf := Function.update s.idOf r0 id
              ph := Function.update s.ph r0 false
              cur := Assoc.set (Assoc.erase s.cur (s.idOf r0)) id r0 }) := by
            unfold loop
            rw [if_neg hk]
            simp only [ht, hf, updateId_eq (hcur r0 hr0)]
            rw [if_neg (by simp)]
            rfl
          rw [hone] at hpost
          set s1 : St ι κ := { s with
            idOf := Function.update s.idOf r0 id
            ph := Function.update s.ph r0 false
            cur := Assoc.set (Assoc.erase s.cur (s.idOf r0)) id r0 } with hs1
          obtain ⟨⟨p1, p2, p3, p4, p5, p6⟩, -⟩ := hpost
          have hget : ∀ x, Assoc.get s1.cur x = if x = id then some r0 else if x = s.idOf r0 then none
              else Assoc.get s.cur x := get_updated s r0 id
          have hid1 : ∀ q, s1.idOf q = if q = r0 then id else s.idOf q := by
            intro q; simp [hs1, Function.update_apply]
          have hmem : ∀ q ∈ ps.erase r0, q ∈ ps ∧ q ≠ r0 := by
            intro q hq
            exact ⟨List.mem_of_mem_erase hq, fun h => hps.not_mem_erase (h ▸ hq)⟩
          have hkeys : ∀ x ∈ ids, x ∈ Assoc.keys s1.cur ↔ x ∈ Assoc.keys s.cur := by
            intro x hx
            have h1 : x ≠ id := by rintro rfl; exact hnew hx
            have h2 : x ≠ s.idOf r0 := by rintro rfl; exact hdisj' r0 hr0 hx
            rw [← Assoc.get_isSome_iff, ← Assoc.get_isSome_iff, hget, if_neg h1, if_neg h2]
          have hc1 : ∀ q ∈ ps.erase r0, Current s1 q := fun q hq => (p6 q).2 (hcur q (hmem q hq).1)
          have hph1 : ∀ q ∈ ps.erase r0, s1.ph q = true := fun q hq => by
            simp [hs1, (hmem q hq).2, hph q (hmem q hq).1]
          have hd1 : ∀ q ∈ ps.erase r0, s1.idOf q ∉ ids := fun q hq => by
            rw [hid1, if_neg (hmem q hq).2]; exact hdisj' q (hmem q hq).1
          obtain ⟨h1, h2⟩ := ih (ps.erase r0) s1 p1 (hps.erase r0) hc1 hph1 hids' hd1
            (fun x hx h => htext' x hx fun h' => h ((hkeys x hx).2 h'))
          have hlast := loop_post text (fun _ _ => false) ids (ps.erase r0) s1 p1 (hps.erase r0) hc1 hph1 hids' hd1
          have hU : ∀ c, (ids.filter fun id => id ∉ Assoc.keys s1.cur ∧ text id = some c) =
              ids.filter fun id => id ∉ Assoc.keys s.cur ∧ text id = some c := by
            intro c
            refine List.filter_congr fun x hx => ?_
            simp [hkeys x hx]
          refine ⟨h1, fun c k r hr => ?_⟩
          have hcont : s1.content = s.content := rfl
          by_cases hc : c0 = c
          · subst hc
            rw [filter_find hf] at hr
            rw [List.filter_cons_of_pos (by simp [hk, ht])]
            cases k with
            | zero =>
              simp only [List.getElem?_cons_zero, Option.some.injEq] at hr ⊢
              subst hr
              rw [(hlast.1.others _ hps.not_mem_erase).1, hid1, if_pos rfl]
              rfl
            | succ k =>
              simp only [List.getElem?_cons_succ] at hr ⊢
              have := h2 c0 k r (by rw [hcont]; exact hr)
              rw [this, hU]
              have hrm : r ∈ ps.erase r0 := List.mem_of_mem_filter (List.mem_of_getElem? hr)
              rw [hid1, if_neg (hmem r hrm).2]
          · rw [List.filter_cons_of_neg (by simp [ht, hc])]
            have hrm : r ∈ ps := List.mem_of_mem_filter (List.mem_of_getElem? hr)
            have hne : r ≠ r0 := by
              rintro rfl
              have := List.of_mem_filter (List.mem_of_getElem? hr)
              simp only [decide_eq_true_eq] at this
              exact hc (hrc.symm.trans this)
            have := h2 c k r (by
              rw [hcont, filter_erase_of_neg (by simp [hrc, hc])]; exact hr)
            rw [this, hU, hid1, if_neg hne]

/-- A list without repetitions which is sorted is the list of its members in strict order. -/
theorem eq_of_sorted {α : Type} {le : α → α → Prop} {l m : List α} (hl : l.Pairwise le) (hn : l.Nodup)
    (hm : m.Pairwise fun a b => le a b ∧ ¬ le b a) (h : ∀ x, x ∈ l ↔ x ∈ m) : l = m := by
  have hmn : m.Nodup := hm.imp fun {a b} hab heq => by subst heq; exact hab.2 hab.1
  refine List.Perm.eq_of_pairwise (le := le) (fun a b ha hb h1 h2 => ?_) hl (hm.imp And.left)
    ((List.perm_ext_iff_of_nodup hn hmn).2 h)
  by_contra hne
  have key : ∀ (m : List α), m.Pairwise (fun a b => le a b ∧ ¬ le b a) → ∀ a ∈ m, ∀ b ∈ m, a ≠ b →
      ¬ le b a ∨ ¬ le a b := by
    intro m hm
    induction hm with
    | nil => intro a ha; cases ha
    | cons h1 _ ih =>
      intro a ha b hb hne
      rcases List.mem_cons.1 ha with rfl | ha'
      · rcases List.mem_cons.1 hb with rfl | hb'
        · exact absurd rfl hne
        · exact .inl (h1 b hb').2
      · rcases List.mem_cons.1 hb with rfl | hb'
        · exact .inr (h1 a ha').2
        · exact ih a ha' b hb' hne
  rcases key m hm a ((h a).1 ha) b hb hne with h | h
  · exact h h2
  · exact h h1

/-- The cells with placeholder ids, in the order of execution. -/
def PlaceholderCells (s : St ι κ) (ps : List Nat) : Prop :=
  (∀ r, r ∈ ps ↔ Current s r ∧ s.ph r = true) ∧ ps.Pairwise fun a b => s.ctr a < s.ctr b

/-- The reported ids which are not known, in the order of the notebook. -/
def UnknownIds (report : List (ι × Registry.Pos.P)) (s : St ι κ) (us : List ι) : Prop :=
  (∀ id, id ∈ us ↔ id ∈ Assoc.keys report ∧ id ∉ Assoc.keys s.cur) ∧
  us.Pairwise fun a b => ∃ p q, (a, p) ∈ report ∧ (b, q) ∈ report ∧ p < q

theorem withPlaceholders_eq {s : St ι κ} (hi : Inv s) {ps : List Nat} (h : PlaceholderCells s ps) :
    withPlaceholders s = ps := by
  have : Std.Total fun a b => s.ctr a ≤ s.ctr b := ⟨fun a b => le_total _ _⟩
  have : IsTrans Nat fun a b => s.ctr a ≤ s.ctr b := ⟨fun a b c h1 h2 => le_trans h1 h2⟩
  exact eq_of_sorted (le := fun a b => s.ctr a ≤ s.ctr b) (List.pairwise_insertionSort _ _) (nodup_withPlaceholders hi)
    (h.2.imp fun h => ⟨le_of_lt h, not_le_of_gt h⟩) fun x => (mem_withPlaceholders hi).trans (h.1 x).symm

theorem unknown_eq {report : List (ι × Registry.Pos.P)} {s : St ι κ} (hr : (Assoc.keys report).Nodup) {us : List ι}
    (h : UnknownIds report s us) : unknown report s = us := by
  have inj : ∀ {a : ι} {p q : Registry.Pos.P}, (a, p) ∈ report → (a, q) ∈ report → p = q := by
    intro a p q h1 h2
    have h3 := (Assoc.get_eq_some_iff hr).2 h1
    rw [(Assoc.get_eq_some_iff hr).2 h2] at h3
    cases h3; rfl
  refine eq_of_sorted (le := fun a b => ∃ p q, (a, p) ∈ report ∧ (b, q) ∈ report ∧ p ≤ q) ?_
    ((nodup_order hr).filter _) (h.2.imp fun {a b} h => ?_) fun x => ?_
  · unfold unknown order
    refine List.Pairwise.filter _ (List.pairwise_map.2 ?_)
    have : Std.Total fun a b : ι × Registry.Pos.P => a.2 ≤ b.2 := ⟨fun a b => le_total _ _⟩
    have : IsTrans (ι × Registry.Pos.P) fun a b => a.2 ≤ b.2 := ⟨fun a b c h1 h2 => le_trans h1 h2⟩
    have hs := List.pairwise_insertionSort (fun a b : ι × Registry.Pos.P => a.2 ≤ b.2) report
    refine hs.imp_of_mem fun {a b} ha hb hab => ⟨a.2, b.2, ?_, ?_, hab⟩
    · exact (List.perm_insertionSort _ _).mem_iff.1 ha
    · exact (List.perm_insertionSort _ _).mem_iff.1 hb
  · obtain ⟨p, q, h1, h2, h3⟩ := h
    refine ⟨⟨p, q, h1, h2, le_of_lt h3⟩, ?_⟩
    rintro ⟨p', q', h4, h5, h6⟩
    rw [inj h4 h2, inj h5 h1] at h6
    exact absurd h3 (not_lt_of_ge h6)
  · unfold unknown
    rw [List.mem_filter, mem_order, h.1]
    simp

/-- **C40**, completeness: if nothing raises, then for every content `c` the `k`-th placeholder cell (by execution
count) with content `c` receives the `k`-th unknown id (by position in the notebook) with content `c`, and keeps its
placeholder id if there is no such id. The hypothesis on `text` says that every reported id has a content or is known;
it holds unless a cell vanished from the notebook before it was ever registered (see `assign_violated`). -/
theorem placeholder_exact {s : St ι κ} (hi : Inv s) {report : List (ι × Registry.Pos.P)}
    (hr : (Assoc.keys report).Nodup) (hf : Foreign report s) (text : ι → Option κ)
    (htext : ∀ id ∈ Assoc.keys report, id ∉ Assoc.keys s.cur → (text id).isSome)
    {ps : List Nat} (hps : PlaceholderCells s ps) {us : List ι} (hus : UnknownIds report s us) :
    (assign report text (fun _ _ => false) s).1 = .ok ∧
    ∀ (c : κ) (k r : Nat), (ps.filter fun r => s.content r = c)[k]? = some r →
      (assign report text (fun _ _ => false) s).2.idOf r =
        ((us.filter fun id => text id = some c)[k]?).getD (s.idOf r) := by
  have h := loop_exact text (order report) (withPlaceholders s) s hi (nodup_withPlaceholders hi)
    (fun r h => ((mem_withPlaceholders hi).1 h).1) (fun r h => ((mem_withPlaceholders hi).1 h).2) (nodup_order hr)
    (fun r h => by
      rw [mem_order]
      exact hf r ((mem_withPlaceholders hi).1 h).1 ((mem_withPlaceholders hi).1 h).2)
    (fun id h => htext id (mem_order.1 h))
  rw [← unknown_eq hr hus, ← withPlaceholders_eq hi hps]
  unfold assign
  by_cases h0 : withPlaceholders s = []
  · rw [if_pos h0, h0]; simp
  · rw [if_neg h0]
    refine ⟨h.1, fun c k r hr => ?_⟩
    rw [h.2 c k r hr]
    unfold unknown
    rw [List.filter_filter]
    congr 2
    refine List.filter_congr fun x _ => ?_
    simp [and_comm]

/-- Three placeholder cells, two of them with the same content, and a known cell. -/
def s0 : St Nat Nat where
  cur := [(1, 0), (2, 1), (100, 2), (3, 3)]
  idOf := fun
    | 0 => 1
    | 1 => 2
    | 2 => 100
    | _ => 3
  ctr := fun r => r
  content := fun r => if r = 1 then 8 else 7
  ph := fun r => r ≠ 2

/-- A report of five cells. -/
def report0 : List (Nat × Registry.Pos.P) := [(104, some 4), (103, some 3), (102, some 2), (101, some 1), (100, some 0)]

/-- Contents of the reported cells. -/
def text0 : Nat → Option Nat
  | 100 => some 7
  | 101 => some 7
  | 102 => some 9
  | 103 => some 8
  | 104 => some 7
  | _ => none

example : Inv s0 ∧ (Assoc.keys report0).Nodup ∧ Foreign report0 s0 := by
  refine ⟨⟨by decide, ?_⟩, by decide, ?_⟩
  · intro id r h
    have := Assoc.mem_of_get h
    simp [s0] at this
    rcases this with ⟨rfl, rfl⟩ | ⟨rfl, rfl⟩ | ⟨rfl, rfl⟩ | ⟨rfl, rfl⟩ <;> rfl
  · intro r _ h
    match r with
    | 0 => decide
    | 1 => decide
    | 2 => simp [s0] at h
    | r + 3 => show 3 ∉ _; decide

example : UnknownIds report0 s0 [101, 102, 103, 104] := by
  refine ⟨fun id => ?_, ?_⟩
  · have h1 : Assoc.keys report0 = [104, 103, 102, 101, 100] := rfl
    have h2 : Assoc.keys s0.cur = [1, 2, 100, 3] := rfl
    rw [h1, h2]
    simp only [List.mem_cons, List.not_mem_nil, or_false]
    omega
  · simp only [List.pairwise_cons, List.mem_cons, List.not_mem_nil, or_false]
    refine ⟨?_, ?_, ?_, by simp⟩
    · rintro b (rfl | rfl | rfl)
      · exact ⟨((1 : Nat) : Registry.Pos.P), ((2 : Nat) : Registry.Pos.P), by decide, by decide, by decide⟩
      · exact ⟨((1 : Nat) : Registry.Pos.P), ((3 : Nat) : Registry.Pos.P), by decide, by decide, by decide⟩
      · exact ⟨((1 : Nat) : Registry.Pos.P), ((4 : Nat) : Registry.Pos.P), by decide, by decide, by decide⟩
    · rintro b (rfl | rfl)
      · exact ⟨((2 : Nat) : Registry.Pos.P), ((3 : Nat) : Registry.Pos.P), by decide, by decide, by decide⟩
      · exact ⟨((2 : Nat) : Registry.Pos.P), ((4 : Nat) : Registry.Pos.P), by decide, by decide, by decide⟩
    · rintro b rfl
      exact ⟨((3 : Nat) : Registry.Pos.P), ((4 : Nat) : Registry.Pos.P), by decide, by decide, by decide⟩

example : (List.range 4).map (assign report0 text0 (fun _ _ => false) s0).2.idOf = [101, 103, 100, 104] := by decide

/-- An id which the client does not report any more, but which was never registered (for instance because the
processing of the report that introduced it raised an exception), is still put at the end by `set_cell_positions`
(`data_model/cell.py` 426-429, which changes the dictionary of `comm_manager.py` 299); as long as there is a
placeholder cell, this and every later report fails with a `KeyError` (340), before any cell is registered. -/
theorem assign_violated : (assign (Registry.Pos.withVanished [(100, some 0)] [(50, some 0), (100, some 1)]) text0
    (fun _ _ => false) s0).1 = .keyError := by decide

/-- **C40 is violated** by schedule requests: the active cell of the request is given to the placeholder cell executed
last without a check whether it is known (`comm_manager.py` 148-154). Here cell object 2 has id 100; the client
executes it again without announcing the id (object 3) and then asks for a schedule with active cell 100: object 2
cannot be found any more, though it is not an earlier version of object 3. -/
theorem active_id_violated : Current s0 2 ∧ s0.ph 2 = false ∧ ∃ s', updateId s0 3 100 = some s' ∧
    Assoc.get s'.cur 100 = some 3 ∧ s'.idOf 2 = 100 ∧ ¬ Current s' 2 :=
  ⟨rfl, rfl, _, rfl, rfl, rfl, by unfold Current; decide⟩

end Verif.Comm.Placeholder
