import Mathlib.Data.List.Sort
import Mathlib.Data.List.Nodup
import Mathlib.Logic.Function.Basic
import Verif.Base.Assoc
import Verif.Registry.Position

set_option linter.unusedSectionVars false

/-! # Cells executed before the client told their ids: C40

Models `comm_manager.py` 331-345 (part of `_handle_notify_content_changed_impl`), `Cell.with_placeholder_ids`
(`data_model/cell.py` 243-252), and the part of `Cell.update_id` (262-276) which concerns the table of ids. The tables
of edges (281-293) are in `Verif.Registry.Rename`; here the rest of `update_id` either returns or raises
(parameter `fails`). Renaming of earlier versions of the cell (266-267) is in `Verif.Registry.Model`. -/

namespace Verif.Comm.Placeholder
open Verif
variable {ι κ : Type} [DecidableEq ι] [DecidableEq κ]

/-- The cells: `_current_cell_by_cell_id` (`data_model/cell.py` 78), and for every cell object its `cell_id`,
`cell_ctr`, `current_content` and `_placeholder_id` (101-133). -/
structure St (ι κ : Type) where
  cur : List (ι × Nat)
  idOf : Nat → ι
  ctr : Nat → Int
  content : Nat → κ
  ph : Nat → Bool

/-- `with_placeholder_ids`, `data_model/cell.py` 243-252. -/
def withPlaceholders (s : St ι κ) : List Nat :=
  ((s.cur.map Prod.snd).filter fun r => s.ph r).insertionSort fun a b => s.ctr a ≤ s.ctr b

/-- `update_id`, `data_model/cell.py` 262-265 and 273-276: the table of ids; `none` if the assertion of line 275
fails. -/
def updateId (s : St ι κ) (r : Nat) (new : ι) : Option (St ι κ) :=
  let s' := { s with
    idOf := Function.update s.idOf r new
    ph := Function.update s.ph r false }
  match Assoc.get s.cur (s.idOf r) with
  | none => some s'
  | some q => if q = r then some { s' with cur := Assoc.set (Assoc.erase s.cur (s.idOf r)) new q } else none

/-- How the loop ended. -/
inductive End where
  | ok
  | assertion
  | keyError
  | edges
  deriving DecidableEq, Repr

/-- The loop of `comm_manager.py` 334-345 over the ids in the order of the notebook; `ps` is `placeholder_cells`,
`text id` is `content_by_cell_id.get(id)`, `fails r id` whether the rest of `update_id` raises. The state is kept when
the loop is left by an exception. -/
def loop (text : ι → Option κ) (fails : Nat → ι → Bool) : List ι → List Nat → St ι κ → End × St ι κ
  | [], _, s => (.ok, s)
  | id :: ids, ps, s =>
    if id ∈ Assoc.keys s.cur then loop text fails ids ps s
    else match text id with
      | none => (.keyError, s)
      | some c =>
        match ps.find? fun r => s.content r = c with
        | none => loop text fails ids ps s
        | some r =>
          match updateId s r id with
          | none => (.assertion, s)
          | some s' => if fails r id then (.edges, s') else loop text fails ids (ps.erase r) s'

/-- The ids in the order of `sorted((idx, cell_id) ...)`, `comm_manager.py` 334-336. Simplification: ids at equal
positions (only those of vanished cells, all at infinity) stay in the order of the report. -/
def order (report : List (ι × Registry.Pos.P)) : List ι :=
  (report.insertionSort fun a b => a.2 ≤ b.2).map Prod.fst

/-- `comm_manager.py` 331-345. -/
def assign (report : List (ι × Registry.Pos.P)) (text : ι → Option κ) (fails : Nat → ι → Bool) (s : St ι κ) :
    End × St ι κ :=
  if withPlaceholders s = [] then (.ok, s) else loop text fails (order report) (withPlaceholders s) s

/-! ## Specification -/

/-- The object is current: looking up its id finds it. -/
def Current (s : St ι κ) (r : Nat) : Prop := Assoc.get s.cur (s.idOf r) = some r

/-- The table of ids is in order: keys are distinct and every object in it is stored under its own id. -/
structure Inv (s : St ι κ) : Prop where
  nodup : (Assoc.keys s.cur).Nodup
  own : ∀ id r, Assoc.get s.cur id = some r → s.idOf r = id

/-! ## Lemmas -/

theorem updateId_eq {s : St ι κ} {r : Nat} {new : ι} (hc : Current s r) : updateId s r new = some { s with
    idOf := Function.update s.idOf r new
    ph := Function.update s.ph r false
    cur := Assoc.set (Assoc.erase s.cur (s.idOf r)) new r } := by
  unfold Current at hc
  simp [updateId, hc]

theorem get_updated (s : St ι κ) (r : Nat) (new id : ι) :
    Assoc.get (Assoc.set (Assoc.erase s.cur (s.idOf r)) new r) id =
      if id = new then some r else if id = s.idOf r then none else Assoc.get s.cur id := by
  rw [Assoc.get_set, Assoc.get_erase]

theorem Inv.current_iff {s : St ι κ} (h : Inv s) {id : ι} {r : Nat} :
    Assoc.get s.cur id = some r ↔ Current s r ∧ s.idOf r = id := by
  constructor
  · intro h1
    have h2 := h.own id r h1
    exact ⟨by unfold Current; rw [h2]; exact h1, h2⟩
  · rintro ⟨h1, rfl⟩; exact h1

/-- What the loop guarantees, however it ends. -/
structure Post (text : ι → Option κ) (ids : List ι) (ps : List Nat) (s s' : St ι κ) : Prop where
  inv : Inv s'
  text_eq : s'.content = s.content
  ctr_eq : s'.ctr = s.ctr
  others : ∀ r, r ∉ ps → s'.idOf r = s.idOf r ∧ s'.ph r = s.ph r
  mine : ∀ r ∈ ps, (s'.idOf r = s.idOf r ∧ s'.ph r = true) ∨
    (s'.idOf r ∈ ids ∧ s'.idOf r ∉ Assoc.keys s.cur ∧ text (s'.idOf r) = some (s.content r) ∧ s'.ph r = false)
  cur : ∀ r, Current s' r ↔ Current s r

theorem loop_post (text : ι → Option κ) (fails : Nat → ι → Bool) (ids : List ι) (ps : List Nat) (s : St ι κ)
    (hi : Inv s) (hps : ps.Nodup) (hcur : ∀ r ∈ ps, Current s r) (hph : ∀ r ∈ ps, s.ph r = true)
    (hids : ids.Nodup) (hdisj : ∀ r ∈ ps, s.idOf r ∉ ids) :
    Post text ids ps s (loop text fails ids ps s).2 ∧ (loop text fails ids ps s).1 ≠ .assertion := by
  induction ids generalizing ps s with
  | nil =>
    exact ⟨⟨hi, rfl, rfl, fun _ _ => ⟨rfl, rfl⟩, fun r hr => .inl ⟨rfl, hph r hr⟩, fun _ => Iff.rfl⟩, by simp [loop]⟩
  | cons id ids ih =>
    have hids' := (List.nodup_cons.1 hids).2
    have hnew := (List.nodup_cons.1 hids).1
    have hskip : ∀ x : End × St ι κ, Post text ids ps s x.2 ∧ x.1 ≠ .assertion →
        Post text (id :: ids) ps s x.2 ∧ x.1 ≠ .assertion := by
      rintro x ⟨⟨p1, p2, p3, p4, p5, p6⟩, p7⟩
      refine ⟨⟨p1, p2, p3, p4, fun r hr => ?_, p6⟩, p7⟩
      rcases p5 r hr with h | ⟨h1, h2⟩
      · exact .inl h
      · exact .inr ⟨List.mem_cons_of_mem _ h1, h2⟩
    have hself : Post text (id :: ids) ps s s :=
      ⟨hi, rfl, rfl, fun _ _ => ⟨rfl, rfl⟩, fun r hr => .inl ⟨rfl, hph r hr⟩, fun _ => Iff.rfl⟩
    have hdisj' : ∀ r ∈ ps, s.idOf r ∉ ids := fun r hr h => hdisj r hr (List.mem_cons_of_mem _ h)
    unfold loop
    by_cases hk : id ∈ Assoc.keys s.cur
    · rw [if_pos hk]
      exact hskip _ (ih ps s hi hps hcur hph hids' hdisj')
    · rw [if_neg hk]
      cases ht : text id with
      | none => exact ⟨hself, by simp⟩
      | some c =>
        cases hf : ps.find? fun r => s.content r = c with
        | none =>
          simp only [hf]
          exact hskip _ (ih ps s hi hps hcur hph hids' hdisj')
        | some r =>
          have hr : r ∈ ps := List.mem_of_find?_eq_some hf
          have hrc : s.content r = c := by simpa using List.find?_some hf
          simp only [hf, updateId_eq (hcur r hr)]
          set s1 : St ι κ := { s with
            idOf := Function.update s.idOf r id
            ph := Function.update s.ph r false
            cur := Assoc.set (Assoc.erase s.cur (s.idOf r)) id r } with hs1
          have hget : ∀ x, Assoc.get s1.cur x = if x = id then some r else if x = s.idOf r then none
              else Assoc.get s.cur x := get_updated s r id
          have hne : s.idOf r ≠ id := by
            intro h; exact hk (Assoc.get_isSome_iff.1 (by rw [← h]; rw [hcur r hr]; rfl))
          have hid1 : ∀ q, s1.idOf q = if q = r then id else s.idOf q := by
            intro q; simp [hs1, Function.update_apply]
          have hnone : Assoc.get s.cur id = none := Assoc.get_eq_none_iff.2 hk
          have hi1 : Inv s1 := by
            refine ⟨Assoc.nodup_set (Assoc.nodup_erase hi.nodup _) _ _, ?_⟩
            intro x q hq
            rw [hget] at hq
            by_cases h1 : x = id
            · rw [if_pos h1] at hq; cases hq; rw [hid1, if_pos rfl, h1]
            · rw [if_neg h1] at hq
              by_cases h2 : x = s.idOf r
              · rw [if_pos h2] at hq; cases hq
              · rw [if_neg h2] at hq
                have h3 := hi.own x q hq
                rw [hid1]
                by_cases h4 : q = r
                · subst h4; exact absurd h3.symm h2
                · rw [if_neg h4]; exact h3
          have hcur1 : ∀ q, Current s1 q ↔ Current s q := by
            intro q
            unfold Current
            rw [hget, hid1]
            by_cases h4 : q = r
            · subst h4
              simp only [if_true]
              exact ⟨fun _ => hcur q hr, fun _ => trivial⟩
            · rw [if_neg h4]
              by_cases h1 : s.idOf q = id
              · rw [if_pos h1, h1, hnone]
                constructor
                · intro h; cases h; exact absurd rfl h4
                · intro h; cases h
              · rw [if_neg h1]
                by_cases h2 : s.idOf q = s.idOf r
                · rw [if_pos h2, h2, hcur r hr]
                  constructor
                  · intro h; cases h
                  · intro h; cases h; exact absurd rfl h4
                · rw [if_neg h2]
          have hone : Post text (id :: ids) ps s s1 := by
            refine ⟨hi1, rfl, rfl, ?_, ?_, hcur1⟩
            · intro q hq
              have h4 : q ≠ r := by rintro rfl; exact hq hr
              exact ⟨by rw [hid1, if_neg h4], by simp [hs1, h4]⟩
            · intro q hq
              by_cases h4 : q = r
              · subst h4
                right
                rw [hid1, if_pos rfl]
                exact ⟨List.mem_cons_self, hk, by rw [ht, hrc], by simp [hs1]⟩
              · left
                exact ⟨by rw [hid1, if_neg h4], by simp [hs1, h4, hph q hq]⟩
          by_cases hfl : fails r id = true
          · rw [if_pos hfl]; exact ⟨hone, by simp⟩
          · rw [if_neg hfl]
            have hmem : ∀ q ∈ ps.erase r, q ∈ ps ∧ q ≠ r := by
              intro q hq
              exact ⟨List.mem_of_mem_erase hq, fun h => hps.not_mem_erase (h ▸ hq)⟩
            obtain ⟨⟨p1, p2, p3, p4, p5, p6⟩, p7⟩ := ih (ps.erase r) s1 hi1 (hps.erase r)
              (fun q hq => (hcur1 q).2 (hcur q (hmem q hq).1))
              (fun q hq => by simp [hs1, (hmem q hq).2, hph q (hmem q hq).1]) hids'
              (fun q hq => by rw [hid1, if_neg (hmem q hq).2]; exact hdisj' q (hmem q hq).1)
            refine ⟨⟨p1, p2, p3, ?_, ?_, fun q => (p6 q).trans (hcur1 q)⟩, p7⟩
            · intro q hq
              have h4 : q ≠ r := by rintro rfl; exact hq hr
              obtain ⟨h5, h6⟩ := p4 q fun h => hq (hmem q h).1
              obtain ⟨h7, h8⟩ := hone.others q hq
              exact ⟨h5.trans h7, h6.trans h8⟩
            · intro q hq
              by_cases h4 : q = r
              · subst h4
                obtain ⟨h5, h6⟩ := p4 q hps.not_mem_erase
                right
                rw [h5, hid1, if_pos rfl]
                exact ⟨List.mem_cons_self, hk, by rw [ht, hrc], by rw [h6]; simp [hs1]⟩
              · have hq' : q ∈ ps.erase r := (List.mem_erase_of_ne h4).2 hq
                rcases p5 q hq' with ⟨h5, h6⟩ | ⟨h5, h6, h7, h8⟩
                · left; exact ⟨h5.trans (by rw [hid1, if_neg h4]), h6⟩
                · right
                  refine ⟨List.mem_cons_of_mem _ h5, ?_, h7, h8⟩
                  intro h9
                  apply h6
                  rw [← Assoc.get_isSome_iff, hget]
                  by_cases h10 : (loop text fails ids (ps.erase r) s1).2.idOf q = id
                  · rw [if_pos h10]; rfl
                  · rw [if_neg h10]
                    by_cases h11 : (loop text fails ids (ps.erase r) s1).2.idOf q = s.idOf r
                    · exact absurd (h11 ▸ h5) (hdisj' r hr)
                    · rw [if_neg h11]; exact Assoc.get_isSome_iff.2 h9

theorem nodup_withPlaceholders {s : St ι κ} (hi : Inv s) : (withPlaceholders s).Nodup := by
  unfold withPlaceholders
  have h0 : (s.cur.map Prod.snd).Nodup := by
    have h1 : (s.cur.map Prod.fst).Nodup := hi.nodup
    refine List.Nodup.map_on ?_ (List.Nodup.of_map _ h1)
    rintro ⟨a, q⟩ hx ⟨b, p⟩ hy h
    simp only at h
    subst h
    have h2 := hi.own a q ((Assoc.get_eq_some_iff hi.nodup).2 hx)
    have h3 := hi.own b q ((Assoc.get_eq_some_iff hi.nodup).2 hy)
    rw [← h2, ← h3]
  exact (List.perm_insertionSort _ _).nodup_iff.2 (h0.filter _)

theorem mem_withPlaceholders {s : St ι κ} (hi : Inv s) {r : Nat} :
    r ∈ withPlaceholders s ↔ Current s r ∧ s.ph r = true := by
  unfold withPlaceholders
  rw [(List.perm_insertionSort _ _).mem_iff, List.mem_filter, List.mem_map]
  refine and_congr_left fun _ => ?_
  constructor
  · rintro ⟨⟨a, q⟩, h, rfl⟩
    exact (hi.current_iff.1 ((Assoc.get_eq_some_iff hi.nodup).2 h)).1
  · intro h
    exact ⟨(s.idOf r, r), Assoc.mem_of_get h, rfl⟩

theorem mem_order {report : List (ι × Registry.Pos.P)} {id : ι} : id ∈ order report ↔ id ∈ Assoc.keys report := by
  unfold order Assoc.keys
  exact ((List.perm_insertionSort _ _).map _).mem_iff

theorem nodup_order {report : List (ι × Registry.Pos.P)} (h : (Assoc.keys report).Nodup) : (order report).Nodup := by
  unfold order
  exact ((List.perm_insertionSort _ _).map _).nodup_iff.2 h

end Verif.Comm.Placeholder
