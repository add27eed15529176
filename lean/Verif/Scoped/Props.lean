import Verif.Scoped.Model
import Mathlib.Algebra.BigOperators.Group.List.Basic
import Mathlib.Data.Int.Basic
import Mathlib.Tactic.Ring

/-! # C47: settings are restored when their scope ends -/

namespace Verif.Scoped
open Verif

/-! ## Specification: lexical scoping without state -/

/-- What a program sees and whether it raises, if every scope just changes the value for its body. -/
def reader (cfg : Cfg) : Prog → Obs → List Obs × Bool
  | .skip, _ => ([], false)
  | .raise, _ => ([], true)
  | .observe, e => ([e], false)
  | .seq p q, e => if (reader cfg p e).2 then reader cfg p e else ((reader cfg p e).1 ++ (reader cfg q e).1, (reader cfg q e).2)
  | .handle p q, e => if (reader cfg p e).2 then ((reader cfg p e).1 ++ (reader cfg q e).1, (reader cfg q e).2) else reader cfg p e
  | .offset c t p, e => reader cfg p { e with
      cellOff := e.cellOff + c
      stmtOff := e.stmtOff + t }
  | .slicing b p, e => reader cfg p { e with slicing := some b }
  | .iter bs p, e => bs.foldr (fun b r =>
      let x := reader cfg p { e with slicing := some b }
      if x.2 then x else (x.1 ++ r.1, r.2)) ([], false)
  | .child c p, e => reader cfg p { e with child := some c }
  | .positions p, e => reader cfg p (if cfg.anyOrder then { e with pos := [] } else e)

theorem withVanished_self {ι : Type} [DecidableEq ι] (r : List (ι × Registry.Pos.P)) : Registry.Pos.withVanished r r = r := by
  unfold Registry.Pos.withVanished
  have : (r.filter fun x => x.1 ∉ Assoc.keys r) = [] := by
    rw [List.filter_eq_nil_iff]
    intro x hx
    simp only [decide_eq_true_eq, not_not]
    exact List.mem_map.2 ⟨x, hx, rfl⟩
  rw [this]; simp

theorem setPositions_pos {ι : Type} [DecidableEq ι] (b : Bool) (s : Registry.Pos.St ι) (r : List (ι × Registry.Pos.P))
    (h : b = true → s.pos = r) : (Registry.Pos.setPositions b s r).pos = r := by
  unfold Registry.Pos.setPositions
  cases b with
  | true => simp only [if_true]; rw [h rfl, withVanished_self]
  | false => rfl

theorem iter_restored (f : St → Res) (g : Obs → List Obs × Bool) (hf : ∀ s, (f s).1.obs = s.obs ∧ (f s).2 = g s.obs) (bs : List Bool)
    (s : St) : (iterSlicing f bs s).1.obs = s.obs ∧ (iterSlicing f bs s).2 = bs.foldr (fun b r =>
      let x := g { s.obs with slicing := some b }
      if x.2 then x else (x.1 ++ r.1, r.2)) ([], false) := by
  induction bs generalizing s with
  | nil => exact ⟨rfl, rfl⟩
  | cons b bs ih =>
    have h1 := hf { s with slicing := some b }
    have hob : (withSlicing b f s).1.obs = s.obs := by
      unfold withSlicing
      have h2 := h1.1
      simp only [St.obs, Obs.mk.injEq] at h2 ⊢
      exact ⟨h2.1, h2.2.1, trivial, h2.2.2.2.1, h2.2.2.2.2⟩
    have hr : (withSlicing b f s).2 = g { s.obs with slicing := some b } := h1.2
    unfold iterSlicing
    rw [List.foldr_cons]
    simp only
    rw [← hr]
    generalize withSlicing b f s = w at hob hr ⊢
    obtain ⟨s1, o1, e⟩ := w
    cases e with
    | true => exact ⟨hob, rfl⟩
    | false =>
      obtain ⟨h3, h4⟩ := ih s1
      simp only at hob
      refine ⟨h3.trans hob, ?_⟩
      simp only [Bool.false_eq_true, if_false]
      rw [h4, hob]

/-- **C47** (partial): whatever a program does inside nested scopes, and whether or not it raises, it sees the settings that lexical scoping
prescribes, and afterwards the offsets, the slicing context, the child override and the positions of all cells are as before. Missing:
the index from positions to cells (`index_violated`), and scopes of several threads (`child_violated_threads`). -/
theorem restored_partial (cfg : Cfg) (hcfg : cfg.inOrder = true → cfg.anyOrder = false) (p : Prog) (s : St) :
    (exec cfg p s).1.obs = s.obs ∧ (exec cfg p s).2 = reader cfg p s.obs := by
  induction p generalizing s with
  | skip => exact ⟨rfl, rfl⟩
  | raise => exact ⟨rfl, rfl⟩
  | observe => exact ⟨rfl, rfl⟩
  | seq p q ihp ihq =>
    obtain ⟨h1, h2⟩ := ihp s
    unfold exec reader
    rw [← h2]
    generalize exec cfg p s = w at h1 h2 ⊢
    obtain ⟨s1, o1, e⟩ := w
    cases e with
    | true => exact ⟨h1, rfl⟩
    | false =>
      obtain ⟨h3, h4⟩ := ihq s1
      simp only at h1
      refine ⟨h3.trans h1, ?_⟩
      simp only [Bool.false_eq_true, if_false]
      rw [h4, h1]
  | handle p q ihp ihq =>
    obtain ⟨h1, h2⟩ := ihp s
    unfold exec reader
    rw [← h2]
    generalize exec cfg p s = w at h1 h2 ⊢
    obtain ⟨s1, o1, e⟩ := w
    cases e with
    | false => exact ⟨h1, rfl⟩
    | true =>
      obtain ⟨h3, h4⟩ := ihq s1
      simp only at h1
      refine ⟨h3.trans h1, ?_⟩
      simp only [if_true]
      rw [h4, h1]
  | offset c t p ih =>
    obtain ⟨h1, h2⟩ := ih { s with
      cellOff := s.cellOff + c
      stmtOff := s.stmtOff + t }
    unfold exec reader
    simp only [St.obs, Obs.mk.injEq] at h1 ⊢
    exact ⟨⟨by omega, by omega, h1.2.2⟩, h2⟩
  | slicing b p ih =>
    obtain ⟨h1, h2⟩ := ih { s with slicing := some b }
    unfold exec reader withSlicing
    simp only [St.obs, Obs.mk.injEq] at h1 ⊢
    exact ⟨⟨h1.1, h1.2.1, trivial, h1.2.2.2⟩, h2⟩
  | iter bs p ih =>
    unfold exec reader
    exact iter_restored (exec cfg p) (reader cfg p) ih bs s
  | child c p ih =>
    obtain ⟨h1, h2⟩ := ih { s with child := some c }
    unfold exec reader
    simp only [St.obs, Obs.mk.injEq] at h1 ⊢
    exact ⟨⟨h1.1, h1.2.1, h1.2.2.1, trivial, h1.2.2.2.2⟩, h2⟩
  | positions p ih =>
    unfold exec reader
    cases ha : cfg.anyOrder with
    | false =>
      obtain ⟨h1, h2⟩ := ih s
      simp only [Bool.false_eq_true, if_false]
      simp only [St.obs, Obs.mk.injEq] at h1 ⊢
      exact ⟨⟨h1.1, h1.2.1, h1.2.2.1, h1.2.2.2.1, setPositions_pos _ _ _ fun _ => h1.2.2.2.2⟩, h2⟩
    | true =>
      have hi : cfg.inOrder = false := by
        cases h : cfg.inOrder with
        | false => rfl
        | true => rw [hcfg h] at ha; cases ha
      obtain ⟨h1, h2⟩ := ih { s with pos := Registry.Pos.setPositions cfg.inOrder s.pos [] }
      simp only [if_true]
      simp only [hi, St.obs, Obs.mk.injEq] at h1 h2 ⊢
      exact ⟨⟨h1.1, h1.2.1, h1.2.2.1, h1.2.2.2.1, rfl⟩, h2⟩

/-- Under any-order semantics everything is restored, the index included. -/
theorem restored_any_order (cfg : Cfg) (h : cfg.inOrder = false) (p : Prog) (s : St) : (exec cfg p s).1 = s := by
  have h1 := (restored_partial cfg (by rw [h]; simp) p s).1
  have h2 : ∀ (p : Prog) (s : St), (exec cfg p s).1.pos.byPos = s.pos.byPos := by
    intro p
    induction p with
    | skip => intro s; rfl
    | raise => intro s; rfl
    | observe => intro s; rfl
    | seq p q ihp ihq =>
      intro s
      have := ihp s
      unfold exec
      generalize exec cfg p s = w at this ⊢
      obtain ⟨s1, o1, e⟩ := w
      cases e with
      | true => exact this
      | false => exact (ihq s1).trans this
    | handle p q ihp ihq =>
      intro s
      have := ihp s
      unfold exec
      generalize exec cfg p s = w at this ⊢
      obtain ⟨s1, o1, e⟩ := w
      cases e with
      | false => exact this
      | true => exact (ihq s1).trans this
    | offset c t p ih => intro s; exact ih _
    | slicing b p ih => intro s; exact ih { s with slicing := some b }
    | iter bs p ih =>
      intro s
      unfold exec
      induction bs generalizing s with
      | nil => rfl
      | cons b bs ihb =>
        have : (withSlicing b (exec cfg p) s).1.pos.byPos = s.pos.byPos := ih { s with slicing := some b }
        unfold iterSlicing
        generalize withSlicing b (exec cfg p) s = w at this ⊢
        obtain ⟨s1, o1, e⟩ := w
        cases e with
        | true => exact this
        | false => exact (ihb s1).trans this
    | child c p ih => intro s; exact ih { s with child := some c }
    | positions p ih =>
      intro s
      unfold exec
      simp only [Registry.Pos.setPositions, h, Bool.false_eq_true, if_false]
      rw [ih]
      split <;> rfl
  have h3 := h2 p s
  generalize (exec cfg p s).1 = s' at h1 h3
  obtain ⟨a, b, c, d, ⟨e, f⟩⟩ := s
  obtain ⟨a', b', c', d', ⟨e', f'⟩⟩ := s'
  simp only [St.obs, Obs.mk.injEq] at h1
  simp only at h3
  obtain ⟨rfl, rfl, rfl, rfl, rfl⟩ := h1
  rw [h3]

/-- Three cells, in in-order semantics; the first has been deleted. -/
def st0 : St := ⟨0, 0, none, none, ⟨[(2, ((0 : Nat) : Registry.Pos.P)), (3, ((1 : Nat) : Registry.Pos.P)), (1, ⊤)],
  [(((0 : Nat) : Registry.Pos.P), 2), (((1 : Nat) : Registry.Pos.P), 3)]⟩⟩

/-- A program with nested scopes that raises in the innermost one. -/
def nested : Prog := .seq (.handle (.offset 0 (-1) (.iter [false, true] (.child 7 (.seq .observe (.positions .raise))))) .observe) .observe

example : let cfg : Cfg := ⟨false, true⟩
    (exec cfg nested st0).2.1.map (fun o => (o.stmtOff, o.slicing, o.child)) =
      [(-1, some false, some 7), (0, none, none), (0, none, none)] ∧ (exec cfg nested st0).2.2 = false := by decide

/-- **C47 fails** for the index from positions to cells under in-order semantics: after the scope, which did nothing, the deleted cell is
in the order of the notebook again. -/
theorem index_violated : ∃ s, (exec ⟨true, false⟩ (.positions .skip) s).1 ≠ s ∧ Registry.Pos.iterate s.pos = [2, 3] ∧
    Registry.Pos.iterate (exec ⟨true, false⟩ (.positions .skip) s).1.pos = [2, 3, 1] := by
  have h1 : Registry.Pos.iterate st0.pos = [2, 3] := by decide
  have h2 : Registry.Pos.iterate (exec ⟨true, false⟩ (.positions .skip) st0).1.pos = [2, 3, 1] := by decide
  refine ⟨st0, fun h => ?_, h1, h2⟩
  rw [h, h1] at h2
  exact absurd h2 (by decide)

/-! ## Several threads -/

/-- Scopes are entered once and only open ones are left. -/
def WellFormed {α : Type} : List (Ev α) → List Nat → Prop
  | [], _ => True
  | .enter id _ :: l, opened => id ∉ opened ∧ WellFormed l (opened ++ [id])
  | .leave id :: l, opened => id ∈ opened ∧ WellFormed l (opened.filter (· ≠ id))

/-- The scopes that are open in the end. -/
def openAfter {α : Type} : List (Ev α) → List Nat → List Nat
  | [], opened => opened
  | .enter id _ :: l, opened => openAfter l (opened ++ [id])
  | .leave id :: l, opened => openAfter l (opened.filter (· ≠ id))

theorem sum_erase (l : List (Nat × Int)) (h : (Assoc.keys l).Nodup) (id : Nat) (d : Int) (hd : Assoc.get l id = some d) :
    (l.map Prod.snd).sum = d + ((Assoc.erase l id).map Prod.snd).sum := by
  induction l with
  | nil => simp at hd
  | cons p l ih =>
    obtain ⟨k, v⟩ := p
    simp only [Assoc.keys, List.map_cons, List.nodup_cons] at h
    by_cases hk : k = id
    · subst hk
      simp only [Assoc.get, if_true, Option.some.injEq] at hd
      subst hd
      have : Assoc.erase ((k, v) :: l) k = l := by
        unfold Assoc.erase
        rw [List.filter_cons]
        simp only [ne_eq, not_true_eq_false, decide_false, Bool.false_eq_true, if_false]
        rw [List.filter_eq_self]
        intro x hx
        simp only [decide_eq_true_eq]
        intro e
        exact h.1 (List.mem_map.2 ⟨x, hx, e⟩)
      rw [this]; simp
    · simp only [Assoc.get, if_neg hk] at hd
      have h1 := ih h.2 hd
      have h2 : Assoc.erase ((k, v) :: l) id = (k, v) :: Assoc.erase l id := by
        unfold Assoc.erase
        rw [List.filter_cons]
        simp [hk]
      rw [h2]
      simp only [List.map_cons, List.sum_cons]
      rw [h1]; ring

theorem keys_erase (l : List (Nat × Int)) (id : Nat) : Assoc.keys (Assoc.erase l id) = (Assoc.keys l).filter (· ≠ id) := by
  unfold Assoc.keys Assoc.erase
  rw [List.filter_map]
  rfl

/-- **C47**, offsets in several threads: in whatever order scopes are entered and left, when no scope is open the offset is what it was
before. -/
theorem offset_threads (evs : List (Ev Int)) (hw : WellFormed evs []) (ho : openAfter evs [] = []) (o : Int) :
    (evs.foldl offsetStep (o, [])).1 = o := by
  suffices H : ∀ (evs : List (Ev Int)) (s : Int × List (Nat × Int)), WellFormed evs (Assoc.keys s.2) → (Assoc.keys s.2).Nodup →
      s.1 = o + (s.2.map Prod.snd).sum → (evs.foldl offsetStep s).1 = o + ((evs.foldl offsetStep s).2.map Prod.snd).sum ∧
        Assoc.keys (evs.foldl offsetStep s).2 = openAfter evs (Assoc.keys s.2) by
    obtain ⟨h1, h2⟩ := H evs (o, []) hw (by simp [Assoc.keys]) (by simp)
    rw [show Assoc.keys ((o, []) : Int × List (Nat × Int)).2 = [] from rfl, ho] at h2
    have h3 : (evs.foldl offsetStep (o, [])).2 = [] := by
      unfold Assoc.keys at h2
      exact List.map_eq_nil_iff.1 h2
    rw [h1, h3]; simp
  intro evs
  induction evs with
  | nil => intro s _ _ h; exact ⟨h, rfl⟩
  | cons e evs ih =>
    intro s hw hn hs
    cases e with
    | enter id d =>
      have hk : Assoc.keys (s.2 ++ [(id, d)]) = Assoc.keys s.2 ++ [id] := by simp [Assoc.keys]
      have := ih (s.1 + d, s.2 ++ [(id, d)]) (by simp only [hk]; exact hw.2)
        (by simp only [hk]; exact List.nodup_append.2 ⟨hn, by simp, fun a ha b hb e => by
          rw [List.mem_singleton] at hb; subst hb; subst e; exact hw.1 ha⟩)
        (by simp only [List.map_append, List.sum_append, List.map_cons, List.map_nil, List.sum_cons, List.sum_nil]; rw [hs]; ring)
      simp only [hk] at this
      exact this
    | leave id =>
      obtain ⟨d, hd⟩ := Option.isSome_iff_exists.1 (Assoc.get_isSome_iff.2 hw.1)
      have hstep : offsetStep s (.leave id) = (s.1 - d, Assoc.erase s.2 id) := by simp [offsetStep, hd]
      rw [List.foldl_cons, hstep]
      have h2 := sum_erase s.2 hn id d hd
      have := ih (s.1 - d, Assoc.erase s.2 id) (by simp only [keys_erase]; exact hw.2) (Assoc.nodup_erase hn id)
        (by simp only; rw [hs, h2]; ring)
      simp only [keys_erase] at this
      exact this

example : WellFormed [Ev.enter 1 (-1), .enter 2 5, .leave 1, .leave 2] [] ∧
    openAfter [Ev.enter 1 (-1 : Int), .enter 2 5, .leave 1, .leave 2] [] = [] := by simp [WellFormed, openAfter]

/-- **C47 fails** for the child override if scopes of two threads overlap: when all scopes are left, the override of the first thread is
still there, and later dependencies are recorded for that cell. -/
theorem child_violated_threads (a b : Nat) : let evs := [Ev.enter 1 a, .enter 2 b, .leave 1, .leave 2]
    WellFormed evs [] ∧ openAfter evs [] = [] ∧ (evs.foldl childStep (none, [])).1 = some a := by
  simp [WellFormed, openAfter, childStep, Assoc.get, Assoc.erase]

end Verif.Scoped
