import Verif.Loops.Trace

/-! The code for a variable that is set in branches and loops. -/

namespace Verif.Loops
open Verif Spec

/-! ### What the analysis and the comparison at the end of a statement find -/

theorem ana_uses : ∀ (s : S) (D : List Nat), ∀ y ∈ (ana D s).1, y ∈ uses s := by
  intro s
  induction s with
  | pass => intro D y h; cases h
  | set x c ys => intro D y h; simp only [ana, List.mem_filter] at h; exact h.1
  | seq a b iha ihb =>
    intro D y h
    simp only [ana, List.mem_append] at h
    simp only [uses, List.mem_append]
    rcases h with h | h
    · exact .inl (iha _ y h)
    · exact .inr (ihb _ y h)
  | ite z a b iha ihb =>
    intro D y h
    simp only [ana, List.mem_filter, List.mem_append, List.mem_singleton] at h
    simp only [uses, List.mem_cons, List.mem_append]
    rcases h.1 with h | h | h
    · exact .inl h
    · exact .inr (.inl (iha _ y h))
    · exact .inr (.inr (ihb _ y h))
  | for_ i z b ih =>
    intro D y h
    simp only [ana, List.mem_filter, List.mem_append, List.mem_singleton] at h
    simp only [uses, List.mem_cons]
    rcases h.1 with h | h
    · exact .inl h
    · exact .inr (ih _ y h)
  | while_ z b ih =>
    intro D y h
    simp only [ana, List.mem_filter, List.mem_append, List.mem_singleton] at h
    simp only [uses, List.mem_cons]
    rcases h.1 with h | h
    · exact .inl h
    · exact .inr (ih _ y h)

theorem endStmt_cases (t : Nat) (s : S) (e : Env) (a : Acc) (y : Nat) :
    endStmt t s e a y = a.sym y ∨ ∃ v, e y = some v ∧ endStmt t s e a y = some (v, t) ∧
      ((∃ w u, a.sym y = some (w, u) ∧ w ≠ v ∧ (y ∈ (ana [] s).1 ∨ y ∈ (ana [] s).2)) ∨ (a.sym y = none ∧ y ∈ (ana [] s).2)) := by
  unfold endStmt
  by_cases ho : a.off = true
  · rw [if_pos ho]
    unfold resync
    cases hs : a.sym y with
    | none =>
      cases he : e y with
      | none => exact .inl rfl
      | some v =>
        by_cases hd : y ∈ (ana [] s).2
        · exact .inr ⟨v, rfl, by simp [hd], .inr ⟨rfl, hd⟩⟩
        · exact .inl (by simp [hd])
    | some p =>
      obtain ⟨w, u⟩ := p
      cases he : e y with
      | none => exact .inl rfl
      | some v =>
        by_cases hc : (y ∈ (ana [] s).1 ∨ y ∈ (ana [] s).2) ∧ w ≠ v
        · exact .inr ⟨v, rfl, by simp only [if_pos hc], .inl ⟨w, u, rfl, hc.2, hc.1⟩⟩
        · exact .inl (by simp only [if_neg hc])
  · rw [if_neg ho]; exact .inl rfl

theorem endStmt_fresh {t : Nat} {s : S} {e : Env} {a : Acc} {y : Nat} {w v : Int} {u : Nat} (ho : a.off = true) (hl : y ∈ (ana [] s).1)
    (hs : a.sym y = some (w, u)) (he : e y = some v) (hne : w ≠ v) : endStmt t s e a y = some (v, t) := by
  unfold endStmt
  rw [if_pos ho]
  unfold resync
  rw [hs, he]
  simp only [if_pos (show (y ∈ (ana [] s).1 ∨ y ∈ (ana [] s).2) ∧ w ≠ v from ⟨.inl hl, hne⟩)]

/-! ### What holds of every session -/

/-- What holds between statements. -/
structure Inv (σ : St) : Prop where
  past : ∀ x w t, σ.sym x = some (w, t) → t < σ.log.length
  dynLe : ∀ t, t < σ.log.length → ∀ u ∈ σ.dyn t, u < t
  statLe : ∀ t, t < σ.log.length → ∀ u ∈ σ.stat t, u < t
  mono : ∀ a b, a < b → b < σ.log.length → σ.st a ≤ σ.st b ∧ σ.st a ≠ σ.st b
  cellLe : ∀ a, a < σ.log.length → (σ.st a).cellNum ≤ σ.cells

/-- What holds in a cell. -/
structure CellBase (σ : St) (k : K) : Prop where
  start : k.start ≤ σ.log.length
  older : ∀ y w t, k.sym0 y = some (w, t) → t < k.start
  cells : ∀ a, a < σ.log.length → (σ.st a).cellNum = σ.cells → (σ.st a).stmtNum < k.idx

theorem mem_tsOf {sym : Syms} {y t : Nat} (h : t ∈ tsOf sym y) : ∃ w, sym y = some (w, t) := by
  unfold tsOf at h
  split at h
  · next w u e => simp only [List.mem_singleton] at h; subst h; exact ⟨w, e⟩
  · cases h

theorem stamps_more {σ : St} {k : K} (hi : Inv σ)
    (hc : ∀ a, a < σ.log.length → (σ.st a).cellNum = σ.cells → (σ.st a).stmtNum < k.idx) (a b : Nat) (hab : a < b)
    (hb : b < σ.log.length + 1) :
    upd σ.st σ.log.length ⟨σ.cells, k.idx⟩ a ≤ upd σ.st σ.log.length ⟨σ.cells, k.idx⟩ b ∧
    upd σ.st σ.log.length ⟨σ.cells, k.idx⟩ a ≠ upd σ.st σ.log.length ⟨σ.cells, k.idx⟩ b := by
  have ha : a ≠ σ.log.length := by omega
  rw [upd_ne _ _ ha]
  by_cases e : b = σ.log.length
  · subst e
    rw [upd_self]
    have h1 := hi.cellLe a hab
    have h2 := hc a hab
    refine ⟨?_, ?_⟩
    · rw [Timestamp.le_def]; simp only
      rcases Int.lt_or_le (σ.st a).cellNum σ.cells with h | h
      · exact .inl h
      · have : (σ.st a).cellNum = σ.cells := by omega
        exact .inr ⟨this, by have := h2 this; omega⟩
    · intro h
      rw [h] at h2
      have := h2 rfl
      simp at this
  · rw [upd_ne _ _ e]; exact hi.mono a b hab (by omega)

theorem step_inv {F : Nat} {σ σ' : St} {k k' : K} {s : S} (hi : Inv σ) (hb : CellBase σ k) (h : step F σ k s = some (σ', k')) :
    Inv σ' ∧ CellBase σ' k' ∧ exec F s σ.val = some σ'.val ∧ σ'.log = s :: σ.log := by
  unfold step at h
  split at h
  · cases h
  · next l e hgo =>
    simp only [Option.some.injEq, Prod.mk.injEq] at h
    obtain ⟨rfl, rfl⟩ := h
    obtain ⟨hl, hs⟩ := links_old σ.log.length l { sym := σ.sym } (fun u => u < σ.log.length) (fun y w u hy => .inr (hi.past y w u hy))
      (fun u hu => by cases hu)
    refine ⟨⟨?_, ?_, ?_, ?_, ?_⟩, ⟨?_, hb.older, ?_⟩, go_exec hgo, rfl⟩
    · intro x w t hx
      simp only [List.length_cons]
      dsimp only at hx
      rcases endStmt_cases σ.log.length s e (handleAll σ.log.length { sym := σ.sym } l) x with h | ⟨v, _, h, _⟩
      · rw [h] at hx
        rcases hs _ _ _ hx with h | h <;> omega
      · rw [h] at hx; cases hx; omega
    · intro t ht u hu
      simp only [List.length_cons] at ht
      dsimp only at hu
      by_cases e : t = σ.log.length
      · subst e; rw [upd_self] at hu; exact hl u hu
      · rw [upd_ne _ _ e] at hu; exact hi.dynLe t (by omega) u hu
    · intro t ht u hu
      simp only [List.length_cons] at ht
      dsimp only at hu
      by_cases e : t = σ.log.length
      · subst e; rw [upd_self] at hu
        obtain ⟨y, _, hy⟩ := List.mem_flatMap.1 hu
        obtain ⟨w, hw⟩ := mem_tsOf hy
        have := hb.older _ _ _ hw
        have := hb.start
        omega
      · rw [upd_ne _ _ e] at hu; exact hi.statLe t (by omega) u hu
    · exact fun a b hab hb' => stamps_more hi hb.cells a b hab (by simpa using hb')
    · intro a ha
      simp only [List.length_cons] at ha
      dsimp only
      by_cases e : a = σ.log.length
      · subst e; rw [upd_self]
      · rw [upd_ne _ _ e]; exact hi.cellLe a (by omega)
    · have := hb.start; simp only [List.length_cons]; omega
    · intro a ha hc
      simp only [List.length_cons] at ha
      dsimp only at hc ⊢
      by_cases e : a = σ.log.length
      · subst e; rw [upd_self]; simp only; omega
      · rw [upd_ne _ _ e] at hc ⊢
        have := hb.cells a (by omega) hc
        omega

theorem step_none {F : Nat} {σ : St} {k : K} {s : S} (h : step F σ k s = none) : exec F s σ.val = none := by
  unfold step at h
  rw [← go_map F s true]
  split at h
  · next h' => rw [h']; rfl
  · cases h

theorem endCell_cases (start : Nat) (e : Env) (sym : Syms) (y : Nat) (w : Int) (t : Nat) (h : endCell start e sym y = some (w, t)) :
    ∃ w', sym y = some (w', t) ∧ (w = w' ∨ e y = some w) := by
  unfold endCell at h
  split at h
  · next w' u v h1 h2 =>
    split at h
    · simp only [Option.some.injEq, Prod.mk.injEq] at h; obtain ⟨rfl, rfl⟩ := h; exact ⟨w', h1, .inr h2⟩
    · simp only [Option.some.injEq, Prod.mk.injEq] at h; obtain ⟨rfl, rfl⟩ := h; exact ⟨_, h1, .inl rfl⟩
  · exact ⟨w, h, .inl rfl⟩

theorem goCell_inv (F : Nat) : ∀ (c : List S) (σ : St) (k : K), Inv σ → CellBase σ k → (goCell F σ k c).map (·.val) = runAll F c σ.val ∧
    ∀ σ', goCell F σ k c = some σ' → Inv σ' := by
  intro c
  induction c with
  | nil =>
    intro σ k hi _
    refine ⟨rfl, fun σ' h => ?_⟩
    simp only [goCell, Option.some.injEq] at h
    subst h
    exact ⟨fun x w t hx => by obtain ⟨w', h, _⟩ := endCell_cases _ _ _ _ _ _ hx; exact hi.past _ _ _ h, hi.dynLe, hi.statLe, hi.mono, hi.cellLe⟩
  | cons s r ih =>
    intro σ k hi hb
    simp only [goCell, runAll]
    cases hs : step F σ k s with
    | none => rw [step_none hs]; exact ⟨rfl, fun _ h => by cases h⟩
    | some p =>
      obtain ⟨σ', k'⟩ := p
      obtain ⟨h1, h2, h3, _⟩ := step_inv hi hb hs
      rw [h3]
      exact ih σ' k' h1 h2

theorem base_start {σ : St} (hi : Inv σ) : CellBase { σ with cells := σ.cells + 1 } { sym0 := σ.sym, start := σ.log.length } :=
  ⟨Nat.le_refl _, fun y w t h => hi.past y w t h, fun a ha e => by have := hi.cellLe a ha; simp only at e; omega⟩

theorem inv_cells {σ : St} (h : Inv σ) : Inv { σ with cells := σ.cells + 1 } :=
  ⟨h.past, h.dynLe, h.statLe, h.mono, fun a ha => by have := h.cellLe a ha; dsimp only; omega⟩

theorem inv_start : Inv {} :=
  ⟨fun _ _ _ h => (by cases h), fun _ h => (by cases h), fun _ h => (by cases h), fun _ _ _ h => (by cases h), fun _ h => (by cases h)⟩

theorem run_inv (F : Nat) : ∀ h : List (List S), (run F h).map (·.val) = notebook F h ∧ ∀ σ, run F h = some σ → Inv σ := by
  intro h
  induction h with
  | nil => exact ⟨rfl, fun σ h => by cases h; exact inv_start⟩
  | cons c h ih =>
    obtain ⟨i1, i2⟩ := ih
    simp only [run, notebook]
    rw [← i1]
    cases hr : run F h with
    | none => exact ⟨rfl, fun _ h => by cases h⟩
    | some σ =>
      have hi := i2 σ hr
      exact goCell_inv F c _ _ (inv_cells hi) (base_start hi)

/-- The variables have the values that Python gives them, and a session ends as it does in Python. -/
theorem values_right (F : Nat) (h : List (List S)) : (run F h).map (·.val) = notebook F h := (run_inv F h).1

/-! ### Running statements alone -/

/-- The statements with numbers in `C`, in order. -/
def sel (C : Nat → Prop) [DecidablePred C] : List S → List S
  | [] => []
  | s :: l => sel C l ++ (if C l.length then [s] else [])

theorem runAll_append (F : Nat) : ∀ (p q : List S) (ρ : Env), runAll F (p ++ q) ρ = (runAll F p ρ).bind (runAll F q) := by
  intro p
  induction p with
  | nil => intro q ρ; rfl
  | cons s r ih =>
    intro q ρ
    simp only [List.cons_append, runAll]
    cases exec F s ρ with
    | none => rfl
    | some ρ' => exact ih q ρ'

/-- Run alone, the statements in `C` give the variables that were set in them. -/
def Alone (F : Nat) (C : Nat → Prop) [DecidablePred C] (σ : St) : Prop :=
  ∃ ρ, runAll F (sel C σ.log) (fun _ => none) = some ρ ∧ ∀ x w t, σ.sym x = some (w, t) → C t → ρ x = σ.val x

/-- Running statements alone works for every set that is closed under links. -/
def Good (F : Nat) (σ : St) : Prop :=
  ∀ (C : Nat → Prop) [DecidablePred C], (∀ t, t < σ.log.length → C t → ∀ u, u ∈ σ.dyn t ∨ u ∈ σ.stat t → C u) → Alone F C σ

/-- What holds in a cell that has set `before`, some of them (`loose`) while the tracer was off. -/
structure CellInv (σ : St) (k : K) (before loose : List Nat) : Prop where
  sync : ∀ y w u, σ.sym y = some (w, u) → u < k.start ∨ y ∉ loose → σ.val y = some w
  known : ∀ y, σ.val y ≠ none ↔ σ.sym y ≠ none
  same : ∀ y, y ∉ before → σ.sym y = k.sym0 y
  loose : ∀ y ∈ loose, y ∈ before
  dead : ∀ y ∈ k.dead, y ∈ before

/-- What is left of the tracer's knowledge about a variable after a statement. -/
theorem sym_after {F : Nat} {σ : St} {k : K} {before loose : List Nat} {s : S} {l : List Ev} {e : Env}
    (hk : CellInv σ k before loose) (hgo : go F s true σ.val = some (l, e)) (hp : Plain before loose s l) (y : Nat) :
    let sym' := endStmt σ.log.length s e (handleAll σ.log.length { sym := σ.sym } l)
    -- set under the tracer
    (y ∈ seenSet l ∧ ∃ w, sym' y = some (w, σ.log.length) ∧ (y ∉ unseenSet l → e y = some w)) ∨
    -- set while it was off, which was found out
    (y ∉ seenSet l ∧ y ∈ written l ∧ ∃ w, sym' y = some (w, σ.log.length) ∧ e y = some w) ∨
    -- set while it was off to the value that it had
    (y ∉ seenSet l ∧ y ∈ written l ∧ ∃ w u, sym' y = some (w, u) ∧ σ.sym y = some (w, u) ∧ e y = some w ∧ σ.val y = some w) ∨
    -- not set, but a difference was found
    (y ∉ written l ∧ y ∈ loose ∧ y ∈ noted l ∧ ∃ w, sym' y = some (w, σ.log.length) ∧ e y = some w ∧ e y = σ.val y) ∨
    (y ∉ written l ∧ sym' y = σ.sym y ∧ e y = σ.val y) := by
  intro sym'
  obtain ⟨p1, p2, p3, p4⟩ := hp
  have hsim := go_sim F s true σ.val l e hgo
  have hplay := go_play F s true σ.val l e hgo
  by_cases hs : y ∈ seenSet l
  · left
    refine ⟨hs, ?_⟩
    obtain ⟨w, hw⟩ := handle_seen σ.log.length l { sym := σ.sym } y (.inr hs)
    rcases endStmt_cases σ.log.length s e (handleAll σ.log.length { sym := σ.sym } l) y with h | ⟨v, hv, h, _⟩
    · refine ⟨w, by show endStmt _ _ _ _ _ = _; rw [h, hw], fun hu => ?_⟩
      rw [← hplay]
      by_cases hyl : y ∈ loose
      · -- the value recorded is that of the last assignment
        have : ∀ (l : List Ev) (a : Acc) (e : Env), y ∈ seenSet l → y ∉ unseenSet l → touched l = [] →
            ∀ w u, (handleAll σ.log.length a l).sym y = some (w, u) → play e l y = some w := by
          intro l
          induction l with
          | nil => intro a e h; cases h
          | cons x r ih =>
            intro a e h1 h2 h3
            rw [handleAll_cons]
            cases x with
            | rd z => exact ih _ e h1 h2 h3
            | nt z => exact ih _ e h1 h2 h3
            | iter => exact ih _ e h1 h2 h3
            | touch z v =>
              cases v with
              | none => exact ih _ e h1 h2 h3
              | some v => simp [touched] at h3
            | wr b z v =>
              cases b with
              | false =>
                simp only [unseenSet, List.mem_cons, not_or] at h2
                exact ih _ _ h1 h2.2 h3
              | true =>
                by_cases e' : y = z
                · subst e'
                  refine handle_sync _ r _ _ y h2 h3 fun w u hw => ?_
                  simp only [handle, upd_self] at hw ⊢
                  cases hw; rfl
                · simp only [seenSet, List.mem_cons, e', false_or] at h1
                  exact ih _ _ h1 h2 h3
        exact this l _ _ hs hu p4 w _ hw
      · exact handle_sync _ l _ _ y hu p4 (fun w u h => hk.sync y w u h (.inr hyl)) w _ hw
    · exact ⟨v, h, fun _ => hv⟩
  · right
    have hsym : (handleAll σ.log.length { sym := σ.sym } l).sym y = σ.sym y := handle_other σ.log.length l { sym := σ.sym } y hs p4
    by_cases hw : y ∈ written l
    · have hun : y ∈ unseenSet l := ((written_split l y).1 hw).resolve_left hs
      obtain ⟨hn, hl⟩ := (p2 y hw).resolve_left hs
      have hoff := off_mono σ.log.length l { sym := σ.sym } (.inr (go_iter F s _ _ _ hgo y hun))
      have hlive : y ∈ (ana [] s).1 := ((ana_sound F s true _ _ _ hgo []).1 y hn).resolve_left (by simp)
      obtain ⟨⟨w, u⟩, hwu⟩ := Option.ne_none_iff_exists'.1 ((hk.known y).1 (hsim.bound y hn))
      have hval := hk.sync y w u hwu (.inr hl)
      have hev : ∃ v, e y = some v := by
        obtain ⟨ρ', h1, h2, _⟩ := hsim.like σ.val fun _ _ => rfl
        clear h1 h2
        have : ∀ (l : List Ev) (e : Env), y ∈ written l → ∃ v, play e l y = some v := by
          have h0 : ∀ (l : List Ev) (e : Env), (∃ v, e y = some v) → ∃ v, play e l y = some v := by
            intro l
            induction l with
            | nil => intro e h; exact h
            | cons x r ih =>
              intro e h
              cases x with
              | wr b z v =>
                refine ih _ ?_
                by_cases e' : y = z
                · exact ⟨v, by rw [e', upd_self]⟩
                · rw [upd_ne _ _ e']; exact h
              | _ => exact ih _ h
          intro l
          induction l with
          | nil => intro e h; cases h
          | cons x r ih =>
            intro e h
            cases x with
            | wr b z v =>
              by_cases e' : y = z
              · exact h0 r _ ⟨v, by rw [e', upd_self]⟩
              · simp only [written, List.mem_cons, e', false_or] at h; exact ih _ h
            | _ => exact ih _ h
        rw [← hplay]; exact this l _ hw
      obtain ⟨v, hv⟩ := hev
      by_cases hne : w = v
      · subst hne
        right; left
        refine ⟨hs, hw, w, u, ?_, hwu, hv, hval⟩
        rcases endStmt_cases σ.log.length s e (handleAll σ.log.length { sym := σ.sym } l) y with h | ⟨v', hv', h, h'⟩
        · show endStmt _ _ _ _ _ = _; rw [h, hsym]; exact hwu
        · exfalso
          rw [hv] at hv'; cases hv'
          rcases h' with ⟨w', u', h1, h2, _⟩ | ⟨h1, _⟩
          · rw [hsym, hwu] at h1; cases h1; exact h2 rfl
          · rw [hsym, hwu] at h1; cases h1
      · left
        exact ⟨hs, hw, v, endStmt_fresh hoff hlive (by rw [hsym]; exact hwu) hv hne, hv⟩
    · right; right
      have hev : e y = σ.val y := hsim.same y hw
      rcases endStmt_cases σ.log.length s e (handleAll σ.log.length { sym := σ.sym } l) y with h | ⟨v, hv, h, h'⟩
      · right; exact ⟨hw, by show endStmt _ _ _ _ _ = _; rw [h, hsym], hev⟩
      · left
        have hd : y ∉ (ana [] s).2 := fun hd => ((ana_sound F s true _ _ _ hgo []).2 y hd).elim (by simp) hw
        rcases h' with ⟨w, u, h1, h2, h3⟩ | ⟨_, h2⟩
        · have hl : y ∈ loose := by
            by_contra hl
            rw [hsym] at h1
            have := hk.sync y w u h1 (.inr hl)
            rw [← hev, hv] at this; cases this; exact h2 rfl
          have huse := ana_uses s [] y (h3.resolve_right hd)
          exact ⟨hw, hl, (p3 y huse hl).resolve_right hw, v, h, hv, hev⟩
        · exact absurd h2 hd


/-- A statement of which the tracer misses nothing that matters. -/
theorem step_ok {F : Nat} {σ σ' : St} {k k' : K} {before loose : List Nat} {s : S} {l : List Ev} {e : Env} (hi : Inv σ) (hb : CellBase σ k)
    (hk : CellInv σ k before loose) (hgo : go F s true σ.val = some (l, e)) (hp : Plain before loose s l) (hg : Good F σ)
    (h : step F σ k s = some (σ', k')) : CellInv σ' k' (written l ++ before) (unseenSet l ++ loose) ∧ Good F σ' := by
  unfold step at h
  rw [hgo] at h
  simp only [Option.some.injEq, Prod.mk.injEq] at h
  obtain ⟨rfl, rfl⟩ := h
  have hsim := go_sim F s true σ.val l e hgo
  have key := sym_after hk hgo hp
  have hana := ana_sound F s true _ _ _ hgo
  refine ⟨⟨?_, ?_, ?_, ?_, ?_⟩, ?_⟩
  · intro y w u hy hc
    dsimp only at hy hc ⊢
    rcases key y with ⟨_, w', h1, h2⟩ | ⟨_, _, w', h1, h2⟩ | ⟨_, _, w', u', h1, _, h2, _⟩ | ⟨_, _, _, w', h1, h2, _⟩ | ⟨hw, h1, h2⟩
    · rw [h1] at hy; cases hy
      rcases hc with hc | hc
      · have := hb.start; omega
      · exact h2 fun hu => hc (List.mem_append.2 (.inl hu))
    · rw [h1] at hy; cases hy; exact h2
    · rw [h1] at hy; cases hy; exact h2
    · rw [h1] at hy; cases hy; exact h2
    · rw [h1] at hy; rw [h2]
      exact hk.sync y w u hy (hc.imp id fun hc hl => hc (List.mem_append.2 (.inr hl)))
  · intro y
    dsimp only
    rcases key y with ⟨hs, w', h1, _⟩ | ⟨_, _, w', h1, h2⟩ | ⟨_, _, w', u', h1, _, h2, _⟩ | ⟨_, _, _, w', h1, h2, _⟩ | ⟨hw, h1, h2⟩
    · refine ⟨fun _ => by rw [h1]; simp, fun _ => ?_⟩
      have : ∀ (l : List Ev) (e : Env), y ∈ seenSet l ∨ e y ≠ none → play e l y ≠ none := by
        intro l
        induction l with
        | nil => intro e h; exact h.resolve_left (by simp [seenSet])
        | cons x r ih =>
          intro e h
          cases x with
          | wr b z v =>
            refine ih _ ?_
            by_cases e' : y = z
            · exact .inr (by rw [e', upd_self]; simp)
            · rw [upd_ne _ _ e']
              cases b
              · simpa [seenSet] using h
              · simpa [seenSet, e'] using h
          | _ => exact ih _ h
      rw [← go_play F s true σ.val l e hgo]
      exact this l _ (.inl hs)
    · rw [h1, h2]; simp
    · rw [h1, h2]; simp
    · rw [h1, h2]; simp
    · rw [h1, h2]; exact hk.known y
  · intro y hy
    rw [List.mem_append, not_or] at hy
    dsimp only
    rcases key y with ⟨hs, _⟩ | ⟨_, hw, _⟩ | ⟨_, hw, _⟩ | ⟨_, hl, _⟩ | ⟨_, h1, _⟩
    · exact absurd ((written_split l y).2 (.inl hs)) hy.1
    · exact absurd hw hy.1
    · exact absurd hw hy.1
    · exact absurd (hk.loose y hl) hy.2
    · rw [h1]; exact hk.same y hy.2
  · intro y hy
    rcases List.mem_append.1 hy with hy | hy
    · exact List.mem_append.2 (.inl ((written_split l y).2 (.inr hy)))
    · exact List.mem_append.2 (.inr (hk.loose y hy))
  · intro y hy
    rcases (hana k.dead).2 y hy with hy | hy
    · exact List.mem_append.2 (.inr (hk.dead y hy))
    · exact List.mem_append.2 (.inl hy)
  · intro C _ hC
    have hold : ∀ t, t < σ.log.length → C t → ∀ u, u ∈ σ.dyn t ∨ u ∈ σ.stat t → C u := by
      intro t ht hct u hu
      refine hC t (by simp only [List.length_cons]; omega) hct u ?_
      dsimp only
      rw [upd_ne _ _ (by omega), upd_ne _ _ (by omega)]; exact hu
    obtain ⟨ρ, h1, h2⟩ := hg C hold
    by_cases hn : C σ.log.length
    · have hlinks : ∀ u, u ∈ (handleAll σ.log.length { sym := σ.sym } l).links ∨ u ∈ statLinks k s → C u := by
        intro u hu
        refine hC σ.log.length (by simp) hn u ?_
        dsimp only
        rw [upd_self, upd_self]; exact hu
      have hnote : ∀ y w u, y ∈ noted l → σ.sym y = some (w, u) → C u := fun y w u hy hs =>
        hlinks u (.inl (links_noted _ l { sym := σ.sym } y w u hp.2.2.2 hy hs (by have := hi.past _ _ _ hs; omega)))
      have hneed : ∀ y ∈ needs l, ρ y = σ.val y := by
        intro y hy
        obtain ⟨⟨w, u⟩, hwu⟩ := Option.ne_none_iff_exists'.1 ((hk.known y).1 (hsim.bound y hy))
        refine h2 y w u hwu ?_
        by_cases hbe : y ∈ before
        · exact hnote y w u (hp.1 y hy hbe) hwu
        · refine hlinks u (.inr (List.mem_flatMap.2 ⟨y, ?_, ?_⟩))
          · exact ((hana k.dead).1 y hy).resolve_left fun hd => hbe (hk.dead y hd)
          · rw [hk.same y hbe] at hwu; simp [tsOf, hwu]
      obtain ⟨ρ', h3, h4, h5⟩ := hsim.like ρ hneed
      refine ⟨ρ', ?_, ?_⟩
      · show runAll F (sel C σ.log ++ (if C σ.log.length then [s] else [])) _ = _
        rw [runAll_append, h1, if_pos hn]
        simp only [Option.bind_some, runAll, h3]
      · intro y w t hy hct
        dsimp only at hy ⊢
        by_cases hw : y ∈ written l
        · exact h4 y hw
        · rw [h5 y hw]
          rcases key y with ⟨hs, _⟩ | ⟨_, hw', _⟩ | ⟨_, hw', _⟩ | ⟨_, _, hno, w', _, he, hv⟩ | ⟨_, h6, h7⟩
          · exact absurd ((written_split l y).2 (.inl hs)) hw
          · exact absurd hw' hw
          · exact absurd hw' hw
          · rw [hv]
            have hvn : σ.val y ≠ none := by rw [← hv, he]; simp
            obtain ⟨⟨w₀, u₀⟩, hwu⟩ := Option.ne_none_iff_exists'.1 ((hk.known y).1 hvn)
            exact h2 y w₀ u₀ hwu (hnote y w₀ u₀ hno hwu)
          · rw [h7]; rw [h6] at hy; exact h2 y w t hy hct
    · refine ⟨ρ, ?_, ?_⟩
      · show runAll F (sel C σ.log ++ (if C σ.log.length then [s] else [])) _ = _
        rw [if_neg hn, List.append_nil]; exact h1
      · intro y w t hy hct
        dsimp only at hy ⊢
        rcases key y with ⟨_, w', h6, _⟩ | ⟨_, _, w', h6, _⟩ | ⟨_, _, w', u', h6, h7, h8, h9⟩ | ⟨_, _, _, w', h6, _⟩ | ⟨_, h6, h7⟩
        · rw [h6] at hy; cases hy; exact absurd hct hn
        · rw [h6] at hy; cases hy; exact absurd hct hn
        · rw [h6] at hy; cases hy
          rw [h8, ← h9]; exact h2 y _ _ h7 hct
        · rw [h6] at hy; cases hy; exact absurd hct hn
        · rw [h6] at hy; rw [h7]; exact h2 y w t hy hct

/-- Between cells, the tracer has the right values. -/
structure Settled (σ : St) : Prop where
  sync : ∀ y w u, σ.sym y = some (w, u) → σ.val y = some w
  known : ∀ y, σ.val y ≠ none ↔ σ.sym y ≠ none

theorem goCell_ok (F : Nat) : ∀ (c : List S) (σ σ' : St) (k : K) (before loose : List Nat), Inv σ → CellBase σ k → CellInv σ k before loose → Good F σ →
    PlainCell F σ.val before loose c → goCell F σ k c = some σ' → Settled σ' ∧ Good F σ' := by
  intro c
  induction c with
  | nil =>
    intro σ σ' k before loose hi hb hk hg _ h
    simp only [goCell, Option.some.injEq] at h
    subst h
    refine ⟨⟨fun y w u hy => ?_, fun y => ?_⟩, fun C _ hC => ?_⟩
    · dsimp only at hy ⊢
      unfold endCell at hy
      split at hy
      · next w' u' v h1 h2 =>
        split at hy
        · cases hy; exact h2
        · next hlt => cases hy; exact hk.sync _ _ _ h1 (.inl (by omega))
      · next hno =>
        have hvn := (hk.known y).2 (by rw [hy]; simp)
        obtain ⟨v, hv⟩ := Option.ne_none_iff_exists'.1 hvn
        exact absurd hv (hno w u v hy)
    · dsimp only
      rw [hk.known y]
      unfold endCell
      split
      · next h1 h2 => rw [h1]; split <;> simp
      · exact Iff.rfl
    · obtain ⟨ρ, h1, h2⟩ := hg C hC
      refine ⟨ρ, h1, fun x w t hx hct => ?_⟩
      obtain ⟨w', hx', _⟩ := endCell_cases _ _ _ _ _ _ hx
      exact h2 x w' t hx' hct
  | cons s r ih =>
    intro σ σ' k before loose hi hb hk hg hp h
    simp only [goCell] at h
    cases hs : step F σ k s with
    | none => rw [hs] at h; cases h
    | some p =>
      obtain ⟨σ₁, k₁⟩ := p
      rw [hs] at h
      obtain ⟨i1, i2, i3, _⟩ := step_inv hi hb hs
      cases hgo : go F s true σ.val with
      | none => unfold step at hs; rw [hgo] at hs; cases hs
      | some q =>
        obtain ⟨l, e⟩ := q
        simp only [PlainCell, hgo] at hp
        obtain ⟨j1, j2⟩ := step_ok hi hb hk hgo hp.1 hg hs
        have he : σ₁.val = e := by
          have := go_exec hgo
          rw [i3] at this; cases this; rfl
        refine ih σ₁ σ' k₁ _ _ i1 i2 j1 j2 ?_ h
        rw [he]; exact hp.2

theorem run_ok (F : Nat) : ∀ (h : List (List S)) (σ : St), PlainAll F h → run F h = some σ → Settled σ ∧ Good F σ := by
  intro h
  induction h with
  | nil =>
    intro σ _ hr
    cases hr
    exact ⟨⟨fun _ _ _ h => (by cases h), fun y => ⟨fun h => absurd rfl h, fun h => absurd rfl h⟩⟩, fun C _ _ => ⟨_, rfl, fun _ _ _ h => (by cases h)⟩⟩
  | cons c h ih =>
    intro σ hp hr
    simp only [run] at hr
    cases h1 : run F h with
    | none => rw [h1] at hr; cases hr
    | some σ₀ =>
      rw [h1] at hr
      obtain ⟨i1, i2⟩ := run_inv F h
      have hi := i2 σ₀ h1
      obtain ⟨hs, hg⟩ := ih σ₀ hp.2 h1
      have hn : notebook F h = some σ₀.val := by rw [← i1, h1]; rfl
      refine goCell_ok F c _ σ _ [] [] (inv_cells hi) (base_start hi) ⟨?_, hs.known, fun _ _ => rfl, fun _ h => (by cases h), fun _ h => (by cases h)⟩
        hg (hp.1 _ hn) hr
      intro y w u hy _
      exact hs.sync y w u hy

/-! ### The code -/

theorem sel_text (C : List Nat) (hs : C.Pairwise (· < ·)) : ∀ (log : List S),
    sel (fun t => t ∈ C) log = (C.filter (· < log.length)).filterMap (fun t => log.reverse[t]?) := by
  intro log
  induction log with
  | nil => simp [sel]
  | cons s l ih =>
    have key : C.filter (· < (s :: l).length) = C.filter (· < l.length) ++ (if l.length ∈ C then [l.length] else []) := by
      clear ih
      induction C with
      | nil => simp
      | cons a r ihr =>
        have hr := (List.pairwise_cons.1 hs)
        have ihr := ihr hr.2
        simp only [List.length_cons] at ihr ⊢
        rcases Nat.lt_trichotomy a l.length with h | h | h
        · rw [List.filter_cons_of_pos (by simp; omega), List.filter_cons_of_pos (by simp; omega), ihr]
          simp only [List.mem_cons, List.cons_append, show ¬ l.length = a from by omega, false_or]
        · subst h
          rw [List.filter_cons_of_pos (by simp), List.filter_cons_of_neg (by simp), ihr]
          have h1 : l.length ∉ r := fun hm => by have := hr.1 _ hm; omega
          have h2 : r.filter (· < l.length) = [] := by
            rw [List.filter_eq_nil_iff]; intro b hb; have := hr.1 b hb; simp; omega
          simp [h1, h2]
        · rw [List.filter_cons_of_neg (by simp; omega), List.filter_cons_of_neg (by simp; omega), ihr]
          simp only [List.mem_cons, show ¬ l.length = a from by omega, false_or]
    rw [key, List.filterMap_append]
    unfold sel
    rw [ih]
    congr 1
    · refine List.filterMap_congr fun t ht => ?_
      have : t < l.length := by simpa using (List.mem_filter.1 ht).2
      simp only [List.reverse_cons]
      rw [List.getElem?_append_left (by simpa using this)]
    · split
      · simp
      · rfl

theorem reach_le {edges stat : Nat → List Nat} {time : Nat} (h1 : ∀ t, t < time → ∀ u ∈ edges t, u < t)
    (h2 : ∀ t, t < time → ∀ u ∈ stat t, u < t) {s t : Nat} (hs : s < time) (h : Slice.Order.Reach edges stat s t) : t ≤ s := by
  induction h with
  | refl => exact Nat.le_refl _
  | step _ hl ih =>
    rcases hl with hl | hl
    · have := h1 _ (by omega) _ hl; omega
    · have := h2 _ (by omega) _ hl; omega

/-- If the tracer knows the variable, its code exists, and its statements are those that the links lead to. -/
theorem code_ok {σ : St} (hi : Inv σ) {x : Nat} {w : Int} {t : Nat} (hx : σ.sym x = some (w, t)) :
    ∃ C, code σ x = .ok C ∧ C.Pairwise (· < ·) ∧ ∀ c, c ∈ C ↔ Slice.Order.Reach σ.dyn σ.stat t c := by
  obtain ⟨C, h1, h2, h3⟩ := Slice.Order.slice_ok σ.log.length σ.st σ.dyn σ.stat hi.mono
    (fun t ht u hu => Nat.le_of_lt (hi.dynLe t ht u hu)) (fun t ht u hu => Nat.le_of_lt (hi.statLe t ht u hu)) [t]
    (fun u hu => by simp only [List.mem_singleton] at hu; subst hu; exact hi.past x w u hx)
  refine ⟨C, ?_, h2, fun c => ?_⟩
  · unfold code; rw [hx]; exact h1
  · rw [h3]; simp

theorem code_alone {F : Nat} {σ : St} (hi : Inv σ) (hg : Good F σ) {x : Nat} {w : Int} {t : Nat} (hx : σ.sym x = some (w, t)) :
    ∃ C ρ, code σ x = .ok C ∧ runAll F (text σ C) (fun _ => none) = some ρ ∧ ρ x = σ.val x := by
  obtain ⟨C, h1, h2, h3⟩ := code_ok hi hx
  have ht := hi.past x w t hx
  obtain ⟨ρ, hr, ha⟩ := hg (fun t => t ∈ C) (fun a _ ha u hu => (h3 u).2 (.step ((h3 a).1 ha) hu))
  refine ⟨C, ρ, h1, ?_, ha x w t hx ((h3 t).2 (.refl t))⟩
  rw [sel_text C h2] at hr
  have hf : C.filter (· < σ.log.length) = C := by
    rw [List.filter_eq_self]
    intro a ha
    have := reach_le hi.dynLe hi.statLe ht ((h3 a).1 ha)
    simp; omega
  rw [hf] at hr
  exact hr

/-- `code` gives a program that, run on its own, gives the variable its value, as long as what the tracer misses of loops makes no difference.
Missing: loops where it does (`later_iteration_lost`, `later_iteration_unknown` and the examples in `Witness`). -/
theorem code_runs_alone_partial (F : Nat) (h : List (List S)) (hp : PlainAll F h) (ρ₀ : Env) (hn : notebook F h = some ρ₀) (x : Nat) (v : Int)
    (hx : ρ₀ x = some v) :
    ∃ σ C ρ, run F h = some σ ∧ code σ x = .ok C ∧ runAll F (text σ C) (fun _ => none) = some ρ ∧ ρ x = some v := by
  have hv := values_right F h
  rw [hn] at hv
  obtain ⟨σ, hr, rfl⟩ := Option.map_eq_some_iff.1 hv
  obtain ⟨hs, hg⟩ := run_ok F h σ hp hr
  obtain ⟨⟨w, t⟩, hw⟩ := Option.ne_none_iff_exists'.1 ((hs.known x).1 (by rw [hx]; simp))
  obtain ⟨C, ρ, h1, h2, h3⟩ := code_alone ((run_inv F h).2 σ hr) hg hw
  exact ⟨σ, C, ρ, hr, h1, h2, by rw [h3, hx]⟩

/-! ### Without loops -/

theorem noLoop_plain (F : Nat) : ∀ (s : S) (e : Env) (l : List Ev) (e' : Env), NoLoop s → go F s true e = some (l, e') →
    (∀ y ∈ needs l, y ∈ noted l) ∧ unseenSet l = [] ∧ touched l = [] := by
  intro s
  induction s with
  | pass =>
    intro e l e' _ h
    simp only [go, Option.some.injEq, Prod.mk.injEq] at h
    obtain ⟨rfl, rfl⟩ := h
    exact ⟨fun _ h => (by cases h), rfl, rfl⟩
  | set x c ys =>
    intro e l e' _ h
    simp only [go] at h
    split at h
    · cases h
    · next n hn =>
      simp only [Option.some.injEq, Prod.mk.injEq] at h
      obtain ⟨rfl, rfl⟩ := h
      refine ⟨fun y hy => ?_, ?_, ?_⟩
      · rw [needs_append, (needs_reads ys).1, mem_needs_quiet (quiet_seen (quiet_nt ys))] at hy
        rcases hy with hy | ⟨hy, _⟩
        · rw [noted_append, noted_append, (needs_reads ys).2]
          refine .inr ⟨.inl ?_, by simp⟩
          have : ∀ ys : List Nat, noted (ys.map .nt) = ys := by
            intro ys
            induction ys with
            | nil => rfl
            | cons y r ih => simp [noted, ih]
          show y ∈ noted (seen true (ys.map .nt))
          simp only [seen, if_true]
          rw [this]; exact hy
        · simp [needs] at hy
      · rw [unseenSet_append, unseen_map_rd, unseenSet_append, unseen_seen_nil (unseen_map_nt ys)]; rfl
      · have h1 : ∀ ys : List Nat, touched (ys.map .rd) = [] := by
          intro ys
          induction ys with
          | nil => rfl
          | cons y r ih => exact ih
        have h2 : ∀ ys : List Nat, touched (ys.map .nt) = [] := by
          intro ys
          induction ys with
          | nil => rfl
          | cons y r ih => exact ih
        rw [touched_append, touched_append, h1]
        simp only [seen, if_true, h2]; rfl
  | seq a b iha ihb =>
    intro e l e' hl h
    simp only [go] at h
    split at h
    · cases h
    · next l₁ e₁ h₁ =>
      split at h
      · cases h
      · next l₂ e₂ h₂ =>
        simp only [Option.some.injEq, Prod.mk.injEq] at h
        obtain ⟨rfl, rfl⟩ := h
        obtain ⟨a1, a2, a3⟩ := iha _ _ _ hl.1 h₁
        obtain ⟨b1, b2, b3⟩ := ihb _ _ _ hl.2 h₂
        refine ⟨fun y hy => ?_, by rw [unseenSet_append, a2, b2]; rfl, by rw [touched_append, a3, b3]; rfl⟩
        rw [noted_append]
        rcases (needs_append _ _ y).1 hy with hy | ⟨hy, hw⟩
        · exact .inl (a1 y hy)
        · exact .inr ⟨b1 y hy, hw⟩
  | ite z a b iha ihb =>
    intro e l e' hl h
    simp only [go] at h
    split at h
    · cases h
    · next v hv =>
      split at h
      · cases h
      · next l₁ e₁ h₁ =>
        simp only [Option.some.injEq, Prod.mk.injEq] at h
        obtain ⟨rfl, rfl⟩ := h
        have key : (∀ y ∈ needs l₁, y ∈ noted l₁) ∧ unseenSet l₁ = [] ∧ touched l₁ = [] := by
          by_cases h0 : v = 0
          · rw [if_pos h0] at h₁; exact ihb _ _ _ hl.2 h₁
          · rw [if_neg h0] at h₁; exact iha _ _ _ hl.1 h₁
        refine ⟨fun y hy => ?_, key.2.1, key.2.2⟩
        simp only [seen, if_true, List.cons_append, List.nil_append, needs, noted, List.mem_cons] at hy ⊢
        exact hy.imp id (key.1 y)
  | for_ i z b ih => intro e l e' hl; exact hl.elim
  | while_ z b ih => intro e l e' hl; exact hl.elim

theorem noLoop_cell (F : Nat) : ∀ (c : List S) (e : Env) (before : List Nat), (∀ s ∈ c, NoLoop s) → PlainCell F e before [] c := by
  intro c
  induction c with
  | nil => intro e before _; trivial
  | cons s r ih =>
    intro e before h
    simp only [PlainCell]
    cases hgo : go F s true e with
    | none => trivial
    | some p =>
      obtain ⟨l, e'⟩ := p
      obtain ⟨h1, h2, h3⟩ := noLoop_plain F s e l e' (h s (by simp)) hgo
      refine ⟨⟨fun y hy _ => h1 y hy, fun x hx => ?_, fun _ _ h => (by cases h), h3⟩, ?_⟩
      · rcases (written_split l x).1 hx with h | h
        · exact .inl h
        · rw [h2] at h; cases h
      · rw [h2]
        exact ih e' _ fun s hs => h s (by simp [hs])

/-- For assignments and branches, in any order and nested in any way, `code` gives a program that, run on its own, gives the variable its value. -/
theorem branches_run_alone (F : Nat) (h : List (List S)) (hl : ∀ c ∈ h, ∀ s ∈ c, NoLoop s) (ρ₀ : Env) (hn : notebook F h = some ρ₀) (x : Nat) (v : Int)
    (hx : ρ₀ x = some v) :
    ∃ σ C ρ, run F h = some σ ∧ code σ x = .ok C ∧ runAll F (text σ C) (fun _ => none) = some ρ ∧ ρ x = some v := by
  refine code_runs_alone_partial F h ?_ ρ₀ hn x v hx
  clear hn hx
  induction h with
  | nil => trivial
  | cons c h ih => exact ⟨fun e _ => noLoop_cell F c e [] (hl c (by simp)), ih fun c hc => hl c (by simp [hc])⟩

/-! ### With loops -/

theorem go_for {F : Nat} {i y : Nat} {b : S} {tr : Bool} {e e₁ e₂ : Env} {n v : Int} {r : List Int} {l l' : List Ev} (hn : e y = some n)
    (hr : range n = v :: r) (h1 : go F b tr (upd e i (some v)) = some (l, e₁)) (h2 : forLoop (go F b false) i r e₁ = some (l', e₂)) :
    go F (.for_ i y b) tr e = some (.rd y :: (seen tr [.nt y] ++ (.wr tr i v :: (l ++ (seen tr [.iter] ++ l')))), e₂) := by
  simp only [go, hn, hr, h1, h2]

theorem go_if (F : Nat) (i x : Nat) (c : Int) (tr : Bool) (e : Env) (v : Int) : go F (.ite i (.set x c []) .pass) tr (upd e i (some v)) =
    if v = 0 then some (.rd i :: (seen tr [.nt i] ++ []), upd e i (some v))
    else some (.rd i :: (seen tr [.nt i] ++ (([] : List Nat).map .rd ++ (seen tr (([] : List Nat).map .nt) ++ [.wr tr x (c + 0)]))),
      upd (upd e i (some v)) x (some (c + 0))) := by
  simp only [go, upd_self, total]
  by_cases h0 : v = 0
  · simp only [h0, if_true]
  · simp only [h0, if_false]

/-- `for i in range(n): if i: x = c`. -/
theorem loop_tail (F : Nat) (i x : Nat) (c : Int) : ∀ (vs : List Int) (e : Env), (∀ v ∈ vs, v ≠ 0) → ∃ l e',
    forLoop (go F (.ite i (.set x c []) .pass) false) i vs e = some (l, e') ∧ touched l = [] ∧ seenSet l = [] ∧ (vs ≠ [] → e' x = some c) ∧
    (vs = [] → e' = e) := by
  intro vs
  induction vs with
  | nil => intro e _; exact ⟨[], e, rfl, rfl, rfl, fun h => absurd rfl h, fun _ => rfl⟩
  | cons v r ih =>
    intro e hv
    have h0 : v ≠ 0 := hv v (by simp)
    obtain ⟨l, e', h1, h2, h3, h4, h5⟩ := ih (upd (upd e i (some v)) x (some (c + 0))) fun w hw => hv w (by simp [hw])
    refine ⟨.wr false i v :: (.rd i :: (seen false [.nt i] ++ (([] : List Nat).map .rd ++ (seen false (([] : List Nat).map .nt) ++
      [.wr false x (c + 0)]))) ++ l), e', ?_, ?_, ?_, fun _ => ?_, fun h => by cases h⟩
    · have hb := go_if F i x c false e v
      rw [if_neg h0] at hb
      simp only [forLoop, hb, h1]
    · simpa [touched, seen] using h2
    · simpa [seenSet, seen] using h3
    · cases r with
      | nil => rw [h5 rfl, upd_self]; simp
      | cons w r' => exact h4 (by simp)

/-- The code for `x` is still the one from before the loop, however often the loop is run. -/
theorem loop_state (F : Nat) (σ : St) (hi : Inv σ) (i n x : Nat) (c m : Int) (hix : i ≠ x) (hnx : n ≠ x) (hn : σ.val n = some m) (hm : 2 ≤ m) :
    ∃ σ', runCell F σ [.for_ i n (.ite i (.set x c []) .pass)] = some σ' ∧ σ'.val x = some c ∧ σ'.log = .for_ i n (.ite i (.set x c []) .pass) :: σ.log ∧
      (∀ t, t ≠ σ.log.length → σ'.dyn t = σ.dyn t ∧ σ'.stat t = σ.stat t) ∧ (∀ w t, σ.sym x = some (w, t) → σ'.sym x = some (w, t)) ∧
      (σ.sym x = none → σ'.sym x = none) := by
  obtain ⟨k, rfl⟩ : ∃ k : Nat, m = Int.ofNat (k + 2) := ⟨m.toNat - 2, by simp only [Int.ofNat_eq_natCast]; omega⟩
  have hr : range (Int.ofNat (k + 2)) = 0 :: (List.range (k + 1)).map (fun j => Int.ofNat (j + 1)) := by
    simp only [range, Int.ofNat_eq_natCast, Int.toNat_natCast, List.range_succ_eq_map (n := k + 1), List.map_cons, List.map_map]
    rfl
  obtain ⟨l, e', h1, h2, h3, h4, _⟩ := loop_tail F i x c ((List.range (k + 1)).map (fun j => Int.ofNat (j + 1))) (upd σ.val i (some 0)) (by
    intro v hv
    obtain ⟨j, _, rfl⟩ := List.mem_map.1 hv
    simp only [Int.ofNat_eq_natCast]; omega)
  have hgo : ∃ l', go F (.for_ i n (.ite i (.set x c []) .pass)) true σ.val = some (l', e') ∧ touched l' = [] ∧ seenSet l' = [i] := by
    refine ⟨.rd n :: ([.nt n] ++ (.wr true i 0 :: ((.rd i :: ([.nt i] ++ [])) ++ ([.iter] ++ l)))), ?_, ?_, ?_⟩
    · have hb := go_if F i x c true σ.val 0
      rw [if_pos rfl] at hb
      exact go_for hn hr hb h1
    · simpa [touched] using h2
    · simpa [seenSet] using h3
  obtain ⟨l', hgo, ht', hs'⟩ := hgo
  have hsym : endStmt σ.log.length (.for_ i n (.ite i (.set x c []) .pass)) e' (handleAll σ.log.length { sym := σ.sym } l') x = σ.sym x := by
    have ho : (handleAll σ.log.length { sym := σ.sym } l').sym x = σ.sym x :=
      handle_other σ.log.length l' { sym := σ.sym } x (by rw [hs']; simp [Ne.symm hix]) ht'
    rcases endStmt_cases σ.log.length (.for_ i n (.ite i (.set x c []) .pass)) e' (handleAll σ.log.length { sym := σ.sym } l') x with
      h | ⟨v, _, _, ⟨w, u, _, _, h⟩ | ⟨_, h⟩⟩
    · rw [h, ho]
    · exfalso
      rcases h with h | h
      · simp [ana] at h; exact hnx h.symm
      · simp [ana] at h
    · exfalso; simp [ana] at h
  refine ⟨_, (by simp only [runCell, goCell, step, hgo]; rfl), ?_, rfl, ?_, ?_, ?_⟩
  · exact h4 (by simp)
  · intro t ht
    dsimp only
    exact ⟨upd_ne _ _ ht, upd_ne _ _ ht⟩
  · intro w t hx
    have hlt := hi.past x w t hx
    dsimp only
    unfold endCell
    rw [hsym, hx]
    cases e' x with
    | none => rfl
    | some v => simp only [if_neg (show ¬ σ.log.length ≤ t from by omega)]
  · intro hx
    dsimp only
    unfold endCell
    rw [hsym, hx]

/-- `for i in range(n): if i: x = c` sets `x` only in later iterations. The variable has its new value, and `code` gives a program that gives it the
value from before. -/
theorem later_iteration_lost (F : Nat) (h : List (List S)) (hp : PlainAll F h) (ρ₀ : Env) (hn : notebook F h = some ρ₀) (i n x : Nat) (c m d : Int)
    (hix : i ≠ x) (hnx : n ≠ x) (hm : ρ₀ n = some m) (h2 : 2 ≤ m) (hx : ρ₀ x = some d) :
    ∃ ρ₁ σ C ρ, notebook F ([.for_ i n (.ite i (.set x c []) .pass)] :: h) = some ρ₁ ∧ ρ₁ x = some c ∧
      run F ([.for_ i n (.ite i (.set x c []) .pass)] :: h) = some σ ∧ code σ x = .ok C ∧
      runAll F (text σ C) (fun _ => none) = some ρ ∧ ρ x = some d := by
  have hv := values_right F h
  rw [hn] at hv
  obtain ⟨σ, hr, rfl⟩ := Option.map_eq_some_iff.1 hv
  obtain ⟨hs, hg⟩ := run_ok F h σ hp hr
  have hi := (run_inv F h).2 σ hr
  obtain ⟨⟨w, t⟩, hw⟩ := Option.ne_none_iff_exists'.1 ((hs.known x).1 (by rw [hx]; simp))
  obtain ⟨σ', s1, s2, s3, s4, s5, _⟩ := loop_state F σ hi i n x c m hix hnx hm h2
  have hr' : run F ([.for_ i n (.ite i (.set x c []) .pass)] :: h) = some σ' := by simp only [run, hr, s1]
  have hi' := (run_inv F _).2 σ' hr'
  have hv' := values_right F ([.for_ i n (.ite i (.set x c []) .pass)] :: h)
  rw [hr'] at hv'
  obtain ⟨C, c1, c2, c3⟩ := code_ok hi' (s5 w t hw)
  have ht := hi.past x w t hw
  have hle : ∀ a ∈ C, a ≤ t := fun a ha =>
    reach_le hi'.dynLe hi'.statLe (by rw [s3]; simp only [List.length_cons]; omega) ((c3 a).1 ha)
  obtain ⟨ρ, r1, r2⟩ := hg (fun t => t ∈ C) (fun a hal ha u hu => (c3 u).2 (.step ((c3 a).1 ha) (by
    obtain ⟨e1, e2⟩ := s4 a (by omega)
    rw [e1, e2]; exact hu)))
  refine ⟨σ'.val, σ', C, ρ, hv'.symm, s2, hr', c1, ?_, ?_⟩
  · have hsel : sel (fun t => t ∈ C) σ'.log = sel (fun t => t ∈ C) σ.log := by
      rw [s3]
      show sel _ σ.log ++ _ = _
      rw [if_neg (fun hm => by have := hle _ hm; omega), List.append_nil]
    rw [← hsel, sel_text C c2] at r1
    have hf : C.filter (· < σ'.log.length) = C := by
      rw [List.filter_eq_self]
      intro a ha
      have := hle a ha
      rw [s3]; simp; omega
    rw [hf] at r1
    exact r1
  · rw [r2 x w t hw ((c3 t).2 (.refl t)), hx]

/-- If the variable is new, it has a value and `code` raises. -/
theorem later_iteration_unknown (F : Nat) (h : List (List S)) (hp : PlainAll F h) (ρ₀ : Env) (hn : notebook F h = some ρ₀) (i n x : Nat) (c m : Int)
    (hix : i ≠ x) (hnx : n ≠ x) (hm : ρ₀ n = some m) (h2 : 2 ≤ m) (hx : ρ₀ x = none) :
    ∃ ρ₁ σ, notebook F ([.for_ i n (.ite i (.set x c []) .pass)] :: h) = some ρ₁ ∧ ρ₁ x = some c ∧
      run F ([.for_ i n (.ite i (.set x c []) .pass)] :: h) = some σ ∧ code σ x = .error .crash := by
  have hv := values_right F h
  rw [hn] at hv
  obtain ⟨σ, hr, rfl⟩ := Option.map_eq_some_iff.1 hv
  obtain ⟨hs, _⟩ := run_ok F h σ hp hr
  have hi := (run_inv F h).2 σ hr
  have hw : σ.sym x = none := by
    by_contra hc
    exact (hs.known x).2 hc hx
  obtain ⟨σ', s1, s2, _, _, _, s6⟩ := loop_state F σ hi i n x c m hix hnx hm h2
  have hr' : run F ([.for_ i n (.ite i (.set x c []) .pass)] :: h) = some σ' := by simp only [run, hr, s1]
  have hv' := values_right F ([.for_ i n (.ite i (.set x c []) .pass)] :: h)
  rw [hr'] at hv'
  exact ⟨σ'.val, σ', hv'.symm, s2, hr', by unfold code; rw [s6 hw]⟩

end Verif.Loops
