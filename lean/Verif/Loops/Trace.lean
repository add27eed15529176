import Verif.Loops.Lemmas

namespace Verif.Loops
open Verif Spec

/-! ### Nothing is lost when a statement raises -/

theorem forLoop_map {body : Env → Option (List Ev × Env)} {f : Env → Option Env} (i : Nat) (hb : ∀ e, (body e).map (·.2) = f e) :
    ∀ (vs : List Int) (e : Env), (forLoop body i vs e).map (·.2) = each f i vs e := by
  intro vs
  induction vs with
  | nil => intro e; rfl
  | cons v r ih =>
    intro e
    simp only [forLoop, each]
    have h : f (fun y => if y = i then some v else e y) = (body (upd e i (some v))).map (·.2) := (hb _).symm
    rw [h]
    cases body (upd e i (some v)) with
    | none => rfl
    | some p =>
      simp only [Option.map_some, Option.bind_some]
      rw [← ih p.2]
      cases forLoop body i r p.2 <;> rfl

theorem whileLoop_map {body : Env → Option (List Ev × Env)} {f : Env → Option Env} (y : Nat) (hb : ∀ e, (body e).map (·.2) = f e) :
    ∀ (n : Nat) (e : Env), (whileLoop body y n e).map (·.2) = whilst f y n e := by
  intro n
  induction n with
  | zero => intro e; rfl
  | succ n ih =>
    intro e
    simp only [whileLoop, whilst]
    cases e y with
    | none => rfl
    | some v =>
      simp only [Option.bind_some]
      by_cases h0 : v = 0
      · simp [h0]
      · rw [if_neg h0, if_neg h0, ← hb e]
        cases body e with
        | none => rfl
        | some p =>
          simp only [Option.map_some, Option.bind_some]
          rw [← ih p.2]
          cases whileLoop body y n p.2 <;> rfl

theorem go_map (F : Nat) : ∀ (s : S) (tr : Bool) (e : Env), (go F s tr e).map (·.2) = exec F s e := by
  intro s
  induction s with
  | pass => intro tr e; rfl
  | set x c ys =>
    intro tr e
    simp only [go, exec]
    rw [sum_total e e ys fun _ _ => rfl]
    cases total e ys <;> rfl
  | seq a b iha ihb =>
    intro tr e
    simp only [go, exec]
    rw [← iha tr e]
    cases go F a tr e with
    | none => rfl
    | some p =>
      simp only [Option.map_some, Option.bind_some]
      rw [← ihb tr p.2]
      cases go F b tr p.2 <;> rfl
  | ite y a b iha ihb =>
    intro tr e
    simp only [go, exec]
    cases e y with
    | none => rfl
    | some v =>
      simp only [Option.bind_some]
      by_cases h0 : v = 0
      · simp only [h0, if_true]
        rw [← ihb tr e]
        cases go F b tr e <;> rfl
      · simp only [h0, if_false]
        rw [← iha tr e]
        cases go F a tr e <;> rfl
  | for_ i y b ih =>
    intro tr e
    simp only [go, exec]
    cases e y with
    | none => rfl
    | some n =>
      simp only [Option.bind_some]
      show _ = each (exec F b) i (range n) e
      cases range n with
      | nil => rfl
      | cons v r =>
        simp only [each]
        have h : exec F b (fun y => if y = i then some v else e y) = (go F b tr (upd e i (some v))).map (·.2) := (ih tr _).symm
        rw [h]
        cases go F b tr (upd e i (some v)) with
        | none => rfl
        | some p =>
          simp only [Option.map_some, Option.bind_some]
          rw [← forLoop_map i (fun e => ih false e) r p.2]
          cases forLoop (go F b false) i r p.2 <;> rfl
  | while_ y b ih =>
    intro tr e
    simp only [go, exec, whilst]
    cases e y with
    | none => rfl
    | some v =>
      simp only [Option.bind_some]
      by_cases h0 : v = 0
      · simp [h0]
      · rw [if_neg h0, if_neg h0, ← ih tr e]
        cases go F b tr e with
        | none => rfl
        | some p =>
          simp only [Option.map_some, Option.bind_some]
          rw [← whileLoop_map y (fun e => ih false e) F p.2]
          cases whileLoop (go F b false) y F p.2 <;> rfl

/-! ### The static analysis -/

theorem forLoop_needs {body : Env → Option (List Ev × Env)} (i : Nat) {L : List Nat}
    (hb : ∀ e l e', body e = some (l, e') → ∀ y ∈ needs l, y = i ∨ y ∈ L) : ∀ (vs : List Int) (e : Env) (l : List Ev) (e' : Env),
    forLoop body i vs e = some (l, e') → ∀ y ∈ needs l, y ∈ L := by
  intro vs
  induction vs with
  | nil =>
    intro e l e' h y hy
    simp only [forLoop, Option.some.injEq, Prod.mk.injEq] at h
    obtain ⟨rfl, rfl⟩ := h
    cases hy
  | cons v r ih =>
    intro e l e' h y hy
    simp only [forLoop] at h
    split at h
    · cases h
    · next l₁ e₁ h₁ =>
      split at h
      · cases h
      · next l₂ e₂ h₂ =>
        simp only [Option.some.injEq, Prod.mk.injEq] at h
        obtain ⟨rfl, rfl⟩ := h
        simp only [needs, List.mem_filter, needs_append, decide_eq_true_eq] at hy
        rcases hy with ⟨hy | ⟨hy, _⟩, hne⟩
        · exact (hb _ _ _ h₁ y hy).resolve_left hne
        · exact ih _ _ _ h₂ y hy

theorem whileLoop_needs {body : Env → Option (List Ev × Env)} (z : Nat) {L : List Nat} (hz : z ∈ L)
    (hb : ∀ e l e', body e = some (l, e') → ∀ y ∈ needs l, y ∈ L) : ∀ (n : Nat) (e : Env) (l : List Ev) (e' : Env),
    whileLoop body z n e = some (l, e') → ∀ y ∈ needs l, y ∈ L := by
  intro n
  induction n with
  | zero => intro e l e' h; cases h
  | succ n ih =>
    intro e l e' h y hy
    simp only [whileLoop] at h
    split at h
    · cases h
    · next v hv =>
      by_cases h0 : v = 0
      · rw [if_pos h0] at h
        simp only [Option.some.injEq, Prod.mk.injEq] at h
        obtain ⟨rfl, rfl⟩ := h
        simp only [needs, List.mem_singleton] at hy; subst hy; exact hz
      · rw [if_neg h0] at h
        split at h
        · cases h
        · next l₁ e₁ h₁ =>
          split at h
          · cases h
          · next l₂ e₂ h₂ =>
            simp only [Option.some.injEq, Prod.mk.injEq] at h
            obtain ⟨rfl, rfl⟩ := h
            simp only [needs, List.mem_cons, needs_append] at hy
            rcases hy with rfl | hy | ⟨hy, _⟩
            · exact hz
            · exact hb _ _ _ h₁ y hy
            · exact ih _ _ _ h₂ y hy

theorem mem_needs_quiet {q l : List Ev} (hq : Quiet q) (y : Nat) : y ∈ needs (q ++ l) ↔ y ∈ needs l := by
  rw [needs_append, hq.1, hq.2]; simp

theorem mem_needs_quiet_end {q l : List Ev} (hq : Quiet q) (y : Nat) : y ∈ needs (l ++ q) ↔ y ∈ needs l := by
  rw [needs_append, hq.2]; simp

theorem mem_written_quiet {q l : List Ev} (hq : Quiet q) : written (q ++ l) = written l := by
  rw [written_append, hq.1]; rfl

/-- What a statement reads from before is what the analysis finds used, and what the analysis finds set is set. -/
theorem ana_sound (F : Nat) : ∀ (s : S) (tr : Bool) (e : Env) (l : List Ev) (e' : Env), go F s tr e = some (l, e') → ∀ D : List Nat,
    (∀ y ∈ needs l, y ∈ D ∨ y ∈ (ana D s).1) ∧ (∀ y ∈ (ana D s).2, y ∈ D ∨ y ∈ written l) := by
  intro s
  induction s with
  | pass =>
    intro tr e l e' h D
    simp only [go, Option.some.injEq, Prod.mk.injEq] at h
    obtain ⟨rfl, rfl⟩ := h
    exact ⟨fun _ h => (by cases h), fun y h => .inl h⟩
  | set x c ys =>
    intro tr e l e' h D
    simp only [go] at h
    split at h
    · cases h
    · next n hn =>
      simp only [Option.some.injEq, Prod.mk.injEq] at h
      obtain ⟨rfl, rfl⟩ := h
      refine ⟨fun y hy => ?_, fun y hy => ?_⟩
      · rw [needs_append, (needs_reads ys).1, mem_needs_quiet (quiet_seen (quiet_nt ys))] at hy
        rcases hy with hy | ⟨hy, _⟩
        · by_cases hD : y ∈ D
          · exact .inl hD
          · exact .inr (by simp [ana, hy, hD])
        · simp [needs] at hy
      · rw [written_append, (needs_reads ys).2, mem_written_quiet (quiet_seen (quiet_nt ys))]
        simp only [ana] at hy
        split at hy
        · exact .inl hy
        · rcases List.mem_cons.1 hy with rfl | hy
          · exact .inr (by simp [written])
          · exact .inl hy
  | seq a b iha ihb =>
    intro tr e l e' h D
    simp only [go] at h
    split at h
    · cases h
    · next l₁ e₁ h₁ =>
      split at h
      · cases h
      · next l₂ e₂ h₂ =>
        simp only [Option.some.injEq, Prod.mk.injEq] at h
        obtain ⟨rfl, rfl⟩ := h
        obtain ⟨a1, a2⟩ := iha _ _ _ _ h₁ D
        obtain ⟨b1, b2⟩ := ihb _ _ _ _ h₂ (ana D a).2
        refine ⟨fun y hy => ?_, fun y hy => ?_⟩
        · simp only [ana, List.mem_append]
          rcases (needs_append _ _ y).1 hy with hy | ⟨hy, hw⟩
          · rcases a1 y hy with h | h
            · exact .inl h
            · exact .inr (.inl h)
          · rcases b1 y hy with h | h
            · rcases a2 y h with h | h
              · exact .inl h
              · exact absurd h hw
            · exact .inr (.inr h)
        · rw [written_append, List.mem_append]
          simp only [ana] at hy
          rcases b2 y hy with h | h
          · rcases a2 y h with h | h
            · exact .inl h
            · exact .inr (.inl h)
          · exact .inr (.inr h)
  | ite y a b iha ihb =>
    intro tr e l e' h D
    simp only [go] at h
    split at h
    · cases h
    · next v hv =>
      split at h
      · cases h
      · next l₁ e₁ h₁ =>
        simp only [Option.some.injEq, Prod.mk.injEq] at h
        obtain ⟨rfl, rfl⟩ := h
        have key : (∀ z ∈ needs l₁, z ∈ (ana [] a).1 ∨ z ∈ (ana [] b).1) ∧
            (∀ z, z ∈ (ana [] a).2 → z ∈ (ana [] b).2 → z ∈ written l₁) := by
          by_cases h0 : v = 0
          · rw [if_pos h0] at h₁
            obtain ⟨b1, b2⟩ := ihb _ _ _ _ h₁ []
            exact ⟨fun z hz => .inr ((b1 z hz).resolve_left (by simp)), fun z _ hz => (b2 z hz).resolve_left (by simp)⟩
          · rw [if_neg h0] at h₁
            obtain ⟨a1, a2⟩ := iha _ _ _ _ h₁ []
            exact ⟨fun z hz => .inl ((a1 z hz).resolve_left (by simp)), fun z hz _ => (a2 z hz).resolve_left (by simp)⟩
        refine ⟨fun z hz => ?_, fun z hz => ?_⟩
        · by_cases hD : z ∈ D
          · exact .inl hD
          · right
            simp only [needs, List.mem_cons, mem_needs_quiet (quiet_seen (quiet_nt1 y))] at hz
            simp only [ana, List.mem_filter, List.mem_append, List.mem_singleton, hD, not_false_eq_true, decide_true, and_true]
            rcases hz with rfl | hz
            · exact .inl rfl
            · exact .inr (key.1 z hz)
        · simp only [ana, List.mem_append, List.mem_filter, decide_eq_true_eq] at hz
          rcases hz with ⟨h1, h2⟩ | hz
          · right
            simp only [written, mem_written_quiet (quiet_seen (quiet_nt1 y))]
            exact key.2 z h1 h2
          · exact .inl hz
  | for_ i y b ih =>
    intro tr e l e' h D
    refine ⟨fun z hz => ?_, fun z hz => .inl hz⟩
    by_cases hD : z ∈ D
    · exact .inl hD
    right
    simp only [ana, List.mem_filter, List.mem_append, List.mem_singleton, hD, not_false_eq_true, decide_true, and_true]
    have hb : ∀ tr e l e', go F b tr e = some (l, e') → ∀ z ∈ needs l, z = i ∨ z ∈ (ana [i] b).1 := by
      intro tr e l e' h z hz
      rcases (ih tr e l e' h [i]).1 z hz with h | h
      · exact .inl (by simpa using h)
      · exact .inr h
    simp only [go] at h
    split at h
    · cases h
    · next n hn =>
      split at h
      · next hr =>
        simp only [Option.some.injEq, Prod.mk.injEq] at h
        obtain ⟨rfl, rfl⟩ := h
        simp only [needs, List.mem_cons, (quiet_seen (quiet_header y i (e i))).2] at hz
        exact .inl (by simpa using hz)
      · next v r hr =>
        split at h
        · cases h
        · next l₁ e₁ h₁ =>
          split at h
          · cases h
          · next l₂ e₂ h₂ =>
            simp only [Option.some.injEq, Prod.mk.injEq] at h
            obtain ⟨rfl, rfl⟩ := h
            simp only [needs, List.mem_cons, mem_needs_quiet (quiet_seen (quiet_nt1 y)), List.mem_filter, needs_append, (quiet_seen quiet_iter).2,
              decide_eq_true_eq] at hz
            rcases hz with rfl | ⟨hz | ⟨hz | ⟨hz, _⟩, _⟩, hne⟩
            · exact .inl rfl
            · exact .inr ((hb _ _ _ _ h₁ z hz).resolve_left hne)
            · cases hz
            · exact .inr (forLoop_needs i (hb false) _ _ _ _ h₂ z hz)
  | while_ y b ih =>
    intro tr e l e' h D
    refine ⟨fun z hz => ?_, fun z hz => .inl hz⟩
    by_cases hD : z ∈ D
    · exact .inl hD
    right
    simp only [ana, List.mem_filter, hD, not_false_eq_true, decide_true, and_true]
    have hb : ∀ tr e l e', go F b tr e = some (l, e') → ∀ z ∈ needs l, z ∈ [y] ++ (ana [] b).1 := by
      intro tr e l e' h z hz
      exact List.mem_append.2 (.inr (((ih tr e l e' h []).1 z hz).resolve_left (by simp)))
    simp only [go] at h
    split at h
    · cases h
    · next v hv =>
      by_cases h0 : v = 0
      · rw [if_pos h0] at h
        simp only [Option.some.injEq, Prod.mk.injEq] at h
        obtain ⟨rfl, rfl⟩ := h
        simp only [needs, List.mem_cons, (quiet_seen (quiet_nt (y :: bodyNames b))).2] at hz
        simp at hz; simp [hz]
      · rw [if_neg h0] at h
        split at h
        · cases h
        · next l₁ e₁ h₁ =>
          split at h
          · cases h
          · next l₂ e₂ h₂ =>
            simp only [Option.some.injEq, Prod.mk.injEq] at h
            obtain ⟨rfl, rfl⟩ := h
            simp only [needs, List.mem_cons, needs_append, (quiet_seen quiet_iter).2, (quiet_seen (quiet_nt (y :: bodyNames b))).2] at hz
            rcases hz with rfl | hz | ⟨hz | ⟨hz | ⟨hz, _⟩, _⟩, _⟩
            · simp
            · exact hb _ _ _ _ h₁ z hz
            · cases hz
            · exact whileLoop_needs y (by simp) (hb false) _ _ _ _ h₂ z hz
            · cases hz

/-! ### The tracer -/

theorem handleAll_cons (t : Nat) (a : Acc) (x : Ev) (l : List Ev) : handleAll t a (x :: l) = handleAll t (handle t a x) l := rfl

theorem handle_seen (t : Nat) : ∀ (l : List Ev) (a : Acc) (y : Nat),
    (∃ v, a.sym y = some (v, t)) ∨ y ∈ seenSet l → ∃ v, (handleAll t a l).sym y = some (v, t) := by
  intro l
  induction l with
  | nil => intro a y h; exact h.resolve_right (by simp [seenSet])
  | cons x r ih =>
    intro a y h
    rw [handleAll_cons]
    refine ih _ y ?_
    cases x with
    | rd z => simpa only [handle, seenSet] using h
    | nt z => simpa only [handle, seenSet] using h
    | iter => simpa only [handle, seenSet] using h
    | touch z v =>
      cases v with
      | none => simpa only [handle, seenSet] using h
      | some v =>
        simp only [handle]
        by_cases e : y = z
        · exact .inl ⟨v, by rw [e, upd_self]⟩
        · rw [upd_ne _ _ e]; simpa only [seenSet] using h
    | wr b z v =>
      cases b with
      | false => simpa only [handle, seenSet] using h
      | true =>
        simp only [handle]
        by_cases e : y = z
        · exact .inl ⟨v, by rw [e, upd_self]⟩
        · rw [upd_ne _ _ e]
          simp only [seenSet, List.mem_cons, e, false_or] at h
          exact h

theorem handle_other (t : Nat) : ∀ (l : List Ev) (a : Acc) (y : Nat), y ∉ seenSet l → touched l = [] → (handleAll t a l).sym y = a.sym y := by
  intro l
  induction l with
  | nil => intro a y _ _; rfl
  | cons x r ih =>
    intro a y h ht
    rw [handleAll_cons]
    cases x with
    | rd z => exact ih _ y h ht
    | nt z => exact ih _ y h ht
    | iter => exact ih _ y h ht
    | touch z v =>
      cases v with
      | none => exact ih _ y h ht
      | some v => simp [touched] at ht
    | wr b z v =>
      cases b with
      | false => exact ih _ y h ht
      | true =>
        simp only [seenSet, List.mem_cons, not_or] at h
        rw [ih _ y h.2 ht]
        exact upd_ne _ _ h.1

theorem links_mono (t : Nat) : ∀ (l : List Ev) (a : Acc) (u : Nat), u ∈ a.links → u ∈ (handleAll t a l).links := by
  intro l
  induction l with
  | nil => intro a u h; exact h
  | cons x r ih =>
    intro a u h
    rw [handleAll_cons]
    refine ih _ u ?_
    cases x with
    | rd z => exact h
    | nt z => exact List.mem_append.2 (.inl h)
    | iter => exact h
    | touch z v => cases v <;> exact h
    | wr b z v => cases b <;> exact h

theorem links_noted (t : Nat) : ∀ (l : List Ev) (a : Acc) (y : Nat) (w : Int) (u : Nat), touched l = [] → y ∈ noted l → a.sym y = some (w, u) → u ≠ t →
    u ∈ (handleAll t a l).links := by
  intro l
  induction l with
  | nil => intro a y w u _ h; cases h
  | cons x r ih =>
    intro a y w u ht h hy hu
    rw [handleAll_cons]
    cases x with
    | rd z => exact ih _ y w u ht h hy hu
    | iter => exact ih _ y w u ht h hy hu
    | touch z v =>
      cases v with
      | none => exact ih _ y w u ht h hy hu
      | some v => simp [touched] at ht
    | nt z =>
      rcases List.mem_cons.1 h with e | h
      · subst e
        refine links_mono t r _ u (List.mem_append.2 (.inr ?_))
        simp [tsOf, hy, hu]
      · exact ih _ y w u ht h hy hu
    | wr b z v =>
      simp only [noted, List.mem_filter, decide_eq_true_eq] at h
      refine ih _ y w u (by simpa [touched] using ht) h.1 ?_ hu
      cases b with
      | false => exact hy
      | true => rw [← hy]; exact upd_ne _ _ h.2

theorem links_old (t : Nat) : ∀ (l : List Ev) (a : Acc) (P : Nat → Prop), (∀ y w u, a.sym y = some (w, u) → u = t ∨ P u) → (∀ u ∈ a.links, P u) →
    (∀ u ∈ (handleAll t a l).links, P u) ∧ ∀ y w u, (handleAll t a l).sym y = some (w, u) → u = t ∨ P u := by
  intro l
  induction l with
  | nil => intro a P h1 h2; exact ⟨h2, h1⟩
  | cons x r ih =>
    intro a P h1 h2
    rw [handleAll_cons]
    have hup : ∀ (z : Nat) (v : Int), ∀ y w u, upd a.sym z (some (v, t)) y = some (w, u) → u = t ∨ P u := by
      intro z v y w u h
      by_cases e : y = z
      · subst e; rw [upd_self] at h; cases h; exact .inl rfl
      · rw [upd_ne _ _ e] at h; exact h1 _ _ _ h
    cases x with
    | rd z => exact ih _ P h1 h2
    | iter => exact ih _ P h1 h2
    | touch z v =>
      cases v with
      | none => exact ih _ P h1 h2
      | some v => exact ih _ P (hup z v) h2
    | nt z =>
      refine ih _ P h1 fun u hu => ?_
      rcases List.mem_append.1 hu with hu | hu
      · exact h2 u hu
      · obtain ⟨hu, hne⟩ := List.mem_filter.1 hu
        unfold tsOf at hu
        split at hu
        · next w u' e =>
          simp only [List.mem_singleton] at hu; subst hu
          exact (h1 _ _ _ e).resolve_left (by simpa using hne)
        · cases hu
    | wr b z v =>
      cases b with
      | false => exact ih _ P h1 h2
      | true => exact ih _ P (hup z v) h2

theorem off_mono (t : Nat) : ∀ (l : List Ev) (a : Acc), a.off = true ∨ .iter ∈ l → (handleAll t a l).off = true := by
  intro l
  induction l with
  | nil => intro a h; exact h.resolve_right (by simp)
  | cons x r ih =>
    intro a h
    rw [handleAll_cons]
    refine ih _ ?_
    cases x with
    | iter => exact .inl rfl
    | rd z => simpa [handle] using h
    | nt z => simpa [handle] using h
    | touch z v => cases v <;> simpa [handle] using h
    | wr b z v => cases b <;> simpa [handle] using h

/-- The variables after the events. -/
def play (e : Env) : List Ev → Env
  | [] => e
  | .wr _ x v :: r => play (upd e x (some v)) r
  | _ :: r => play e r

theorem play_append (l m : List Ev) : ∀ e, play e (l ++ m) = play (play e l) m := by
  induction l with
  | nil => intro e; rfl
  | cons x r ih => intro e; cases x <;> exact ih _

theorem play_rd (ys : List Nat) (e : Env) : play e (ys.map .rd) = e := by
  induction ys with
  | nil => rfl
  | cons y r ih => exact ih

theorem play_nt (ys : List Nat) (e : Env) : play e (ys.map .nt) = e := by
  induction ys with
  | nil => rfl
  | cons y r ih => exact ih

theorem play_seen {tr : Bool} {l : List Ev} {e : Env} (h : play e l = e) : play e (seen tr l) = e := by
  cases tr
  · rfl
  · exact h

theorem forLoop_play {body : Env → Option (List Ev × Env)} (i : Nat) (hb : ∀ e l e', body e = some (l, e') → play e l = e') :
    ∀ (vs : List Int) (e : Env) (l : List Ev) (e' : Env), forLoop body i vs e = some (l, e') → play e l = e' := by
  intro vs
  induction vs with
  | nil =>
    intro e l e' h
    simp only [forLoop, Option.some.injEq, Prod.mk.injEq] at h
    obtain ⟨rfl, rfl⟩ := h
    rfl
  | cons v r ih =>
    intro e l e' h
    simp only [forLoop] at h
    split at h
    · cases h
    · next l₁ e₁ h₁ =>
      split at h
      · cases h
      · next l₂ e₂ h₂ =>
        simp only [Option.some.injEq, Prod.mk.injEq] at h
        obtain ⟨rfl, rfl⟩ := h
        show play (upd e i (some v)) (l₁ ++ l₂) = _
        rw [play_append, hb _ _ _ h₁, ih _ _ _ h₂]

theorem whileLoop_play {body : Env → Option (List Ev × Env)} (y : Nat) (hb : ∀ e l e', body e = some (l, e') → play e l = e') :
    ∀ (n : Nat) (e : Env) (l : List Ev) (e' : Env), whileLoop body y n e = some (l, e') → play e l = e' := by
  intro n
  induction n with
  | zero => intro e l e' h; cases h
  | succ n ih =>
    intro e l e' h
    simp only [whileLoop] at h
    split at h
    · cases h
    · next v hv =>
      by_cases h0 : v = 0
      · rw [if_pos h0] at h
        simp only [Option.some.injEq, Prod.mk.injEq] at h
        obtain ⟨rfl, rfl⟩ := h
        rfl
      · rw [if_neg h0] at h
        split at h
        · cases h
        · next l₁ e₁ h₁ =>
          split at h
          · cases h
          · next l₂ e₂ h₂ =>
            simp only [Option.some.injEq, Prod.mk.injEq] at h
            obtain ⟨rfl, rfl⟩ := h
            show play e (l₁ ++ l₂) = _
            rw [play_append, hb _ _ _ h₁, ih _ _ _ h₂]

theorem go_play (F : Nat) : ∀ (s : S) (tr : Bool) (e : Env) (l : List Ev) (e' : Env), go F s tr e = some (l, e') → play e l = e' := by
  intro s
  induction s with
  | pass =>
    intro tr e l e' h
    simp only [go, Option.some.injEq, Prod.mk.injEq] at h
    obtain ⟨rfl, rfl⟩ := h
    rfl
  | set x c ys =>
    intro tr e l e' h
    simp only [go] at h
    split at h
    · cases h
    · next n hn =>
      simp only [Option.some.injEq, Prod.mk.injEq] at h
      obtain ⟨rfl, rfl⟩ := h
      rw [play_append, play_append, play_rd, play_seen (play_nt ys e)]; rfl
  | seq a b iha ihb =>
    intro tr e l e' h
    simp only [go] at h
    split at h
    · cases h
    · next l₁ e₁ h₁ =>
      split at h
      · cases h
      · next l₂ e₂ h₂ =>
        simp only [Option.some.injEq, Prod.mk.injEq] at h
        obtain ⟨rfl, rfl⟩ := h
        rw [play_append, iha _ _ _ _ h₁, ihb _ _ _ _ h₂]
  | ite y a b iha ihb =>
    intro tr e l e' h
    simp only [go] at h
    split at h
    · cases h
    · next v hv =>
      split at h
      · cases h
      · next l₁ e₁ h₁ =>
        simp only [Option.some.injEq, Prod.mk.injEq] at h
        obtain ⟨rfl, rfl⟩ := h
        show play e (seen tr [.nt y] ++ l₁) = _
        rw [play_append, play_seen (by rfl)]
        by_cases h0 : v = 0
        · rw [if_pos h0] at h₁; exact ihb _ _ _ _ h₁
        · rw [if_neg h0] at h₁; exact iha _ _ _ _ h₁
  | for_ i y b ih =>
    intro tr e l e' h
    simp only [go] at h
    split at h
    · cases h
    · next n hn =>
      split at h
      · next hr =>
        simp only [Option.some.injEq, Prod.mk.injEq] at h
        obtain ⟨rfl, rfl⟩ := h
        exact play_seen (by rfl)
      · next v r hr =>
        split at h
        · cases h
        · next l₁ e₁ h₁ =>
          split at h
          · cases h
          · next l₂ e₂ h₂ =>
            simp only [Option.some.injEq, Prod.mk.injEq] at h
            obtain ⟨rfl, rfl⟩ := h
            show play e (seen tr [.nt y] ++ _) = _
            rw [play_append, play_seen (by rfl)]
            show play (upd e i (some v)) (l₁ ++ (seen tr [.iter] ++ l₂)) = _
            rw [play_append, ih _ _ _ _ h₁, play_append, play_seen (by rfl)]
            exact forLoop_play i (fun e l e' h => ih false e l e' h) _ _ _ _ h₂
  | while_ y b ih =>
    intro tr e l e' h
    simp only [go] at h
    split at h
    · cases h
    · next v hv =>
      by_cases h0 : v = 0
      · rw [if_pos h0] at h
        simp only [Option.some.injEq, Prod.mk.injEq] at h
        obtain ⟨rfl, rfl⟩ := h
        exact play_seen (play_nt (y :: bodyNames b) e)
      · rw [if_neg h0] at h
        split at h
        · cases h
        · next l₁ e₁ h₁ =>
          split at h
          · cases h
          · next l₂ e₂ h₂ =>
            simp only [Option.some.injEq, Prod.mk.injEq] at h
            obtain ⟨rfl, rfl⟩ := h
            show play e (l₁ ++ _) = _
            rw [play_append, ih _ _ _ _ h₁, play_append, play_seen (by rfl), play_append,
              whileLoop_play y (fun e l e' h => ih false e l e' h) _ _ _ _ h₂, play_seen (play_nt (y :: bodyNames b) e₂)]

/-- The tracer has the right value of a variable that is not set while it is off. -/
theorem handle_sync (t : Nat) : ∀ (l : List Ev) (a : Acc) (e : Env) (y : Nat), y ∉ unseenSet l → touched l = [] →
    (∀ w u, a.sym y = some (w, u) → e y = some w) → ∀ w u, (handleAll t a l).sym y = some (w, u) → play e l y = some w := by
  intro l
  induction l with
  | nil => intro a e y _ _ h; exact h
  | cons x r ih =>
    intro a e y hu ht h
    rw [handleAll_cons]
    cases x with
    | rd z => exact ih _ e y hu ht h
    | nt z => exact ih _ e y hu ht h
    | iter => exact ih _ e y hu ht h
    | touch z v =>
      cases v with
      | none => exact ih _ e y hu ht h
      | some v => simp [touched] at ht
    | wr b z v =>
      cases b with
      | false =>
        simp only [unseenSet, List.mem_cons, not_or] at hu
        refine ih _ _ y hu.2 ht fun w u hw => ?_
        rw [upd_ne _ _ hu.1]; exact h w u hw
      | true =>
        refine ih _ _ y hu ht fun w u hw => ?_
        by_cases e' : y = z
        · subst e'
          simp only [handle, upd_self] at hw ⊢
          cases hw; rfl
        · simp only [handle] at hw
          rw [upd_ne _ _ e'] at hw ⊢
          exact h w u hw

theorem unseen_seen_nil {tr : Bool} {l : List Ev} (h : unseenSet l = []) : unseenSet (seen tr l) = [] := by
  cases tr
  · rfl
  · exact h

theorem unseen_map_rd (ys : List Nat) : unseenSet (ys.map .rd) = [] := by
  induction ys with
  | nil => rfl
  | cons y r ih => exact ih

theorem unseen_map_nt (ys : List Nat) : unseenSet (ys.map .nt) = [] := by
  induction ys with
  | nil => rfl
  | cons y r ih => exact ih

/-- If a variable is set while the tracer is off, a loop has switched it off. -/
theorem go_iter (F : Nat) : ∀ (s : S) (e : Env) (l : List Ev) (e' : Env), go F s true e = some (l, e') → ∀ y ∈ unseenSet l, .iter ∈ l := by
  intro s
  induction s with
  | pass =>
    intro e l e' h y hy
    simp only [go, Option.some.injEq, Prod.mk.injEq] at h
    obtain ⟨rfl, rfl⟩ := h
    cases hy
  | set x c ys =>
    intro e l e' h y hy
    simp only [go] at h
    split at h
    · cases h
    · next n hn =>
      simp only [Option.some.injEq, Prod.mk.injEq] at h
      obtain ⟨rfl, rfl⟩ := h
      rw [unseenSet_append, unseen_map_rd, unseenSet_append, unseen_seen_nil (unseen_map_nt ys)] at hy
      cases hy
  | seq a b iha ihb =>
    intro e l e' h y hy
    simp only [go] at h
    split at h
    · cases h
    · next l₁ e₁ h₁ =>
      split at h
      · cases h
      · next l₂ e₂ h₂ =>
        simp only [Option.some.injEq, Prod.mk.injEq] at h
        obtain ⟨rfl, rfl⟩ := h
        rw [unseenSet_append] at hy
        rcases List.mem_append.1 hy with hy | hy
        · exact List.mem_append.2 (.inl (iha _ _ _ h₁ y hy))
        · exact List.mem_append.2 (.inr (ihb _ _ _ h₂ y hy))
  | ite z a b iha ihb =>
    intro e l e' h y hy
    simp only [go] at h
    split at h
    · cases h
    · next v hv =>
      split at h
      · cases h
      · next l₁ e₁ h₁ =>
        simp only [Option.some.injEq, Prod.mk.injEq] at h
        obtain ⟨rfl, rfl⟩ := h
        have hy' : y ∈ unseenSet l₁ := hy
        have : Ev.iter ∈ l₁ := by
          by_cases h0 : v = 0
          · rw [if_pos h0] at h₁; exact ihb _ _ _ h₁ y hy'
          · rw [if_neg h0] at h₁; exact iha _ _ _ h₁ y hy'
        simp [this]
  | for_ i z b ih =>
    intro e l e' h y hy
    simp only [go] at h
    split at h
    · cases h
    · next n hn =>
      split at h
      · next hr =>
        simp only [Option.some.injEq, Prod.mk.injEq] at h
        obtain ⟨rfl, rfl⟩ := h
        simp only [seen, if_true, unseenSet] at hy
        cases hy
      · next v r hr =>
        split at h
        · cases h
        · next l₁ e₁ h₁ =>
          split at h
          · cases h
          · next l₂ e₂ h₂ =>
            simp only [Option.some.injEq, Prod.mk.injEq] at h
            obtain ⟨rfl, rfl⟩ := h
            simp [seen]
  | while_ z b ih =>
    intro e l e' h y hy
    simp only [go] at h
    split at h
    · cases h
    · next v hv =>
      by_cases h0 : v = 0
      · rw [if_pos h0] at h
        simp only [Option.some.injEq, Prod.mk.injEq] at h
        obtain ⟨rfl, rfl⟩ := h
        have : y ∈ unseenSet (seen true ((z :: bodyNames b).map .nt)) := hy
        rw [unseen_seen_nil (unseen_map_nt _)] at this
        cases this
      · rw [if_neg h0] at h
        split at h
        · cases h
        · next l₁ e₁ h₁ =>
          split at h
          · cases h
          · next l₂ e₂ h₂ =>
            simp only [Option.some.injEq, Prod.mk.injEq] at h
            obtain ⟨rfl, rfl⟩ := h
            simp [seen]

end Verif.Loops
