import Verif.Loops.Spec

namespace Verif.Loops
open Verif Spec

theorem upd_self {α : Type} (f : Nat → α) (a : Nat) (v : α) : upd f a v a = v := by simp [upd]

theorem upd_ne {α : Type} (f : Nat → α) {a b : Nat} (v : α) (h : b ≠ a) : upd f a v b = f b := by simp [upd, h]

/-! ### Lists of events -/

theorem written_append (a b : List Ev) : written (a ++ b) = written a ++ written b := by
  induction a with
  | nil => rfl
  | cons x r ih => cases x <;> simp [written, ih]

theorem seenSet_append (a b : List Ev) : seenSet (a ++ b) = seenSet a ++ seenSet b := by
  induction a with
  | nil => rfl
  | cons x r ih =>
    cases x with
    | wr t x v => cases t <;> simp [seenSet, ih]
    | _ => simp [seenSet, ih]

theorem unseenSet_append (a b : List Ev) : unseenSet (a ++ b) = unseenSet a ++ unseenSet b := by
  induction a with
  | nil => rfl
  | cons x r ih =>
    cases x with
    | wr t x v => cases t <;> simp [unseenSet, ih]
    | _ => simp [unseenSet, ih]

theorem touched_append (a b : List Ev) : touched (a ++ b) = touched a ++ touched b := by
  induction a with
  | nil => rfl
  | cons x r ih =>
    cases x with
    | touch i v => cases v <;> simp [touched, ih]
    | _ => simp [touched, ih]

theorem needs_append (a b : List Ev) (y : Nat) : y ∈ needs (a ++ b) ↔ y ∈ needs a ∨ (y ∈ needs b ∧ y ∉ written a) := by
  induction a with
  | nil => simp [needs, written]
  | cons x r ih =>
    cases x with
    | rd z => simp only [List.cons_append, needs, written, List.mem_cons, ih]; tauto
    | wr t z v => simp only [List.cons_append, needs, written, List.mem_cons, List.mem_filter, ih, decide_eq_true_eq]; tauto
    | nt z => simpa only [List.cons_append, needs, written] using ih
    | touch z v => simpa only [List.cons_append, needs, written] using ih
    | iter => simpa only [List.cons_append, needs, written] using ih

theorem noted_append (a b : List Ev) (y : Nat) : y ∈ noted (a ++ b) ↔ y ∈ noted a ∨ (y ∈ noted b ∧ y ∉ written a) := by
  induction a with
  | nil => simp [noted, written]
  | cons x r ih =>
    cases x with
    | nt z => simp only [List.cons_append, noted, written, List.mem_cons, ih]; tauto
    | wr t z v => simp only [List.cons_append, noted, written, List.mem_cons, List.mem_filter, ih, decide_eq_true_eq]; tauto
    | rd z => simpa only [List.cons_append, noted, written] using ih
    | touch z v => simpa only [List.cons_append, noted, written] using ih
    | iter => simpa only [List.cons_append, noted, written] using ih

theorem written_split (l : List Ev) (x : Nat) : x ∈ written l ↔ x ∈ seenSet l ∨ x ∈ unseenSet l := by
  induction l with
  | nil => simp [written, seenSet, unseenSet]
  | cons e r ih =>
    cases e with
    | wr t z v => cases t <;> simp only [written, seenSet, unseenSet, List.mem_cons, ih] <;> tauto
    | _ => simpa only [written, seenSet, unseenSet] using ih

/-- Nothing is read or set in these. -/
def Quiet (l : List Ev) : Prop := written l = [] ∧ needs l = []

theorem quiet_nt (ys : List Nat) : Quiet (ys.map .nt) := by
  induction ys with
  | nil => exact ⟨rfl, rfl⟩
  | cons y r ih => exact ⟨by simpa [written] using ih.1, by simpa [needs] using ih.2⟩

theorem quiet_seen {tr : Bool} {l : List Ev} (h : Quiet l) : Quiet (seen tr l) := by
  cases tr
  · exact ⟨rfl, rfl⟩
  · exact h

theorem quiet_iter : Quiet [.iter] := ⟨rfl, rfl⟩

theorem quiet_nt1 (y : Nat) : Quiet [.nt y] := ⟨rfl, rfl⟩

theorem quiet_header (y i : Nat) (v : Option Int) : Quiet [.nt y, .touch i v] := ⟨rfl, rfl⟩

/-! ### The same steps from other values -/

/-- The events `l` lead from `e` to `e'`, and `f` does the same with all variables that agree on what is read. -/
structure Sim (f : Env → Option Env) (l : List Ev) (e e' : Env) : Prop where
  same : ∀ y, y ∉ written l → e' y = e y
  bound : ∀ y ∈ needs l, e y ≠ none
  like : ∀ ρ : Env, (∀ y ∈ needs l, ρ y = e y) → ∃ ρ', f ρ = some ρ' ∧ (∀ y ∈ written l, ρ' y = e' y) ∧ ∀ y, y ∉ written l → ρ' y = ρ y

theorem Sim.congr {f g : Env → Option Env} {l m : List Ev} {e e' : Env} (h : Sim f l e e') (hf : ∀ ρ, (∀ y ∈ needs m, ρ y = e y) → g ρ = f ρ)
    (hw : ∀ y, y ∈ written m ↔ y ∈ written l) (hn : ∀ y, y ∈ needs m ↔ y ∈ needs l) : Sim g m e e' where
  same y hy := h.same y fun h' => hy ((hw y).2 h')
  bound y hy := h.bound y ((hn y).1 hy)
  like ρ hρ := by
    obtain ⟨ρ', h1, h2, h3⟩ := h.like ρ fun y hy => hρ y ((hn y).2 hy)
    exact ⟨ρ', by rw [hf ρ hρ, h1], fun y hy => h2 y ((hw y).1 hy), fun y hy => h3 y fun h' => hy ((hw y).2 h')⟩

theorem Sim.nil (e : Env) : Sim some [] e e :=
  ⟨fun _ _ => rfl, fun _ h => (by cases h), fun ρ _ => ⟨ρ, rfl, fun _ h => (by cases h), fun _ _ => rfl⟩⟩

theorem Sim.seq {f g : Env → Option Env} {l m : List Ev} {e e₁ e₂ : Env} (h : Sim f l e e₁) (k : Sim g m e₁ e₂) :
    Sim (fun ρ => (f ρ).bind g) (l ++ m) e e₂ where
  same y hy := by
    rw [written_append, List.mem_append, not_or] at hy
    rw [k.same y hy.2, h.same y hy.1]
  bound y hy := by
    rcases (needs_append l m y).1 hy with hy | ⟨hy, hn⟩
    · exact h.bound y hy
    · rw [← h.same y hn]; exact k.bound y hy
  like ρ hρ := by
    obtain ⟨ρ₁, h1, h2, h3⟩ := h.like ρ fun y hy => hρ y ((needs_append l m y).2 (.inl hy))
    obtain ⟨ρ₂, k1, k2, k3⟩ := k.like ρ₁ fun y hy => by
      by_cases hw : y ∈ written l
      · exact h2 y hw
      · rw [h3 y hw, hρ y ((needs_append l m y).2 (.inr ⟨hy, hw⟩)), h.same y hw]
    refine ⟨ρ₂, by simp [h1, k1], fun y hy => ?_, fun y hy => ?_⟩
    · by_cases hm : y ∈ written m
      · exact k2 y hm
      · rw [k3 y hm, k.same y hm]
        rw [written_append, List.mem_append] at hy
        exact h2 y (hy.resolve_right hm)
    · rw [written_append, List.mem_append, not_or] at hy
      rw [k3 y hy.2, h3 y hy.1]

theorem Sim.quiet {l : List Ev} (h : Quiet l) (e : Env) : Sim some l e e :=
  (Sim.nil e).congr (fun _ _ => rfl) (fun y => by rw [h.1]; rfl) (fun y => by rw [h.2]; rfl)

theorem Sim.rd {e : Env} {y : Nat} (h : e y ≠ none) : Sim some [.rd y] e e :=
  ⟨fun _ _ => rfl, fun z hz => by simp only [needs, List.mem_singleton] at hz; subst hz; exact h,
   fun ρ _ => ⟨ρ, rfl, fun _ h => (by cases h), fun _ _ => rfl⟩⟩

theorem Sim.wr (e : Env) (tr : Bool) (x : Nat) (v : Int) :
    Sim (fun ρ => some (fun y => if y = x then some v else ρ y)) [.wr tr x v] e (upd e x (some v)) where
  same y hy := by
    have : y ≠ x := fun h => hy (by simp [written, h])
    exact upd_ne _ _ this
  bound y hy := by simp [needs] at hy
  like ρ _ := by
    refine ⟨_, rfl, fun y hy => ?_, fun y hy => ?_⟩
    · simp only [written, List.mem_singleton] at hy; subst hy; simp [upd]
    · have : y ≠ x := fun h => hy (by simp [written, h])
      simp [this]

/-- A condition or iterable is read first. -/
theorem Sim.test {f : Int → Env → Option Env} {l : List Ev} {e e' : Env} {y : Nat} {v : Int} (hv : e y = some v) (h : Sim (f v) l e e') :
    Sim (fun ρ => (ρ y).bind fun v => f v ρ) (.rd y :: l) e e' := by
  refine ((Sim.rd (e := e) (y := y) (by rw [hv]; simp)).seq h).congr ?_ (fun _ => Iff.rfl) (fun _ => Iff.rfl)
  intro ρ hρ
  have : ρ y = some v := by rw [← hv]; exact hρ y (by simp [needs])
  simp [this]

theorem total_bound : ∀ (ys : List Nat) (e : Env) (n : Int), total e ys = some n → ∀ y ∈ ys, e y ≠ none := by
  intro ys
  induction ys with
  | nil => intro e n _ y hy; cases hy
  | cons z r ih =>
    intro e n h y hy
    unfold total at h
    split at h
    · next m k e1 e2 =>
      rcases List.mem_cons.1 hy with rfl | hy
      · rw [e1]; simp
      · exact ih e k e2 y hy
    · cases h

theorem sum_total (e ρ : Env) : ∀ (ys : List Nat), (∀ y ∈ ys, ρ y = e y) → sum ρ ys = total e ys := by
  intro ys
  induction ys with
  | nil => intro _; rfl
  | cons y r ih =>
    intro h
    unfold sum total
    rw [ih fun z hz => h z (by simp [hz]), h y (by simp)]
    cases e y <;> cases total e r <;> rfl

theorem needs_reads (ys : List Nat) : needs (ys.map .rd) = ys ∧ written (ys.map .rd) = [] := by
  induction ys with
  | nil => exact ⟨rfl, rfl⟩
  | cons y r ih => exact ⟨by simp [needs, ih.1], by simp [written, ih.2]⟩

theorem Sim.set {e : Env} {x : Nat} {c n : Int} {ys : List Nat} {m : List Ev} (hm : Quiet m) (tr : Bool) (h : total e ys = some n) :
    Sim (fun ρ => (sum ρ ys).map fun n => fun y => if y = x then some (c + n) else ρ y) (ys.map .rd ++ (m ++ [.wr tr x (c + n)])) e
      (upd e x (some (c + n))) := by
  have h1 : Sim some (ys.map .rd) e e :=
    ⟨fun _ _ => rfl, fun y hy => total_bound ys e n h y (by rw [(needs_reads ys).1] at hy; exact hy),
     fun ρ _ => ⟨ρ, rfl, fun y hy => (by rw [(needs_reads ys).2] at hy; cases hy), fun _ _ => rfl⟩⟩
  refine (h1.seq ((Sim.quiet hm e).seq (Sim.wr e tr x (c + n)))).congr ?_ (fun _ => Iff.rfl) (fun _ => Iff.rfl)
  intro ρ hρ
  have : sum ρ ys = some n := by
    rw [← h]
    refine sum_total e ρ ys fun y hy => hρ y ((needs_append _ _ y).2 (.inl ?_))
    rw [(needs_reads ys).1]; exact hy
  simp [this]

theorem forLoop_sim {body : Env → Option (List Ev × Env)} {f : Env → Option Env} (i : Nat)
    (hb : ∀ e l e', body e = some (l, e') → Sim f l e e') : ∀ (vs : List Int) (e : Env) (l : List Ev) (e' : Env),
    forLoop body i vs e = some (l, e') → Sim (each f i vs) l e e' := by
  intro vs
  induction vs with
  | nil =>
    intro e l e' h
    simp only [forLoop, Option.some.injEq, Prod.mk.injEq] at h
    obtain ⟨rfl, rfl⟩ := h
    exact (Sim.nil e)
  | cons v r ih =>
    intro e l e' h
    simp only [forLoop] at h
    split at h
    · cases h
    · next l₁ e₁ h₁ =>
      split at h
      · cases h
      · next l₂ e₂ h₂ =>
        simp only [Option.some.injEq, Prod.mk.injEq] at h
        obtain ⟨rfl, rfl⟩ := h
        exact ((Sim.wr e false i v).seq ((hb _ _ _ h₁).seq (ih _ _ _ h₂))).congr (fun _ _ => rfl) (fun _ => Iff.rfl) (fun _ => Iff.rfl)

theorem whileLoop_sim {body : Env → Option (List Ev × Env)} {f : Env → Option Env} (y : Nat)
    (hb : ∀ e l e', body e = some (l, e') → Sim f l e e') : ∀ (n : Nat) (e : Env) (l : List Ev) (e' : Env),
    whileLoop body y n e = some (l, e') → Sim (whilst f y n) l e e' := by
  intro n
  induction n with
  | zero => intro e l e' h; cases h
  | succ n ih =>
    intro e l e' h
    simp only [whileLoop] at h
    split at h
    · cases h
    · next v hv =>
      by_cases h0 : v = 0
      · rw [if_pos h0] at h
        simp only [Option.some.injEq, Prod.mk.injEq] at h
        obtain ⟨rfl, rfl⟩ := h
        exact Sim.test (f := fun v ρ => if v = 0 then some ρ else (f ρ).bind (whilst f y n)) hv
          ((Sim.nil e).congr (fun _ _ => by simp [h0]) (fun _ => Iff.rfl) (fun _ => Iff.rfl))
      · rw [if_neg h0] at h
        split at h
        · cases h
        · next l₁ e₁ h₁ =>
          split at h
          · cases h
          · next l₂ e₂ h₂ =>
            simp only [Option.some.injEq, Prod.mk.injEq] at h
            obtain ⟨rfl, rfl⟩ := h
            exact Sim.test (f := fun v ρ => if v = 0 then some ρ else (f ρ).bind (whilst f y n)) hv
              (((hb _ _ _ h₁).seq (ih _ _ _ h₂)).congr (fun _ _ => by simp [h0]) (fun _ => Iff.rfl) (fun _ => Iff.rfl))

/-- What a statement does depends only on what it reads. -/
theorem go_sim (F : Nat) : ∀ (s : S) (tr : Bool) (e : Env) (l : List Ev) (e' : Env), go F s tr e = some (l, e') → Sim (exec F s) l e e' := by
  intro s
  induction s with
  | pass =>
    intro tr e l e' h
    simp only [go, Option.some.injEq, Prod.mk.injEq] at h
    obtain ⟨rfl, rfl⟩ := h
    exact Sim.nil e
  | set x c ys =>
    intro tr e l e' h
    simp only [go] at h
    split at h
    · cases h
    · next n hn =>
      simp only [Option.some.injEq, Prod.mk.injEq] at h
      obtain ⟨rfl, rfl⟩ := h
      exact Sim.set (quiet_seen (quiet_nt ys)) tr hn
  | seq a b iha ihb =>
    intro tr e l e' h
    simp only [go] at h
    split at h
    · cases h
    · next l₁ e₁ h₁ =>
      split at h
      · cases h
      · next l₂ e₂ h₂ =>
        simp only [Option.some.injEq, Prod.mk.injEq] at h
        obtain ⟨rfl, rfl⟩ := h
        exact (iha _ _ _ _ h₁).seq (ihb _ _ _ _ h₂)
  | ite y a b iha ihb =>
    intro tr e l e' h
    simp only [go] at h
    split at h
    · cases h
    · next v hv =>
      split at h
      · cases h
      · next l₁ e₁ h₁ =>
        simp only [Option.some.injEq, Prod.mk.injEq] at h
        obtain ⟨rfl, rfl⟩ := h
        refine Sim.test (f := fun v ρ => if v = 0 then exec F b ρ else exec F a ρ) hv ?_
        refine ((Sim.quiet (quiet_seen (quiet_nt1 y)) e).seq (g := fun ρ => if v = 0 then exec F b ρ else exec F a ρ) ?_).congr
          (fun _ _ => rfl) (fun _ => Iff.rfl) (fun _ => Iff.rfl)
        by_cases h0 : v = 0
        · rw [if_pos h0] at h₁
          exact (ihb _ _ _ _ h₁).congr (fun _ _ => by simp [h0]) (fun _ => Iff.rfl) (fun _ => Iff.rfl)
        · rw [if_neg h0] at h₁
          exact (iha _ _ _ _ h₁).congr (fun _ _ => by simp [h0]) (fun _ => Iff.rfl) (fun _ => Iff.rfl)
  | for_ i y b ih =>
    intro tr e l e' h
    simp only [go] at h
    split at h
    · cases h
    · next n hn =>
      refine Sim.congr (f := fun ρ => (ρ y).bind fun n => each (exec F b) i (range n) ρ) ?_ (fun _ _ => rfl) (fun _ => Iff.rfl) (fun _ => Iff.rfl)
      split at h
      · next hr =>
        simp only [Option.some.injEq, Prod.mk.injEq] at h
        obtain ⟨rfl, rfl⟩ := h
        refine Sim.test (f := fun n ρ => each (exec F b) i (range n) ρ) hn ?_
        rw [hr]
        exact Sim.quiet (quiet_seen (quiet_header y i _)) e
      · next v r hr =>
        split at h
        · cases h
        · next l₁ e₁ h₁ =>
          split at h
          · cases h
          · next l₂ e₂ h₂ =>
            simp only [Option.some.injEq, Prod.mk.injEq] at h
            obtain ⟨rfl, rfl⟩ := h
            refine Sim.test (f := fun n ρ => each (exec F b) i (range n) ρ) hn ?_
            rw [hr]
            have hl := forLoop_sim (f := exec F b) i (fun e l e' h => ih false e l e' h) _ _ _ _ h₂
            exact ((Sim.quiet (quiet_seen (quiet_nt1 y)) e).seq ((Sim.wr e tr i v).seq ((ih _ _ _ _ h₁).seq
              ((Sim.quiet (quiet_seen quiet_iter) e₁).seq hl)))).congr (fun _ _ => rfl) (fun _ => Iff.rfl) (fun _ => Iff.rfl)
  | while_ y b ih =>
    intro tr e l e' h
    simp only [go] at h
    split at h
    · cases h
    · next v hv =>
      refine Sim.congr (f := fun ρ => (ρ y).bind fun v => if v = 0 then some ρ else (exec F b ρ).bind (whilst (exec F b) y F)) ?_ (fun _ _ => rfl)
        (fun _ => Iff.rfl) (fun _ => Iff.rfl)
      by_cases h0 : v = 0
      · rw [if_pos h0] at h
        simp only [Option.some.injEq, Prod.mk.injEq] at h
        obtain ⟨rfl, rfl⟩ := h
        refine Sim.test (f := fun v ρ => if v = 0 then some ρ else (exec F b ρ).bind (whilst (exec F b) y F)) hv ?_
        exact (Sim.quiet (quiet_seen (quiet_nt (y :: bodyNames b))) e).congr (fun _ _ => by simp [h0]) (fun _ => Iff.rfl) (fun _ => Iff.rfl)
      · rw [if_neg h0] at h
        split at h
        · cases h
        · next l₁ e₁ h₁ =>
          split at h
          · cases h
          · next l₂ e₂ h₂ =>
            simp only [Option.some.injEq, Prod.mk.injEq] at h
            obtain ⟨rfl, rfl⟩ := h
            refine Sim.test (f := fun v ρ => if v = 0 then some ρ else (exec F b ρ).bind (whilst (exec F b) y F)) hv ?_
            have hl := whileLoop_sim (f := exec F b) y (fun e l e' h => ih false e l e' h) _ _ _ _ h₂
            refine ((ih _ _ _ _ h₁).seq ((Sim.quiet (quiet_seen quiet_iter) e₁).seq (hl.seq
              (Sim.quiet (quiet_seen (quiet_nt (y :: bodyNames b))) e₂)))).congr (fun ρ _ => ?_) (fun _ => Iff.rfl) (fun _ => Iff.rfl)
            simp [h0]

theorem go_exec {F : Nat} {s : S} {tr : Bool} {e e' : Env} {l : List Ev} (h : go F s tr e = some (l, e')) : exec F s e = some e' := by
  have hs := go_sim F s tr e l e' h
  obtain ⟨ρ', h1, h2, h3⟩ := hs.like e fun _ _ => rfl
  rw [h1]
  congr 1
  funext y
  by_cases hy : y ∈ written l
  · exact h2 y hy
  · rw [h3 y hy, hs.same y hy]

end Verif.Loops
