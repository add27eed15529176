import Verif.Calls.Spec

/-! The code for a variable that is computed with functions, run on its own. -/

namespace Verif.Calls
open Verif Spec

theorem upd_self {α : Type} (f : Nat → α) (a : Nat) (v : α) : upd f a v a = v := by simp [upd]

theorem upd_ne {α : Type} (f : Nat → α) {a b : Nat} (v : α) (h : b ≠ a) : upd f a v b = f b := by simp [upd, h]

/-- The value as Python has it. -/
def plain : Val → PV
  | .int n => .int n
  | .fn _ c ys => .fn c ys

/-- The variables as Python has them. -/
def vals (env : Env) : PEnv := fun x => (env x).map fun p => plain p.1

/-! ### Values -/

theorem readAll_sum (env : Env) : ∀ (ys : List Nat) (n : Int) (l : List Nat), readAll env ys = some (n, l) →
    sum (vals env) ys = some n ∧ ∀ y ∈ ys, ∃ m t, env y = some (.int m, t) ∧ t ∈ l := by
  intro ys
  induction ys with
  | nil => intro n l h; simp only [readAll, Option.some.injEq, Prod.mk.injEq] at h; simp [sum, h.1]
  | cons y r ih =>
    intro n l h
    unfold readAll at h
    split at h
    · next m t e =>
      split at h
      · next m' l' e' =>
        simp only [Option.some.injEq, Prod.mk.injEq] at h
        obtain ⟨rfl, rfl⟩ := h
        obtain ⟨h1, h2⟩ := ih _ _ e'
        refine ⟨?_, ?_⟩
        · simp [sum, vals, e, plain] ; rw [show sum (vals env) r = some m' from h1]
        · intro y' hy'
          rcases List.mem_cons.1 hy' with rfl | hy'
          · exact ⟨m, t, e, by simp⟩
          · obtain ⟨a, b, c, d⟩ := h2 y' hy'
            exact ⟨a, b, c, by simp [d]⟩
      · cases h
    · cases h

theorem readAll_none (env : Env) : ∀ (ys : List Nat), readAll env ys = none → sum (vals env) ys = none := by
  intro ys
  induction ys with
  | nil => intro h; cases h
  | cons y r ih =>
    intro h
    unfold readAll at h
    unfold sum
    split at h
    · next m t e =>
      split at h
      · cases h
      · next e' => rw [ih e']; simp
    · next hn =>
      split
      · next n m e1 e2 =>
        exfalso
        simp only [vals, Option.map_eq_some_iff] at e1
        obtain ⟨⟨v, t⟩, ev, pv⟩ := e1
        cases v with
        | int k => exact hn k t ev
        | fn b c ys => simp [plain] at pv
      · rfl

/-- `ρ` has the same value as `env` for `x`. -/
def Same (env : Env) (ρ : PEnv) (x : Nat) : Prop := ρ x = vals env x

theorem sum_congr (env : Env) (ρ : PEnv) : ∀ ys : List Nat, (∀ y ∈ ys, Same env ρ y) → sum ρ ys = sum (vals env) ys := by
  intro ys
  induction ys with
  | nil => intro _; rfl
  | cons y r ih =>
    intro h
    unfold sum
    rw [ih fun z hz => h z (by simp [hz]), show ρ y = vals env y from h y (by simp)]

theorem evalOps_total (env : Env) : ∀ (e : List Op) (fin : List Nat), (evalOps env fin e).map (fun r => r.1) = total (vals env) e := by
  intro e
  induction e with
  | nil => intro fin; rfl
  | cons o r ih =>
    intro fin
    cases o with
    | name y =>
      have ih' := ih fin
      unfold evalOps total value
      rw [← ih']
      cases hy : env y with
      | none => simp [vals, hy]
      | some p =>
        obtain ⟨v, t⟩ := p
        cases v with
        | fn b c ys => simp [vals, hy, plain]
        | int n =>
          simp only [vals, hy, plain, Option.map_some]
          cases evalOps env fin r with
          | none => rfl
          | some q => rfl
    | call f =>
      unfold evalOps total value
      cases hy : env f with
      | none => simp [vals, hy]
      | some p =>
        obtain ⟨v, t⟩ := p
        cases v with
        | int n => simp [vals, hy, plain]
        | fn b c ys =>
          have ih' := ih (b :: fin)
          rw [← ih']
          simp only [vals, hy, plain, Option.map_some]
          cases hr : readAll env ys with
          | none =>
            have := readAll_none env ys hr
            rw [this]; simp
          | some q =>
            obtain ⟨n, ls⟩ := q
            have := (readAll_sum env ys n ls hr).1
            rw [this]
            cases evalOps env (b :: fin) r with
            | none => rfl
            | some q => rfl

/-- Everything that the right-hand side looks at. -/
def Looks (env : Env) (e : List Op) (x : Nat) : Prop :=
  .name x ∈ e ∨ .call x ∈ e ∨ ∃ f b c ys t, .call f ∈ e ∧ env f = some (.fn b c ys, t) ∧ x ∈ ys

theorem total_congr (env : Env) (ρ : PEnv) : ∀ e : List Op, (∀ x, Looks env e x → Same env ρ x) → total ρ e = total (vals env) e := by
  intro e
  induction e with
  | nil => intro _; rfl
  | cons o r ih =>
    intro h
    have hr : total ρ r = total (vals env) r := by
      refine ih fun x hx => h x ?_
      rcases hx with hx | hx | ⟨f, b, c, ys, t, hf, e', hx⟩
      · exact .inl (by simp [hx])
      · exact .inr (.inl (by simp [hx]))
      · exact .inr (.inr ⟨f, b, c, ys, t, by simp [hf], e', hx⟩)
    have ho : value ρ o = value (vals env) o := by
      cases o with
      | name y => simp only [value]; rw [show ρ y = vals env y from h y (.inl (by simp))]
      | call f =>
        simp only [value]
        rw [show ρ f = vals env f from h f (.inr (.inl (by simp)))]
        cases hy : env f with
        | none => simp [vals, hy]
        | some p =>
          obtain ⟨v, t⟩ := p
          cases v with
          | int n => simp [vals, hy, plain]
          | fn b c ys =>
            have := sum_congr env ρ ys fun y hy' => h y (.inr (.inr ⟨f, b, c, ys, t, by simp, hy, hy'⟩))
            have hv : vals env f = some (.fn c ys) := by simp [vals, hy, plain]
            rw [hv]; simp only [this]
    unfold total
    rw [ho, hr]

/-! ### What the links cover -/

/-- The number of a function determines it. -/
def Ids (env : Env) : Prop := ∀ f g b c d ys zs t u, env f = some (.fn b c ys, t) → env g = some (.fn b d zs, u) → f = g ∧ ys = zs

theorem evalOps_links (env : Env) (hid : Ids env) : ∀ (e : List Op) (fin : List Nat) (n : Int) (l fin' : List Nat),
    evalOps env fin e = some (n, l, fin') →
    (∀ x, (.name x ∈ e ∨ .call x ∈ e) → ∃ v t, env x = some (v, t) ∧ t ∈ l) ∧
    (∀ f b c ys t, .call f ∈ e → env f = some (.fn b c ys, t) → (∀ y ∈ ys, ∃ v u, env y = some (v, u)) ∧
      (b ∉ fin → ∀ y ∈ ys, ∀ v u, env y = some (v, u) → u ∈ l) ∧ b ∈ fin') ∧
    (∀ b ∈ fin', b ∈ fin ∨ ∃ f c ys t, .call f ∈ e ∧ env f = some (.fn b c ys, t)) ∧
    (∀ b ∈ fin, b ∈ fin') := by
  intro e
  induction e with
  | nil =>
    intro fin n l fin' h
    simp only [evalOps, Option.some.injEq, Prod.mk.injEq] at h
    obtain ⟨_, _, rfl⟩ := h
    simp
  | cons o r ih =>
    intro fin n l fin' h
    cases o with
    | name y =>
      unfold evalOps at h
      split at h
      · next m t ey =>
        split at h
        · next m' l' f' e' =>
          simp only [Option.some.injEq, Prod.mk.injEq] at h
          obtain ⟨rfl, rfl, rfl⟩ := h
          obtain ⟨h1, h2, h3, h4⟩ := ih _ _ _ _ e'
          refine ⟨?_, ?_, ?_, h4⟩
          · intro x hx
            simp only [List.mem_cons, Op.name.injEq, reduceCtorEq, false_or] at hx
            by_cases hxy : x = y
            · subst hxy; exact ⟨_, _, ey, by simp⟩
            · obtain ⟨v, t', a, b⟩ := h1 x (by simpa [hxy] using hx)
              exact ⟨v, t', a, by simp [b]⟩
          · intro f b c ys t' hf ef
            obtain ⟨a1, a2, a3⟩ := h2 f b c ys t' (by simpa using hf) ef
            exact ⟨a1, fun hb y' hy' v u eu => by simp [a2 hb y' hy' v u eu], a3⟩
          · intro b hb
            rcases h3 b hb with h | ⟨f, c, ys, t', hf, ef⟩
            · exact .inl h
            · exact .inr ⟨f, c, ys, t', by simp [hf], ef⟩
        · cases h
      · cases h
    | call g =>
      unfold evalOps at h
      split at h
      · next b0 c0 ys0 t0 eg =>
        split at h
        · next n0 ls er =>
          split at h
          · next m' l' f' e' =>
            simp only [Option.some.injEq, Prod.mk.injEq] at h
            obtain ⟨rfl, rfl, rfl⟩ := h
            obtain ⟨h1, h2, h3, h4⟩ := ih _ _ _ _ e'
            have hsub : ∀ u ∈ l', u ∈ t0 :: (if b0 ∈ fin then l' else ls ++ l') := by
              intro u hu; split <;> simp [hu]
            have hr := (readAll_sum env ys0 n0 ls er).2
            refine ⟨?_, ?_, ?_, ?_⟩
            · intro x hx
              by_cases hxg : x = g
              · subst hxg; exact ⟨_, _, eg, by simp⟩
              · obtain ⟨v, t', a, b⟩ := h1 x (by simpa [hxg] using hx)
                exact ⟨v, t', a, hsub _ b⟩
            · intro f b c ys t' hf ef
              have hhead : b = b0 → f = g ∧ ys = ys0 := by
                rintro rfl; exact hid _ _ _ _ _ _ _ _ _ ef eg
              have hdef : ∀ y ∈ ys0, ∃ v u, env y = some (v, u) := fun y hy => by
                obtain ⟨m, t, a, _⟩ := hr y hy; exact ⟨_, _, a⟩
              by_cases hb : b = b0
              · obtain ⟨rfl, rfl⟩ := hhead hb
                subst hb
                refine ⟨hdef, ?_, h4 _ (by simp)⟩
                intro hb y hy v u eu
                obtain ⟨m, t, a, ht⟩ := hr y hy
                rw [a] at eu; cases eu
                rw [if_neg hb]; simp [ht]
              · have hf' : Op.call f ∈ r := by
                  rcases List.mem_cons.1 hf with h | h
                  · cases h; rw [eg] at ef; cases ef; exact absurd rfl hb
                  · exact h
                obtain ⟨a1, a2, a3⟩ := h2 f b c ys t' hf' ef
                exact ⟨a1, fun hbf y hy v u eu => hsub _ (a2 (by simp [hb, hbf]) y hy v u eu), a3⟩
            · intro b hb
              rcases h3 b hb with h | ⟨f, c, ys, t', hf, ef⟩
              · rcases List.mem_cons.1 h with rfl | h
                · exact .inr ⟨g, _, _, _, by simp, eg⟩
                · exact .inl h
              · exact .inr ⟨f, c, ys, t', by simp [hf], ef⟩
            · intro b hb; exact h4 b (by simp [hb])
          · cases h
        · cases h
      · cases h

/-! ### The session -/

/-- The statements of a log (newest first) whose numbers are in `C`, in order. -/
def sel (C : Nat → Prop) [DecidablePred C] : List Stmt → List Stmt
  | [] => []
  | s :: l => sel C l ++ (if C l.length then [s] else [])

theorem runAll_append : ∀ (p q : List Stmt) (ρ : PEnv), runAll ρ (p ++ q) = (runAll ρ p).bind fun ρ' => runAll ρ' q := by
  intro p
  induction p with
  | nil => intro q ρ; rfl
  | cons s r ih =>
    intro q ρ
    simp only [List.cons_append, runAll]
    cases exec ρ s with
    | none => rfl
    | some ρ' => exact ih q ρ'

/-- Run alone, the statements in `C` give the variables that were set in them. -/
def Alone (C : Nat → Prop) [DecidablePred C] (σ : St) : Prop :=
  ∃ ρ, runAll (fun _ => none) (sel C σ.log) = some ρ ∧ ∀ x v t, σ.env x = some (v, t) → C t → ρ x = some (plain v)

/-- What holds between statements. -/
structure Inv (σ : St) : Prop where
  past : ∀ x v t, σ.env x = some (v, t) → t < σ.log.length
  own : ∀ f b c ys t, σ.env f = some (.fn b c ys, t) → b = t
  uniq : ∀ x y v w t, σ.env x = some (v, t) → σ.env y = some (w, t) → x = y
  dynLe : ∀ t, t < σ.log.length → ∀ u ∈ σ.dyn t, u < t
  statLe : ∀ t, t < σ.log.length → ∀ u ∈ σ.stat t, u < t
  mono : ∀ a b, a < b → b < σ.log.length → σ.st a ≤ σ.st b ∧ σ.st a ≠ σ.st b
  cellLe : ∀ a, a < σ.log.length → (σ.st a).cellNum ≤ σ.cells

theorem Inv.ids {σ : St} (h : Inv σ) : Ids σ.env := by
  intro f g b c d ys zs t u hf hg
  have h1 := h.own _ _ _ _ _ hf
  have h2 := h.own _ _ _ _ _ hg
  subst h1; subst h2
  have := h.uniq _ _ _ _ _ hf hg
  subst this
  rw [hf] at hg; cases hg
  exact ⟨rfl, rfl⟩

/-- Running statements alone works for every set that is closed under links. -/
def Good (σ : St) : Prop :=
  ∀ (C : Nat → Prop) [DecidablePred C], (∀ t, t < σ.log.length → C t → ∀ u, u ∈ σ.dyn t ∨ u ∈ σ.stat t → C u) → Alone C σ

/-- What holds in a cell of which `pre` has been run. -/
structure CellInv (σ : St) (k : K) (pre : List Stmt) : Prop where
  same : ∀ y, (∀ w ∈ pre, ¬ Sets w y) → σ.env y = k.env0 y
  older : ∀ y v t, k.env0 y = some (v, t) → t < σ.log.length
  dead : ∀ y ∈ k.dead, ∃ w ∈ pre, Sets w y
  funcs : ∀ f b c ys t, (∃ w ∈ pre, Sets w f) → σ.env f = some (.fn b c ys, t) → k.funcs f = some ys
  fin : ∀ b ∈ k.fin, b < σ.log.length ∧ ∀ f c ys t, σ.env f = some (.fn b c ys, t) → Called pre f
  cells : ∀ a, a < σ.log.length → (σ.st a).cellNum = σ.cells → (σ.st a).stmtNum < k.idx

theorem called_more {pre : List Stmt} {f : Nat} {s : Stmt} (h : Called pre f) (hs : ¬ Sets s f) : Called (pre ++ [s]) f := by
  obtain ⟨p₁, s₀, p₂, rfl, h1, h2⟩ := h
  refine ⟨p₁, s₀, p₂ ++ [s], by simp, h1, fun w hw => ?_⟩
  simp only [List.mem_cons, List.mem_append, List.not_mem_nil, or_false] at hw
  rcases hw with rfl | hw | rfl
  · exact h2 _ (by simp)
  · exact h2 _ (by simp [hw])
  · exact hs

theorem tsOf_mem {env : Env} {y : Nat} {v : Val} {t : Nat} (h : env y = some (v, t)) : t ∈ tsOf env y := by
  simp [tsOf, h]

theorem mem_tsOf {env : Env} {y t : Nat} (h : t ∈ tsOf env y) : ∃ v, env y = some (v, t) := by
  unfold tsOf at h
  split at h
  · next v u e => simp only [List.mem_singleton] at h; subst h; exact ⟨v, e⟩
  · cases h

theorem mem_staticOp {k : K} {o : Op} {t : Nat} (h : t ∈ staticOp k o) : ∃ y v, k.env0 y = some (v, t) := by
  cases o with
  | name y =>
    simp only [staticOp] at h
    split at h
    · cases h
    · exact ⟨y, mem_tsOf h⟩
  | call f =>
    simp only [staticOp] at h
    rcases List.mem_append.1 h with h | h
    · obtain ⟨y, _, hy⟩ := List.mem_flatMap.1 h
      exact ⟨y, mem_tsOf hy⟩
    · split at h
      · cases h
      · rcases List.mem_append.1 h with h | h
        · exact ⟨f, mem_tsOf h⟩
        · unfold oldBody at h
          split at h
          · obtain ⟨y, _, hy⟩ := List.mem_flatMap.1 h
            exact ⟨y, mem_tsOf hy⟩
          · cases h

/-- The body of a function is covered by the static links as far as the cell has not set what it reads. -/
theorem static_covers {σ : St} {k : K} {pre : List Stmt} (hk : CellInv σ k pre) {f b : Nat} {c : Int} {ys : List Nat} {t : Nat}
    (hf : σ.env f = some (.fn b c ys, t)) {y : Nat} (hy : y ∈ ys) (hq : ∀ w ∈ pre, ¬ Sets w y) {v : Val} {u : Nat}
    (hu : σ.env y = some (v, u)) : u ∈ staticOp k (.call f) := by
  have hu0 : u ∈ tsOf k.env0 y := tsOf_mem (by rw [← hk.same y hq]; exact hu)
  unfold staticOp
  by_cases hw : ∃ w ∈ pre, Sets w f
  · refine List.mem_append.2 (.inl ?_)
    unfold newBody
    rw [hk.funcs f b c ys t hw hf]
    exact List.mem_flatMap.2 ⟨y, hy, hu0⟩
  · refine List.mem_append.2 (.inr ?_)
    rw [if_neg (fun hd => hw (hk.dead f hd))]
    refine List.mem_append.2 (.inr ?_)
    unfold oldBody
    have : k.env0 f = some (.fn b c ys, t) := by
      rw [← hk.same f fun w h1 h2 => hw ⟨w, h1, h2⟩]; exact hf
    rw [this]
    exact List.mem_flatMap.2 ⟨y, hy, hu0⟩

theorem upd_some {env : Env} {x : Nat} {p : Val × Nat} {y : Nat} {q : Val × Nat} (h : upd env x (some p) y = some q) :
    (y = x ∧ q = p) ∨ (y ≠ x ∧ env y = some q) := by
  by_cases e : y = x
  · subst e; rw [upd_self] at h; cases h; exact .inl ⟨rfl, rfl⟩
  · rw [upd_ne _ _ e] at h; exact .inr ⟨e, h⟩

theorem stamps_more {σ : St} {k : K} (hi : Inv σ)
    (hc : ∀ a, a < σ.log.length → (σ.st a).cellNum = σ.cells → (σ.st a).stmtNum < k.idx) (a b : Nat) (hab : a < b)
    (hb : b < σ.log.length + 1) :
    upd σ.st σ.log.length ⟨σ.cells, k.idx⟩ a ≤ upd σ.st σ.log.length ⟨σ.cells, k.idx⟩ b ∧
    upd σ.st σ.log.length ⟨σ.cells, k.idx⟩ a ≠ upd σ.st σ.log.length ⟨σ.cells, k.idx⟩ b := by
  have ha : a ≠ σ.log.length := by omega
  rw [upd_ne _ _ ha]
  by_cases e : b = σ.log.length
  · subst e
    rw [upd_self]
    have h1 := hi.cellLe a hab
    have h2 := hc a hab
    refine ⟨?_, ?_⟩
    · rw [Timestamp.le_def]; simp only
      rcases Int.lt_or_le (σ.st a).cellNum σ.cells with h | h
      · exact .inl h
      · have : (σ.st a).cellNum = σ.cells := by omega
        exact .inr ⟨this, by have := h2 this; omega⟩
    · intro h
      rw [h] at h2
      have := h2 rfl
      simp at this
  · rw [upd_ne _ _ e]; exact hi.mono a b hab (by omega)

/-- The general part of a step: a variable `x` gets the value `v` from statement `s` with links `l` and `l'`. -/
theorem inv_step {σ : St} {k : K} (hi : Inv σ)
    (hc : ∀ a, a < σ.log.length → (σ.st a).cellNum = σ.cells → (σ.st a).stmtNum < k.idx) (s : Stmt) (x : Nat) (v : Val)
    (l l' : List Nat) (hv : ∀ b c ys, v = .fn b c ys → b = σ.log.length) (hl : ∀ u ∈ l, u < σ.log.length)
    (hl' : ∀ u ∈ l', u < σ.log.length) :
    Inv { env := upd σ.env x (some (v, σ.log.length)), log := s :: σ.log,
          st := upd σ.st σ.log.length ⟨σ.cells, k.idx⟩, dyn := upd σ.dyn σ.log.length l,
          stat := upd σ.stat σ.log.length l', cells := σ.cells } where
  past := by
    intro y w t h
    rcases upd_some h with ⟨_, h⟩ | ⟨_, h⟩
    · cases h; simp
    · have := hi.past _ _ _ h; simp only [List.length_cons]; omega
  own := by
    intro f b c ys t h
    rcases upd_some h with ⟨_, h⟩ | ⟨_, h⟩
    · cases h; exact hv _ _ _ rfl
    · exact hi.own _ _ _ _ _ h
  uniq := by
    intro y z w w' t h1 h2
    rcases upd_some h1 with ⟨e1, h1⟩ | ⟨_, h1⟩ <;> rcases upd_some h2 with ⟨e2, h2⟩ | ⟨_, h2⟩
    · rw [e1, e2]
    · cases h1; have := hi.past _ _ _ h2; omega
    · cases h2; have := hi.past _ _ _ h1; omega
    · exact hi.uniq _ _ _ _ _ h1 h2
  dynLe := by
    intro t ht u hu
    simp only [List.length_cons] at ht
    dsimp only at hu
    by_cases e : t = σ.log.length
    · subst e; rw [upd_self] at hu; exact hl u hu
    · rw [upd_ne _ _ e] at hu; exact hi.dynLe t (by omega) u hu
  statLe := by
    intro t ht u hu
    simp only [List.length_cons] at ht
    dsimp only at hu
    by_cases e : t = σ.log.length
    · subst e; rw [upd_self] at hu; exact hl' u hu
    · rw [upd_ne _ _ e] at hu; exact hi.statLe t (by omega) u hu
  mono := fun a b hab hb => stamps_more hi hc a b hab (by simpa using hb)
  cellLe := by
    intro a ha
    simp only [List.length_cons] at ha
    dsimp only
    by_cases e : a = σ.log.length
    · subst e; rw [upd_self]
    · rw [upd_ne _ _ e]; exact hi.cellLe a (by omega)

theorem stmtNum_step {σ : St} {k : K} (hc : ∀ a, a < σ.log.length → (σ.st a).cellNum = σ.cells → (σ.st a).stmtNum < k.idx)
    (a : Nat) (ha : a < σ.log.length + 1) (h : (upd σ.st σ.log.length ⟨σ.cells, k.idx⟩ a).cellNum = σ.cells) :
    (upd σ.st σ.log.length ⟨σ.cells, k.idx⟩ a).stmtNum < ((k.idx + 1 : Nat) : Int) := by
  by_cases e : a = σ.log.length
  · subst e; rw [upd_self]; simp only; omega
  · rw [upd_ne _ _ e] at h ⊢
    have := hc a (by omega) h
    omega

/-- The general part of running a set of statements alone. -/
theorem good_step {σ : St} (hg : Good σ) (s : Stmt) (x : Nat) (v : Val) (l l' : List Nat) (st : Nat → Timestamp)
    (hex : ∀ (C : Nat → Prop) [DecidablePred C] (ρ : PEnv), (∀ u, u ∈ l ∨ u ∈ l' → C u) →
      (∀ y w t, σ.env y = some (w, t) → C t → ρ y = some (plain w)) → exec ρ s = some (upd ρ x (some (plain v)))) :
    Good { env := upd σ.env x (some (v, σ.log.length)), log := s :: σ.log, st := st, dyn := upd σ.dyn σ.log.length l,
           stat := upd σ.stat σ.log.length l', cells := σ.cells } := by
  intro C _ hC
  have hold : ∀ t, t < σ.log.length → C t → ∀ u, u ∈ σ.dyn t ∨ u ∈ σ.stat t → C u := by
    intro t ht hct u hu
    refine hC t (by simp only [List.length_cons]; omega) hct u ?_
    dsimp only
    rw [upd_ne _ _ (by omega), upd_ne _ _ (by omega)]; exact hu
  obtain ⟨ρ, h1, h2⟩ := hg C hold
  by_cases hn : C σ.log.length
  · have hlinks : ∀ u, u ∈ l ∨ u ∈ l' → C u := by
      intro u hu
      refine hC σ.log.length (by simp) hn u ?_
      dsimp only
      rw [upd_self, upd_self]; exact hu
    have he := hex C ρ hlinks h2
    refine ⟨upd ρ x (some (plain v)), ?_, ?_⟩
    · show runAll _ (sel C σ.log ++ (if C σ.log.length then [s] else [])) = _
      rw [runAll_append, h1, if_pos hn]
      simp only [Option.bind_some, runAll, he]
    · intro y w t hy hct
      rcases upd_some hy with ⟨rfl, h⟩ | ⟨hne, h⟩
      · cases h; rw [upd_self]
      · rw [upd_ne _ _ hne]; exact h2 y w t h hct
  · refine ⟨ρ, ?_, ?_⟩
    · show runAll _ (sel C σ.log ++ (if C σ.log.length then [s] else [])) = _
      rw [if_neg hn, List.append_nil]; exact h1
    · intro y w t hy hct
      rcases upd_some hy with ⟨rfl, h⟩ | ⟨hne, h⟩
      · cases h; exact absurd hct hn
      · exact h2 y w t h hct

/-- What one statement needs: a function that has been called in the cell before reads nothing that the cell has set. -/
def QuietStmt (env : Env) (pre : List Stmt) (s : Stmt) : Prop :=
  ∀ f b c ys t, CallsFn s f → Called pre f → env f = some (.fn b c ys, t) → ∀ y ∈ ys, ∀ w ∈ pre, ¬ Sets w y

theorem step_inv {σ : St} {k : K} {pre : List Stmt} {s : Stmt} {σ' : St} {k' : K} (hi : Inv σ) (hk : CellInv σ k pre)
    (h : step σ k s = some (σ', k')) :
    Inv σ' ∧ CellInv σ' k' (pre ++ [s]) ∧ k'.env0 = k.env0 ∧ σ'.cells = σ.cells ∧ exec (vals σ.env) s = some (vals σ'.env) ∧
      (Good σ → QuietStmt σ.env pre s → Good σ') := by
  cases s with
  | defn f c ys =>
    simp only [step, Option.some.injEq, Prod.mk.injEq] at h
    obtain ⟨rfl, rfl⟩ := h
    refine ⟨inv_step hi hk.cells _ _ _ _ _ (fun b c ys e => by cases e; rfl) (by simp) (by simp), ?_, rfl, rfl, ?_, ?_⟩
    · refine ⟨?_, ?_, ?_, ?_, ?_, ?_⟩
      · intro y hy
        have hne : y ≠ f := fun e => hy (.defn f c ys) (by simp) e.symm
        dsimp only
        rw [upd_ne _ _ hne]
        exact hk.same y fun w hw => hy w (by simp [hw])
      · intro y v t h
        have := hk.older y v t h
        simp only [List.length_cons]; omega
      · intro y hy
        rcases List.mem_cons.1 hy with rfl | hy
        · exact ⟨.defn y c ys, by simp, rfl⟩
        · obtain ⟨w, hw, hs⟩ := hk.dead y hy
          exact ⟨w, by simp [hw], hs⟩
      · intro g b d zs t hw hg
        dsimp only
        rcases upd_some hg with ⟨rfl, h⟩ | ⟨hne, h⟩
        · cases h; rw [upd_self]
        · rw [upd_ne _ _ hne]
          refine hk.funcs g b d zs t ?_ h
          obtain ⟨w, hw, hs⟩ := hw
          simp only [List.mem_append, List.mem_singleton] at hw
          rcases hw with hw | rfl
          · exact ⟨w, hw, hs⟩
          · exact absurd hs.symm hne
      · intro b hb
        obtain ⟨h1, h2⟩ := hk.fin b hb
        refine ⟨by simp only [List.length_cons]; omega, ?_⟩
        intro g d zs t hg
        rcases upd_some hg with ⟨rfl, h⟩ | ⟨hne, h⟩
        · cases h; omega
        · exact called_more (h2 g d zs t h) (fun e => hne e.symm)
      · intro a ha h
        exact stmtNum_step hk.cells a (by simpa using ha) h
    · simp only [exec, Option.some.injEq]
      funext y
      by_cases e : y = f
      · subst e; simp [vals, upd_self, plain]
      · rw [upd_ne _ _ e]; simp only [vals]; rw [upd_ne _ _ e]
    · intro hg _
      exact good_step hg _ _ _ _ _ _ fun C _ ρ _ _ => rfl
  | set x c e =>
    simp only [step] at h
    split at h
    · cases h
    · next n l fin he =>
      simp only [Option.some.injEq, Prod.mk.injEq] at h
      obtain ⟨rfl, rfl⟩ := h
      obtain ⟨hl1, hl2, hl3, hl4⟩ := evalOps_links σ.env hi.ids e k.fin n l fin he
      have hstat : ∀ u ∈ e.flatMap (staticOp k), u < σ.log.length := by
        intro u hu
        obtain ⟨o, _, ho⟩ := List.mem_flatMap.1 hu
        obtain ⟨y, v, hy⟩ := mem_staticOp ho
        exact hk.older y v u hy
      have hdyn : ∀ u ∈ l, u < σ.log.length := by
        have key : ∀ (e : List Op) (fin : List Nat) (n : Int) (l fin' : List Nat), evalOps σ.env fin e = some (n, l, fin') →
            ∀ u ∈ l, ∃ y v, σ.env y = some (v, u) := by
          intro e
          induction e with
          | nil =>
            intro fin n l fin' h
            simp only [evalOps, Option.some.injEq, Prod.mk.injEq] at h
            obtain ⟨_, rfl, _⟩ := h
            intro u hu; cases hu
          | cons o r ih =>
            intro fin n l fin' h u hu
            cases o with
            | name y =>
              unfold evalOps at h
              split at h
              · next m t ey =>
                split at h
                · next e' =>
                  simp only [Option.some.injEq, Prod.mk.injEq] at h
                  obtain ⟨_, rfl, _⟩ := h
                  rcases List.mem_cons.1 hu with rfl | hu
                  · exact ⟨y, _, ey⟩
                  · exact ih _ _ _ _ e' u hu
                · cases h
              · cases h
            | call g =>
              unfold evalOps at h
              split at h
              · next b0 c0 ys0 t0 eg =>
                split at h
                · next n0 ls er =>
                  split at h
                  · next e' =>
                    simp only [Option.some.injEq, Prod.mk.injEq] at h
                    obtain ⟨_, rfl, _⟩ := h
                    have hls : ∀ (ys : List Nat) (n : Int) (ls : List Nat), readAll σ.env ys = some (n, ls) →
                        ∀ u ∈ ls, ∃ y v, σ.env y = some (v, u) := by
                      intro ys
                      induction ys with
                      | nil => intro n ls h u hu; simp only [readAll, Option.some.injEq, Prod.mk.injEq] at h; rw [← h.2] at hu; cases hu
                      | cons y r ih =>
                        intro n ls h u hu
                        unfold readAll at h
                        split at h
                        · next m t ey =>
                          split at h
                          · next e'' =>
                            simp only [Option.some.injEq, Prod.mk.injEq] at h
                            obtain ⟨_, rfl⟩ := h
                            rcases List.mem_cons.1 hu with rfl | hu
                            · exact ⟨y, _, ey⟩
                            · exact ih _ _ e'' u hu
                          · cases h
                        · cases h
                    rcases List.mem_cons.1 hu with rfl | hu
                    · exact ⟨g, _, eg⟩
                    · split at hu
                      · exact ih _ _ _ _ e' u hu
                      · rcases List.mem_append.1 hu with hu | hu
                        · exact hls _ _ _ er u hu
                        · exact ih _ _ _ _ e' u hu
                  · cases h
                · cases h
              · cases h
        intro u hu
        obtain ⟨y, v, hy⟩ := key e k.fin n l fin he u hu
        exact hi.past y v u hy
      have htot : total (vals σ.env) e = some n := by
        rw [← evalOps_total σ.env e k.fin, he]; rfl
      refine ⟨inv_step hi hk.cells _ _ _ _ _ (fun b c ys e => by cases e) hdyn hstat, ?_, rfl, rfl, ?_, ?_⟩
      · refine ⟨?_, ?_, ?_, ?_, ?_, ?_⟩
        · intro y hy
          have hne : y ≠ x := fun e' => hy (.set x c e) (by simp) e'.symm
          dsimp only
          rw [upd_ne _ _ hne]
          exact hk.same y fun w hw => hy w (by simp [hw])
        · intro y v t h
          have := hk.older y v t h
          simp only [List.length_cons]; omega
        · intro y hy
          dsimp only [deadAfter] at hy
          have hold : y ∈ k.dead → ∃ w ∈ pre ++ [Stmt.set x c e], Sets w y := by
            intro hy
            obtain ⟨w, hw, hs⟩ := hk.dead y hy
            exact ⟨w, by simp [hw], hs⟩
          split at hy
          · exact hold hy
          · rcases List.mem_cons.1 hy with rfl | hy
            · exact ⟨.set y c e, by simp, rfl⟩
            · exact hold hy
        · intro g b d zs t hw hg
          dsimp only
          rcases upd_some hg with ⟨rfl, h⟩ | ⟨hne, h⟩
          · cases h
          · refine hk.funcs g b d zs t ?_ h
            obtain ⟨w, hw, hs⟩ := hw
            simp only [List.mem_append, List.mem_singleton] at hw
            rcases hw with hw | rfl
            · exact ⟨w, hw, hs⟩
            · exact absurd hs.symm hne
        · intro b hb
          dsimp only at hb ⊢
          rcases hl3 b hb with hb | ⟨f, d, ys, t, hf, ef⟩
          · obtain ⟨h1, h2⟩ := hk.fin b hb
            refine ⟨by simp only [List.length_cons]; omega, ?_⟩
            intro g d zs t hg
            rcases upd_some hg with ⟨rfl, h⟩ | ⟨hne, h⟩
            · cases h
            · exact called_more (h2 g d zs t h) (fun e => hne e.symm)
          · have hbt := hi.own _ _ _ _ _ ef
            have hlt := hi.past _ _ _ ef
            refine ⟨by simp only [List.length_cons]; omega, ?_⟩
            intro g d' zs t' hg
            rcases upd_some hg with ⟨rfl, h⟩ | ⟨hne, h⟩
            · cases h
            · have := (hi.ids _ _ _ _ _ _ _ _ _ h ef).1
              subst this
              refine ⟨pre, _, [], rfl, hf, ?_⟩
              intro w hw
              simp only [List.mem_singleton] at hw
              subst hw
              exact fun e => hne e.symm
        · intro a ha h
          exact stmtNum_step hk.cells a (by simpa using ha) h
      · simp only [exec, htot, Option.map_some, Option.some.injEq]
        funext y
        by_cases e' : y = x
        · subst e'; simp [vals, upd_self, plain]
        · rw [upd_ne _ _ e']; simp only [vals]; rw [upd_ne _ _ e']
      · intro hg hq
        refine good_step hg _ _ _ _ _ _ ?_
        intro C _ ρ hlinks hρ
        have hsame : ∀ y v t, σ.env y = some (v, t) → C t → Same σ.env ρ y := by
          intro y v t hy hc
          show ρ y = vals σ.env y
          rw [hρ y v t hy hc]; simp [vals, hy]
        have : total ρ e = total (vals σ.env) e := by
          refine total_congr σ.env ρ e fun y hy => ?_
          rcases hy with hy | hy | ⟨f, b, d, ys, t, hf, ef, hy⟩
          · obtain ⟨v, t, h1, h2⟩ := hl1 y (.inl hy)
            exact hsame y v t h1 (hlinks t (.inl h2))
          · obtain ⟨v, t, h1, h2⟩ := hl1 y (.inr hy)
            exact hsame y v t h1 (hlinks t (.inl h2))
          · obtain ⟨g1, g2, _⟩ := hl2 f b d ys t hf ef
            obtain ⟨v, u, hu⟩ := g1 y hy
            refine hsame y v u hu (hlinks u ?_)
            by_cases hb : b ∈ k.fin
            · have hcalled := (hk.fin b hb).2 f d ys t ef
              have := hq f b d ys t hf hcalled ef y hy
              exact .inr (List.mem_flatMap.2 ⟨_, hf, static_covers hk ef hy this hu⟩)
            · exact .inl (g2 hb y hy v u hu)
        show (total ρ e).map _ = _
        rw [this, htot]; rfl

theorem step_none {σ : St} {k : K} {s : Stmt} (h : step σ k s = none) : exec (vals σ.env) s = none := by
  cases s with
  | defn f c ys => cases h
  | set x c e =>
    simp only [step] at h
    split at h
    · next he =>
      have := evalOps_total σ.env e k.fin
      rw [he] at this
      simp only [exec, ← this]; rfl
    · cases h

theorem goCell_inv : ∀ (c : List Stmt) (σ : St) (k : K) (pre : List Stmt), Inv σ → CellInv σ k pre →
    Inv (goCell σ k c) ∧ vals (goCell σ k c).env = cell (vals σ.env) c ∧
    (Good σ → (∀ p s q, c = p ++ s :: q → ∀ ρ', runAll (vals σ.env) p = some ρ' → ∀ f d ys, CallsFn s f → Called (pre ++ p) f →
      ρ' f = some (.fn d ys) → ∀ y ∈ ys, ∀ w ∈ pre ++ p, ¬ Sets w y) → Good (goCell σ k c)) := by
  intro c
  induction c with
  | nil => intro σ k pre hi _; exact ⟨hi, rfl, fun h _ => h⟩
  | cons s r ih =>
    intro σ k pre hi hk
    unfold goCell cell
    cases hs : step σ k s with
    | none => rw [step_none hs]; exact ⟨hi, rfl, fun h _ => h⟩
    | some p =>
      obtain ⟨σ', k'⟩ := p
      obtain ⟨h1, h2, _, _, h5, h6⟩ := step_inv hi hk hs
      obtain ⟨i1, i2, i3⟩ := ih σ' k' (pre ++ [s]) h1 h2
      rw [h5]
      refine ⟨i1, i2, fun hg hq => i3 (h6 hg ?_) ?_⟩
      · intro f b d ys t hf hc ef y hy w hw
        exact hq [] s r rfl _ rfl f d ys hf (by simpa using hc) (by simp [vals, ef, plain]) y hy w (by simpa using hw)
      · intro p s' q e ρ' hr f d ys hf hc ef y hy w hw
        refine hq (s :: p) s' q (by rw [e]; rfl) ρ' ?_ f d ys hf ?_ ef y hy w ?_
        · simp only [runAll, h5]; exact hr
        · simpa using hc
        · simpa using hw

theorem inv_cells {σ : St} (h : Inv σ) : Inv { σ with cells := σ.cells + 1 } :=
  ⟨h.past, h.own, h.uniq, h.dynLe, h.statLe, h.mono, fun a ha => by have := h.cellLe a ha; dsimp only; omega⟩

theorem cellInv_start {σ : St} (h : Inv σ) : CellInv { σ with cells := σ.cells + 1 } { env0 := σ.env } [] :=
  ⟨fun _ _ => rfl, fun y v t hy => h.past y v t hy, fun y hy => (by cases hy),
   fun f b c ys t hw => (by obtain ⟨w, hw, _⟩ := hw; cases hw), fun b hb => (by cases hb),
   fun a ha e => (by have := h.cellLe a ha; simp only at e; omega)⟩

theorem run_inv : ∀ h : List (List Stmt), Inv (run h) ∧ vals (run h).env = notebook h := by
  intro h
  induction h with
  | nil =>
    exact ⟨⟨fun _ _ _ h => (by cases h), fun _ _ _ _ _ h => (by cases h), fun _ _ _ _ _ h => (by cases h), fun _ h => (by cases h),
      fun _ h => (by cases h), fun _ _ _ h => (by cases h), fun _ h => (by cases h)⟩, rfl⟩
  | cons c h ih =>
    obtain ⟨i1, i2, _⟩ := goCell_inv c _ _ [] (inv_cells ih.1) (cellInv_start ih.1)
    refine ⟨i1, ?_⟩
    show vals (goCell _ _ c).env = cell (notebook h) c
    rw [i2, ← ih.2]

theorem run_good : ∀ h : List (List Stmt), Quiet h → Good (run h) := by
  intro h
  induction h with
  | nil => intro _ C _ _; exact ⟨_, rfl, fun _ _ _ h => by cases h⟩
  | cons c h ih =>
    intro hq
    have hi := run_inv h
    obtain ⟨_, _, i3⟩ := goCell_inv c _ _ [] (inv_cells hi.1) (cellInv_start hi.1)
    refine i3 (ih hq.2) ?_
    intro p s q e ρ' hr f d ys hf hc ef y hy w hw
    refine hq.1 p s q e ρ' ?_ f d ys hf (by simpa using hc) ef y hy w (by simpa using hw)
    rw [← hi.2]; exact hr

/-- The values that the session keeps are those that Python gives. -/
theorem values_right (h : List (List Stmt)) (x : Nat) : ((run h).env x).map (fun p => plain p.1) = notebook h x :=
  congrFun (run_inv h).2 x

/-! ### The code -/

theorem sel_text (C : List Nat) (hs : C.Pairwise (· < ·)) : ∀ (log : List Stmt),
    sel (fun t => t ∈ C) log = (C.filter (· < log.length)).filterMap (fun t => log.reverse[t]?) := by
  intro log
  induction log with
  | nil => simp [sel]
  | cons s l ih =>
    have key : C.filter (· < (s :: l).length) = C.filter (· < l.length) ++ (if l.length ∈ C then [l.length] else []) := by
      clear ih
      induction C with
      | nil => simp
      | cons a r ihr =>
        have hr := (List.pairwise_cons.1 hs)
        have ihr := ihr hr.2
        simp only [List.length_cons] at ihr ⊢
        rcases Nat.lt_trichotomy a l.length with h | h | h
        · rw [List.filter_cons_of_pos (by simp; omega), List.filter_cons_of_pos (by simp; omega), ihr]
          simp only [List.mem_cons, List.cons_append, show ¬ l.length = a from by omega, false_or]
        · subst h
          rw [List.filter_cons_of_pos (by simp), List.filter_cons_of_neg (by simp), ihr]
          have h1 : l.length ∉ r := fun hm => by have := hr.1 _ hm; omega
          have h2 : r.filter (· < l.length) = [] := by
            rw [List.filter_eq_nil_iff]; intro b hb; have := hr.1 b hb; simp; omega
          simp [h1, h2]
        · rw [List.filter_cons_of_neg (by simp; omega), List.filter_cons_of_neg (by simp; omega), ihr]
          simp only [List.mem_cons, show ¬ l.length = a from by omega, false_or]
    rw [key, List.filterMap_append]
    unfold sel
    rw [ih]
    congr 1
    · refine List.filterMap_congr fun t ht => ?_
      have : t < l.length := by simpa using (List.mem_filter.1 ht).2
      simp only [List.reverse_cons]
      rw [List.getElem?_append_left (by simpa using this)]
    · split
      · simp
      · rfl

theorem reach_le {edges stat : Nat → List Nat} {time : Nat} (h1 : ∀ t, t < time → ∀ u ∈ edges t, u < t)
    (h2 : ∀ t, t < time → ∀ u ∈ stat t, u < t) {s t : Nat} (hs : s < time) (h : Slice.Order.Reach edges stat s t) : t ≤ s := by
  induction h with
  | refl => exact Nat.le_refl _
  | step _ hl ih =>
    rcases hl with hl | hl
    · have := h1 _ (by omega) _ hl; omega
    · have := h2 _ (by omega) _ hl; omega

/-- The code for a variable exists, and its statements are those that the links lead to. -/
theorem code_ok (h : List (List Stmt)) (x : Nat) (v : Val) (t : Nat) (hx : (run h).env x = some (v, t)) :
    ∃ C, code (run h) x = .ok C ∧ C.Pairwise (· < ·) ∧ ∀ c, c ∈ C ↔ Slice.Order.Reach (run h).dyn (run h).stat t c := by
  have hi := (run_inv h).1
  obtain ⟨C, h1, h2, h3⟩ := Slice.Order.slice_ok (run h).log.length (run h).st (run h).dyn (run h).stat hi.mono
    (fun t ht u hu => Nat.le_of_lt (hi.dynLe t ht u hu)) (fun t ht u hu => Nat.le_of_lt (hi.statLe t ht u hu)) [t]
    (fun u hu => by simp only [List.mem_singleton] at hu; subst hu; exact hi.past x v u hx)
  refine ⟨C, ?_, h2, fun c => ?_⟩
  · unfold code; rw [hx]; exact h1
  · rw [h3]; simp

/-- `code` gives a program that, run on its own, gives the variable its value, as long as no cell calls a function a second time to
read a variable that the cell has set. Missing: cells which do (`second_call_stale`). -/
theorem code_runs_alone_partial (h : List (List Stmt)) (hq : Quiet h) (x : Nat) (v : PV) (hx : notebook h x = some v) :
    ∃ C ρ, code (run h) x = .ok C ∧ runAll (fun _ => none) (text (run h) C) = some ρ ∧ ρ x = some v := by
  have hi := (run_inv h).1
  have hv := values_right h x
  rw [hx] at hv
  obtain ⟨⟨v', t⟩, hx', hp⟩ := Option.map_eq_some_iff.1 hv
  obtain ⟨C, h1, h2, h3⟩ := code_ok h x v' t hx'
  have ht := hi.past x v' t hx'
  obtain ⟨ρ, hr, ha⟩ := run_good h hq (fun t => t ∈ C) (fun a _ ha u hu => (h3 u).2 (.step ((h3 a).1 ha) hu))
  refine ⟨C, ρ, h1, ?_, ?_⟩
  · rw [sel_text C h2] at hr
    have hf : C.filter (· < (run h).log.length) = C := by
      rw [List.filter_eq_self]
      intro a ha
      have := reach_le hi.dynLe hi.statLe ht ((h3 a).1 ha)
      simp; omega
    rw [hf] at hr
    exact hr
  · rw [← hp]; exact ha x v' t hx' ((h3 t).2 (.refl t))

/-- A name that is unknown has no code. -/
theorem code_unknown (h : List (List Stmt)) (x : Nat) (hx : notebook h x = none) : code (run h) x = .error .crash := by
  have hv := values_right h x
  rw [hx, Option.map_eq_none_iff] at hv
  unfold code; rw [hv]

end Verif.Calls
