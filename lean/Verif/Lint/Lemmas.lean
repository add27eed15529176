import Verif.Lint.Spec
import Mathlib.Data.List.Nodup

/-!
# What is noted about uses is what happened -/

namespace Verif.Lint
open Verif

theorem before_iff (a b : Time) : before a b = true ↔ a.1 < b.1 ∨ (a.1 = b.1 ∧ a.2 < b.2) := by
  simp [before]

theorem before_irrefl (a : Time) : before a a = false := by
  simp [before]

theorem before_trans {a b c : Time} (h1 : before a b = true) (h2 : before b c = true) : before a c = true := by
  rw [before_iff] at *
  omega

/-- What is noted by the symbols, when statements before `now`, and part of the one at `now`, have been run; `U` are the uses so far. -/
structure SymInv (syms : List (Nat × Sym)) (env : Env) (U : Nat → Use → Prop) (now : Time) : Prop where
  nodup : (Assoc.keys syms).Nodup
  agree : ∀ x, env x = (Assoc.get syms x).map (·.ts.1)
  ts : ∀ x s, Assoc.get syms x = some s → before s.ts now = true
  keys : ∀ x s, Assoc.get syms x = some s → (Assoc.keys s.used).Nodup
  noted : ∀ x s, Assoc.get syms x = some s → ∀ t w, Assoc.get s.used t = some w → ∃ p, Assoc.get s.node t = some p ∧ U t.1 ⟨t.2, x, p, w.1⟩
  found : ∀ k u, U k u → ∃ s w, Assoc.get syms u.name = some s ∧ Assoc.get s.used (k, u.stmt) = some w ∧ w.1 = u.setter
  late : ∀ k u, U k u → before (k, u.stmt) now = true ∨ ((k, u.stmt) = now ∧ env u.name = some u.setter)

theorem SymInv.later {syms env U now now'} (h : SymInv syms env U now) (hl : before now now' = true) : SymInv syms env U now' :=
  ⟨h.nodup, h.agree, fun x s hs => before_trans (h.ts x s hs) hl, h.keys, h.noted, h.found, fun k u hu => by
    rcases h.late k u hu with h1 | ⟨h1, _⟩
    · exact Or.inl (before_trans h1 hl)
    · rw [h1]; exact Or.inl hl⟩

theorem SymInv.congr {syms env U U' now} (h : SymInv syms env U now) (he : ∀ k u, U k u ↔ U' k u) : SymInv syms env U' now :=
  ⟨h.nodup, h.agree, h.ts, h.keys, fun x s hs t w hw => by obtain ⟨p, h1, h2⟩ := h.noted x s hs t w hw; exact ⟨p, h1, (he _ _).1 h2⟩,
    fun k u hu => h.found k u ((he k u).2 hu), fun k u hu => h.late k u ((he k u).2 hu)⟩

theorem useOne_inv {syms env U now} (h : SymInv syms env U now) {x p q} (hx : env x = some q) :
    SymInv (useOne now syms (x, p)) env (fun k u => U k u ∨ (k = now.1 ∧ u = ⟨now.2, x, p, q⟩)) now := by
  rcases hs : Assoc.get syms x with _ | s
  · rw [h.agree x, hs] at hx; simp at hx
  have hq : q = s.ts.1 := by rw [h.agree x, hs] at hx; exact (Option.some.inj hx).symm
  have he : useOne now syms (x, p) = Assoc.set syms x { s with used := Assoc.set s.used now s.ts, node := Assoc.set s.node now p } := by
    unfold useOne
    rw [hs]
    dsimp only
    unfold use
    rw [if_pos (h.ts x s hs)]
  rw [he]
  have hget : ∀ y, Assoc.get (Assoc.set syms x { s with used := Assoc.set s.used now s.ts, node := Assoc.set s.node now p }) y =
      if y = x then some { s with used := Assoc.set s.used now s.ts, node := Assoc.set s.node now p } else Assoc.get syms y :=
    fun y => Assoc.get_set _ _ _ _
  refine ⟨Assoc.nodup_set h.nodup _ _, ?_, ?_, ?_, ?_, ?_, ?_⟩
  · intro y
    rw [hget]
    by_cases hy : y = x
    · rw [if_pos hy, hy, h.agree x, hs]; rfl
    · rw [if_neg hy, h.agree y]
  · intro y s' hs'
    rw [hget] at hs'
    split at hs'
    · obtain rfl := Option.some.inj hs'
      exact h.ts x s hs
    · exact h.ts y s' hs'
  · intro y s' hs'
    rw [hget] at hs'
    split at hs'
    · obtain rfl := Option.some.inj hs'
      exact Assoc.nodup_set (h.keys x s hs) _ _
    · exact h.keys y s' hs'
  · intro y s' hs' t w hw
    rw [hget] at hs'
    split at hs'
    · rename_i hy
      obtain rfl := Option.some.inj hs'
      dsimp only at hw ⊢
      rw [Assoc.get_set] at hw
      rw [Assoc.get_set]
      split at hw
      · rename_i ht
        rw [if_pos ht]
        obtain rfl := Option.some.inj hw
        refine ⟨p, rfl, Or.inr ⟨by rw [ht], ?_⟩⟩
        rw [ht, hy, hq]
      · rename_i ht
        rw [if_neg ht]
        obtain ⟨p', h1, h2⟩ := h.noted x s hs t w hw
        rw [← hy] at h2
        exact ⟨p', h1, Or.inl h2⟩
    · obtain ⟨p', h1, h2⟩ := h.noted y s' hs' t w hw
      exact ⟨p', h1, Or.inl h2⟩
  · intro k u hu
    rcases hu with hu | ⟨rfl, rfl⟩
    · obtain ⟨s', w, h1, h2, h3⟩ := h.found k u hu
      by_cases hn : u.name = x
      · rw [hn, hs] at h1
        obtain rfl := Option.some.inj h1
        rw [hget, if_pos hn]
        by_cases ht : (k, u.stmt) = now
        · refine ⟨_, s.ts, rfl, ?_, ?_⟩
          · dsimp only
            rw [Assoc.get_set, if_pos ht]
          · rcases h.late k u hu with h4 | ⟨_, h4⟩
            · rw [ht, before_irrefl] at h4; exact absurd h4 (by simp)
            · rw [hn, hx, hq] at h4
              exact Option.some.inj h4
        · refine ⟨_, w, rfl, ?_, h3⟩
          dsimp only
          rw [Assoc.get_set, if_neg ht]
          exact h2
      · rw [hget, if_neg hn]
        exact ⟨s', w, h1, h2, h3⟩
    · refine ⟨{ s with used := Assoc.set s.used now s.ts, node := Assoc.set s.node now p }, s.ts, ?_, ?_, hq.symm⟩
      · rw [hget, if_pos rfl]
      · exact Assoc.get_set_self _ _ _
  · intro k u hu
    rcases hu with hu | ⟨rfl, rfl⟩
    · exact h.late k u hu
    · exact Or.inr ⟨rfl, hx⟩

theorem reads_inv {env : Env} {now : Time} : ∀ (rs : List (Nat × Nat)) {syms U us}, SymInv syms env U now → readAll env now.2 rs = some us →
    SymInv (rs.foldl (useOne now) syms) env (fun k u => U k u ∨ (k = now.1 ∧ u ∈ us)) now
  | [], syms, U, us, h, hr => by
    cases hr
    exact h.congr (by simp)
  | (x, p) :: rs, syms, U, us, h, hr => by
    rw [readAll] at hr
    rcases hx : env x with _ | q
    · simp [hx] at hr
    · rcases hrs : readAll env now.2 rs with _ | us'
      · simp [hx, hrs] at hr
      · simp [hx, hrs] at hr
        subst hr
        refine (reads_inv rs (useOne_inv h (p := p) hx) hrs).congr ?_
        intro k u
        simp only [List.mem_cons]
        constructor
        · rintro ((h | ⟨h1, h2⟩) | ⟨h1, h2⟩)
          · exact Or.inl h
          · exact Or.inr ⟨h1, Or.inl h2⟩
          · exact Or.inr ⟨h1, Or.inr h2⟩
        · rintro (h | ⟨h1, h2 | h2⟩)
          · exact Or.inl (Or.inl h)
          · exact Or.inl (Or.inr ⟨h1, h2⟩)
          · exact Or.inr ⟨h1, h2⟩

/-- All that a statement reads is there, as the symbols and as the executions have it. -/
theorem readAll_isSome {syms env U now} (h : SymInv syms env U now) (i) : ∀ rs : List (Nat × Nat),
    (readAll env i rs).isSome = rs.all (fun r => (Assoc.get syms r.1).isSome)
  | [] => rfl
  | (x, p) :: rs => by
    have ih := readAll_isSome h i rs
    rw [readAll, List.all_cons, ← ih, h.agree x]
    rcases Assoc.get syms x with _ | s
    · rfl
    · rcases readAll env i rs with _ | us <;> rfl

theorem write_inv {syms env U now now'} (h : SymInv syms env U now) (hl : before now now' = true) (x) :
    SymInv (write now syms x) (assign env now.1 (some x)) U now' := by
  have h' := h.later hl
  have hlate : ∀ k u, U k u → before (k, u.stmt) now' = true ∨ ((k, u.stmt) = now' ∧ assign env now.1 (some x) u.name = some u.setter) := by
    intro k u hu
    rcases h.late k u hu with h1 | ⟨h1, _⟩
    · exact Or.inl (before_trans h1 hl)
    · rw [h1]; exact Or.inl hl
  have main : ∀ s : Sym, s.ts = now → (Assoc.keys s.used).Nodup →
      (∀ t w, Assoc.get s.used t = some w → ∃ p, Assoc.get s.node t = some p ∧ U t.1 ⟨t.2, x, p, w.1⟩) →
      (∀ k u, U k u → u.name = x → ∃ w, Assoc.get s.used (k, u.stmt) = some w ∧ w.1 = u.setter) →
      SymInv (Assoc.set syms x s) (assign env now.1 (some x)) U now' := by
    intro s hts hk hn hf
    refine ⟨Assoc.nodup_set h.nodup _ _, ?_, ?_, ?_, ?_, ?_, hlate⟩
    · intro y
      rw [Assoc.get_set]
      show (if y = x then some now.1 else env y) = _
      by_cases hy : y = x
      · rw [if_pos hy, if_pos hy, Option.map_some, hts]
      · rw [if_neg hy, if_neg hy, h.agree y]
    · intro y s' hs'
      rw [Assoc.get_set] at hs'
      split at hs'
      · obtain rfl := Option.some.inj hs'
        rw [hts]; exact hl
      · exact h'.ts y s' hs'
    · intro y s' hs'
      rw [Assoc.get_set] at hs'
      split at hs'
      · obtain rfl := Option.some.inj hs'
        exact hk
      · exact h.keys y s' hs'
    · intro y s' hs' t w hw
      rw [Assoc.get_set] at hs'
      split at hs'
      · rename_i hy
        obtain rfl := Option.some.inj hs'
        rw [hy]
        exact hn t w hw
      · exact h.noted y s' hs' t w hw
    · intro k u hu
      rw [Assoc.get_set]
      by_cases hy : u.name = x
      · rw [if_pos hy]
        obtain ⟨w, h1, h2⟩ := hf k u hu hy
        exact ⟨s, w, rfl, h1, h2⟩
      · rw [if_neg hy]
        exact h.found k u hu
  unfold write
  rcases hs : Assoc.get syms x with _ | s
  · refine main _ rfl (by simp [Assoc.keys]) (fun t w hw => by simp at hw) ?_
    intro k u hu hy
    obtain ⟨s, w, h1, _⟩ := h.found k u hu
    rw [hy, hs] at h1
    simp at h1
  · refine main _ rfl (h.keys x s hs) (h.noted x s hs) ?_
    intro k u hu hy
    obtain ⟨s', w, h1, h2⟩ := h.found k u hu
    rw [hy, hs] at h1
    obtain rfl := Option.some.inj h1
    exact ⟨w, h2⟩

theorem runStmts_inv (k : Nat) : ∀ (ss : List Stmt) {i syms env U}, SymInv syms env U (k, i) →
    SymInv (runStmts k i ss syms) (trace k i ss env).1 (fun k' u => U k' u ∨ (k' = k ∧ u ∈ (trace k i ss env).2)) (k + 1, 0)
  | [], i, syms, env, U, h => (h.later (by simp [before])).congr (by simp [trace])
  | s :: ss, i, syms, env, U, h => by
    have hsome := readAll_isSome h i s.reads
    rw [runStmts, trace, runStmt]
    rcases hr : readAll env i s.reads with _ | us
    · rw [hr] at hsome
      rw [if_neg (by rw [← hsome]; simp)]
      exact (h.later (by simp [before])).congr (by simp)
    · rw [hr] at hsome
      rw [if_pos (by rw [← hsome]; rfl)]
      have hnext : before (k, i) (k, i + 1) = true := by simp [before]
      have h1 := reads_inv s.reads h (us := us) hr
      rcases hw : s.write with _ | x
      · dsimp only
        refine (runStmts_inv k ss (h1.later hnext)).congr ?_
        intro k' u
        simp only [assign, List.mem_append]
        constructor
        · rintro ((h | ⟨h1, h2⟩) | ⟨h1, h2⟩)
          exacts [Or.inl h, Or.inr ⟨h1, Or.inl h2⟩, Or.inr ⟨h1, Or.inr h2⟩]
        · rintro (h | ⟨h1, h2 | h2⟩)
          exacts [Or.inl (Or.inl h), Or.inl (Or.inr ⟨h1, h2⟩), Or.inr ⟨h1, h2⟩]
      · dsimp only
        refine (runStmts_inv k ss (write_inv h1 hnext x)).congr ?_
        intro k' u
        simp only [List.mem_append]
        constructor
        · rintro ((h | ⟨h1, h2⟩) | ⟨h1, h2⟩)
          exacts [Or.inl h, Or.inr ⟨h1, Or.inl h2⟩, Or.inr ⟨h1, Or.inr h2⟩]
        · rintro (h | ⟨h1, h2 | h2⟩)
          exacts [Or.inl (Or.inl h), Or.inl (Or.inr ⟨h1, h2⟩), Or.inr ⟨h1, h2⟩]

/-- Variables are set by executions that there were. -/
theorem readAll_bound {env : Env} {n : Nat} (he : ∀ x q, env x = some q → 1 ≤ q ∧ q ≤ n) (i) : ∀ (rs : List (Nat × Nat)) {us},
    readAll env i rs = some us → ∀ u ∈ us, 1 ≤ u.setter ∧ u.setter ≤ n
  | [], us, h => by cases h; simp
  | (x, p) :: rs, us, h => by
    rw [readAll] at h
    rcases hx : env x with _ | q
    · simp [hx] at h
    · rcases hrs : readAll env i rs with _ | us'
      · simp [hx, hrs] at h
      · simp [hx, hrs] at h
        subst h
        intro u hu
        rcases List.mem_cons.1 hu with rfl | hu
        · exact he x q hx
        · exact readAll_bound he i rs hrs u hu

theorem trace_bound (k : Nat) (hk : 1 ≤ k) : ∀ (ss : List Stmt) {i : Nat} {env : Env}, (∀ x q, env x = some q → 1 ≤ q ∧ q ≤ k) →
    (∀ x q, (trace k i ss env).1 x = some q → 1 ≤ q ∧ q ≤ k) ∧ ∀ u ∈ (trace k i ss env).2, 1 ≤ u.setter ∧ u.setter ≤ k
  | [], i, env, h => ⟨h, by simp [trace]⟩
  | s :: ss, i, env, h => by
    rw [trace]
    rcases hr : readAll env i s.reads with _ | us
    · exact ⟨h, by simp⟩
    · dsimp only
      have ha : ∀ x q, assign env k s.write x = some q → 1 ≤ q ∧ q ≤ k := by
        intro x q hq
        rcases hw : s.write with _ | y
        · rw [hw] at hq; exact h x q hq
        · rw [hw] at hq
          have hq : (if x = y then some k else env x) = some q := hq
          split at hq
          · obtain rfl := Option.some.inj hq; exact ⟨hk, Nat.le_refl _⟩
          · exact h x q hq
      obtain ⟨h1, h2⟩ := trace_bound k hk ss (i := i + 1) ha
      refine ⟨h1, ?_⟩
      intro u hu
      rcases List.mem_append.1 hu with hu | hu
      · exact readAll_bound h i _ hr u hu
      · exact h2 u hu

end Verif.Lint
