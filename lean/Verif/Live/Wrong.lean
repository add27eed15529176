import Verif.Live.Props

/-!
# Live-reference analysis: programs for which it is wrong

Each theorem gives a program with a path that reads a variable first (or completes without writing it), and what the analysis
reports. They hold for every setting `P` of the analysis, unless one is mentioned.
-/

namespace Verif.Live
open Verif

/-- Some of the paths of a control flow, for use in examples. -/
def paths : Core → List (List Ev × Out)
  | .nil => [([], .norm)]
  | .ev e => [([e], .norm), ([], .exc)]
  | .seq p q => (paths p).flatMap (fun a =>
      if a.2 = .norm then (paths q).map (fun b => (a.1 ++ b.1, b.2)) else [a])
  | .alt p q => paths p ++ paths q
  | .loop p q => paths q ++ (paths p).flatMap (fun a =>
      if a.2 = .norm then (paths q).map (fun b => (a.1 ++ b.1, b.2))
      else if a.2 = .brk then [(a.1, .norm)] else [a])
  | .uncont p => (paths p).map (fun a => if a.2 = .cont then (a.1, .norm) else a)
  | .brk => [([], .brk)]
  | .cont => [([], .cont)]
  | .raise => [([], .exc)]
  | .tryc p h q => (paths p).flatMap (fun a =>
      if a.2 = .norm then (paths q).map (fun b => (a.1 ++ b.1, b.2))
      else if a.2 = .exc then (paths h).map (fun b => (a.1 ++ b.1, b.2)) else [a])
  | .fin p f => (paths p).flatMap (fun a => (paths f).map (fun b =>
      if b.2 = .norm then (a.1 ++ b.1, a.2) else (a.1 ++ b.1, b.2)))
  | .suppress p => (paths p).map (fun a => if a.2 = .exc then (a.1, .norm) else a)
  | .mask x p => (paths p).map (fun a => (a.1.filter (fun e => e.var ≠ x), a.2))
  | .loc p => (paths p).map (fun a => (outside [] a.1, a.2))

theorem paths_run : ∀ (p : Core) (a : List Ev × Out), a ∈ paths p → Runs p a.1 a.2 := by
  intro p
  induction p with
  | nil =>
    intro a h
    cases List.mem_singleton.1 h
    exact .nil
  | ev e =>
    intro a h
    simp only [paths, List.mem_cons, List.not_mem_nil, or_false] at h
    rcases h with rfl | rfl
    · exact .ev e
    · exact .stop _
  | brk =>
    intro a h
    cases List.mem_singleton.1 h
    exact .brk
  | cont =>
    intro a h
    cases List.mem_singleton.1 h
    exact .cont
  | raise =>
    intro a h
    cases List.mem_singleton.1 h
    exact .raise
  | seq p q ihp ihq =>
    intro a h
    obtain ⟨b, hb, h⟩ := List.mem_flatMap.1 h
    by_cases hn : b.2 = .norm
    · rw [if_pos hn] at h
      obtain ⟨c, hc, rfl⟩ := List.mem_map.1 h
      exact .seq (hn ▸ ihp b hb) (ihq c hc)
    · rw [if_neg hn] at h
      cases List.mem_singleton.1 h
      exact .seqStop (ihp a hb) hn
  | alt p q ihp ihq =>
    intro a h
    exact (List.mem_append.1 h).elim (fun h => .left (ihp a h)) (fun h => .right (ihq a h))
  | loop p q ihp ihq =>
    intro a h
    rcases List.mem_append.1 h with h | h
    · exact .exit (ihq a h)
    · obtain ⟨b, hb, h⟩ := List.mem_flatMap.1 h
      by_cases hn : b.2 = .norm
      · rw [if_pos hn] at h
        obtain ⟨c, hc, rfl⟩ := List.mem_map.1 h
        exact .again (hn ▸ ihp b hb) (.exit (ihq c hc))
      · rw [if_neg hn] at h
        by_cases hk : b.2 = .brk
        · rw [if_pos hk] at h
          cases List.mem_singleton.1 h
          exact .leave (hk ▸ ihp b hb)
        · rw [if_neg hk] at h
          cases List.mem_singleton.1 h
          exact .loopStop (ihp a hb) hn hk
  | uncont p ih =>
    intro a h
    obtain ⟨b, hb, rfl⟩ := List.mem_map.1 h
    by_cases hc : b.2 = .cont
    · rw [if_pos hc]
      exact .uncont (hc ▸ ih b hb)
    · rw [if_neg hc]
      exact .uncont' (ih b hb) hc
  | tryc p h q ihp ihh ihq =>
    intro a ha
    obtain ⟨b, hb, ha⟩ := List.mem_flatMap.1 ha
    by_cases hn : b.2 = .norm
    · rw [if_pos hn] at ha
      obtain ⟨c, hc, rfl⟩ := List.mem_map.1 ha
      exact .tryOk (hn ▸ ihp b hb) (ihq c hc)
    · rw [if_neg hn] at ha
      by_cases hk : b.2 = .exc
      · rw [if_pos hk] at ha
        obtain ⟨c, hc, rfl⟩ := List.mem_map.1 ha
        exact .tryExc (hk ▸ ihp b hb) (ihh c hc)
      · rw [if_neg hk] at ha
        cases List.mem_singleton.1 ha
        exact .tryStop (ihp a hb) hn
  | fin p f ihp ihf =>
    intro a h
    obtain ⟨b, hb, h⟩ := List.mem_flatMap.1 h
    obtain ⟨c, hc, rfl⟩ := List.mem_map.1 h
    by_cases hn : c.2 = .norm
    · rw [if_pos hn]
      exact .fin (ihp b hb) (hn ▸ ihf c hc)
    · rw [if_neg hn]
      exact .finStop (ihp b hb) (ihf c hc) hn
  | suppress p ih =>
    intro a h
    obtain ⟨b, hb, rfl⟩ := List.mem_map.1 h
    by_cases hc : b.2 = .exc
    · rw [if_pos hc]
      exact .supp (hc ▸ ih b hb)
    · rw [if_neg hc]
      exact .supp' (ih b hb)
  | mask x p ih =>
    intro a h
    obtain ⟨b, hb, rfl⟩ := List.mem_map.1 h
    exact .mask (ih b hb)
  | loc p ih =>
    intro a h
    obtain ⟨b, hb, rfl⟩ := List.mem_map.1 h
    exact .loc (ih b hb)

/-- `ReadFirst`, computed. -/
def readFirstB (x : Nat) : List Ev → Bool
  | [] => false
  | .rd y :: t => y == x || readFirstB x t
  | .wr y :: t => y != x && readFirstB x t

theorem readFirst_of : ∀ (x : Nat) (t : List Ev), readFirstB x t = true → ReadFirst x t
  | _, [], h => by cases h
  | x, .rd y :: t, h => by
    unfold readFirstB at h
    rw [Bool.or_eq_true] at h
    by_cases hy : y = x
    · subst hy
      exact ⟨[], t, rfl, List.not_mem_nil⟩
    · obtain ⟨a, b, rfl, hn⟩ := readFirst_of x t (h.resolve_left (by simpa using hy))
      exact ⟨.rd y :: a, b, rfl, by simpa using hn⟩
  | x, .wr y :: t, h => by
    unfold readFirstB at h
    rw [Bool.and_eq_true] at h
    obtain ⟨a, b, rfl, hn⟩ := readFirst_of x t h.2
    have hy : y ≠ x := by simpa using h.1
    exact ⟨.wr y :: a, b, rfl, by simp [hn, hy.symm]⟩

theorem needs_of {code : Node} {x : Nat} (h : (paths (sem code)).any (fun a => readFirstB x a.1) = true) :
    NeedsValue code x := by
  obtain ⟨a, ha, hx⟩ := List.any_eq_true.1 h
  exact ⟨a.1, a.2, paths_run _ a ha, readFirst_of x a.1 hx⟩

theorem not_writes_of {code : Node} {x : Nat}
    (h : (paths (sem code)).any (fun a => a.2 = .norm ∧ Ev.wr x ∉ a.1) = true) : ¬ AlwaysWrites code x := by
  obtain ⟨a, ha, hx⟩ := List.any_eq_true.1 h
  simp only [decide_eq_true_eq] at hx
  exact fun hw => hx.2 (hw a.1 (hx.1 ▸ paths_run _ a ha))

/-- No reference to the variable is reported. -/
theorem not_live_of {l : List LRef} {x : Nat} (h : l.all (fun r => r.2 || decide (rootOf r.1 ≠ some x)) = true) :
    ¬ ReportedLive l x := by
  rintro ⟨r, h1, h2⟩
  have := List.all_eq_true.1 h _ h1
  simp [h2] at this

/-- The settings of the first check of a cell, `cell.py` 778-800, 853-865; the numbers stand for names that are not used for
quasiquotation. -/
def P0 (keep : Bool) : Par := ⟨keep, fun _ => false, fun _ => none, fun _ _ => false⟩

/-- C34. `(x > 3).all()`: the variable is not reported (the name `all` is). -/
theorem live_violated_chain_on_comparison (keep : Bool) (n : Nat) :
    let code := Node.call (.attr (.cmp (.name 0) (.const (.int 3))) 1) .skip
    ∃ l d, analyse (P0 keep) n code = .ok (l, d) ∧ NeedsValue code 0 ∧ ¬ ReportedLive l 0 := by
  refine ⟨_, _, rfl, needs_of rfl, not_live_of ?_⟩
  cases keep <;> rfl

/-- C34. `f()()`: the variable is not reported. -/
theorem live_violated_curried (keep : Bool) (n : Nat) :
    let code := Node.call (.call (.name 0) .skip) .skip
    ∃ l d, analyse (P0 keep) n code = .ok (l, d) ∧ NeedsValue code 0 ∧ ¬ ReportedLive l 0 := by
  refine ⟨_, _, rfl, needs_of rfl, not_live_of ?_⟩
  cases keep <;> rfl

/-- C34, C35. `c and (x := 1)`, then `x`: reported as assigned, not as live. -/
theorem violated_walrus_in_and (keep : Bool) (n : Nat) :
    let code := Node.seq (.boolop (.name 1) (.walrus 0 (.const (.int 1)))) (.name 0)
    ∃ l d, analyse (P0 keep) n code = .ok (l, d) ∧ NeedsValue code 0 ∧ ¬ ReportedLive l 0 ∧
      ReportedDead d 0 ∧ ¬ AlwaysWrites code 0 := by
  cases keep
  all_goals
    refine ⟨_, _, rfl, needs_of rfl, not_live_of rfl, ?_, not_writes_of rfl⟩
    show [nm 0] ∈ ({[nm 0]} : Finset Ref)
    simp

/-- C34. `f"{x}".upper()`: the variable is not reported. -/
theorem live_violated_fstring (keep : Bool) (n : Nat) :
    let code := Node.call (.attr (.fstr (.name 0)) 1) .skip
    ∃ l d, analyse (P0 keep) n code = .ok (l, d) ∧ NeedsValue code 0 ∧ ¬ ReportedLive l 0 := by
  cases keep <;> exact ⟨_, _, rfl, needs_of rfl, not_live_of rfl⟩

/-- C34. `(x if c else y).copy()`: the variables are not reported. -/
theorem live_violated_conditional (keep : Bool) (n : Nat) :
    let code := Node.call (.attr (.cond (.name 1) (.name 0) (.name 2)) 3) .skip
    ∃ l d, analyse (P0 keep) n code = .ok (l, d) ∧ NeedsValue code 0 ∧ ¬ ReportedLive l 0 := by
  cases keep <;> exact ⟨_, _, rfl, needs_of rfl, not_live_of rfl⟩

/-- C34. `[x for x in x]`: the variable is not reported. -/
theorem live_violated_comprehension_target (keep : Bool) (n : Nat) :
    let code := Node.comp (.name 0) 0 (.name 0) .skip
    ∃ l d, analyse (P0 keep) n code = .ok (l, d) ∧ NeedsValue code 0 ∧ ¬ ReportedLive l 0 := by
  cases keep <;> exact ⟨_, _, rfl, needs_of rfl, not_live_of rfl⟩

/-- C34, C35. `lambda y=x: y`, then `x`: reported as assigned, not as live. -/
theorem violated_lambda_default (keep : Bool) (n : Nat) :
    let code := Node.seq (.lam (.name 0) (.name 1)) (.name 0)
    ∃ l d, analyse (P0 keep) n code = .ok (l, d) ∧ NeedsValue code 0 ∧ ¬ ReportedLive l 0 ∧
      ReportedDead d 0 ∧ ¬ AlwaysWrites code 0 := by
  cases keep <;> exact ⟨_, _, rfl, needs_of rfl, not_live_of rfl, by unfold ReportedDead; decide, not_writes_of rfl⟩

/-- C34, C35. `a[i], c = 1, 1`: `a` is reported as assigned, not as live. -/
theorem violated_tuple_target (keep : Bool) (n : Nat) :
    let code := Node.assign (.disp (some 2) (.pair (.sub (.name 0) (.name 1)) (.name 2))) (.disp (some 2) (.pair (.const (.int 1)) (.const (.int 1))))
    ∃ l d, analyse (P0 keep) n code = .ok (l, d) ∧ NeedsValue code 0 ∧ ¬ ReportedLive l 0 ∧
      ReportedDead d 0 ∧ ¬ AlwaysWrites code 0 := by
  cases keep <;> exact ⟨_, _, rfl, needs_of rfl, not_live_of rfl, by unfold ReportedDead; decide, not_writes_of rfl⟩

/-- C34, C35. `x: int`, then `x`: reported as assigned, not as live. -/
theorem violated_annotation_only (keep : Bool) (n : Nat) :
    let code := Node.seq (.annOnly (.name 0) (.name 1)) (.name 0)
    ∃ l d, analyse (P0 keep) n code = .ok (l, d) ∧ NeedsValue code 0 ∧ ¬ ReportedLive l 0 ∧
      ReportedDead d 0 ∧ ¬ AlwaysWrites code 0 := by
  cases keep <;> exact ⟨_, _, rfl, needs_of rfl, not_live_of rfl, by unfold ReportedDead; decide, not_writes_of rfl⟩

/-- C34. `class C: y = x`: the variable is not reported. -/
theorem live_violated_class_body (keep : Bool) (n : Nat) :
    let code := Node.cls 1 .skip (.assign (.name 2) (.name 0))
    ∃ l d, analyse (P0 keep) n code = .ok (l, d) ∧ NeedsValue code 0 ∧ ¬ ReportedLive l 0 := by
  cases keep <;> exact ⟨_, _, rfl, needs_of rfl, not_live_of rfl⟩

/-- C34. `def f(*, y=x): pass`: the variable is not reported. -/
theorem live_violated_keyword_default (keep : Bool) (n : Nat) :
    let code := Node.defn 1 [2] true .skip (.name 0) .skip .skip
    ∃ l d, analyse (P0 keep) n code = .ok (l, d) ∧ NeedsValue code 0 ∧ ¬ ReportedLive l 0 := by
  cases keep <;> exact ⟨_, _, rfl, needs_of rfl, not_live_of rfl⟩

/-- C34, C35. `try: g; x = 1` `except: pass`, then `x`: reported as assigned, not as live. -/
theorem violated_try (keep : Bool) (n : Nat) :
    let code := Node.seq (.tryy (.seq (.name 1) (.assign (.name 0) (.const (.int 1)))) .skip .skip .skip) (.name 0)
    ∃ l d, analyse (P0 keep) n code = .ok (l, d) ∧ NeedsValue code 0 ∧ ¬ ReportedLive l 0 ∧
      ReportedDead d 0 ∧ ¬ AlwaysWrites code 0 := by
  cases keep <;> exact ⟨_, _, rfl, needs_of rfl, not_live_of rfl, by unfold ReportedDead; decide, not_writes_of rfl⟩

/-- C34, C35. `for i in y:` (`if c: break`; `x = 1`) `else: x = 1`, then `x`: reported as assigned, not as live. -/
theorem violated_loop_else (keep : Bool) (n : Nat) :
    let code := Node.seq (.forr (.name 1) (.name 2) (.seq (.ite (.name 3) .brk .skip) (.assign (.name 0) (.const (.int 1)))) (.assign (.name 0) (.const (.int 1)))) (.name 0)
    ∃ l d, analyse (P0 keep) n code = .ok (l, d) ∧ NeedsValue code 0 ∧ ¬ ReportedLive l 0 ∧
      ReportedDead d 0 ∧ ¬ AlwaysWrites code 0 := by
  cases keep <;> exact ⟨_, _, rfl, needs_of rfl, not_live_of rfl, by unfold ReportedDead; decide, not_writes_of rfl⟩

/-- C34. `f((f := g))`: the variable is not reported; it is reported as assigned, which is right. -/
theorem live_violated_walrus_argument (keep : Bool) (n : Nat) :
    let code := Node.call (.name 0) (.walrus 0 (.name 1))
    ∃ l d, analyse (P0 keep) n code = .ok (l, d) ∧ NeedsValue code 0 ∧ ¬ ReportedLive l 0 := by
  cases keep <;> exact ⟨_, _, rfl, needs_of rfl, not_live_of rfl⟩

/-- C34. `del a[i]`: neither variable is reported. -/
theorem live_violated_del (keep : Bool) (n : Nat) :
    let code := Node.del (.sub (.name 0) (.name 1))
    ∃ l d, analyse (P0 keep) n code = .ok (l, d) ∧ NeedsValue code 0 ∧ ¬ ReportedLive l 0 := by
  cases keep <;> exact ⟨_, _, rfl, needs_of rfl, not_live_of rfl⟩

/-- C34. `q[x]` where `q` is a variable like any other: neither variable is reported. -/
theorem live_violated_quasiquotation (keep : Bool) (n : Nat) :
    let code := Node.sub (.name 1) (.name 0)
    ∃ l d, analyse { P0 keep with quoted := fun x => x == 1 } n code = .ok (l, d) ∧ NeedsValue code 0 ∧ ¬ ReportedLive l 0 := by
  cases keep <;> exact ⟨_, _, rfl, needs_of rfl, not_live_of rfl⟩

/-- C34, C35. `with suppress(E): g; x = 1`, then `x`: reported as assigned, not as live. -/
theorem violated_suppress (keep : Bool) (n : Nat) :
    let code := Node.seq (.withs true (.call (.name 2) (.name 3)) .skip (.seq (.name 1) (.assign (.name 0) (.const (.int 1))))) (.name 0)
    ∃ l d, analyse (P0 keep) n code = .ok (l, d) ∧ NeedsValue code 0 ∧ ¬ ReportedLive l 0 ∧
      ReportedDead d 0 ∧ ¬ AlwaysWrites code 0 := by
  cases keep <;> exact ⟨_, _, rfl, needs_of rfl, not_live_of rfl, by unfold ReportedDead; decide, not_writes_of rfl⟩

/-- C34. any-order mode: `y = x` where both have the same object: the variable is not reported. This is on purpose. -/
theorem live_violated_noop (keep : Bool) (n : Nat) :
    let code := Node.assign (.name 1) (.name 0)
    ∃ l d, analyse { P0 keep with noop := fun a b => decide (a = [nm 1] ∧ b = [nm 0]) } n code = .ok (l, d) ∧ NeedsValue code 0 ∧ ¬ ReportedLive l 0 := by
  cases keep <;> exact ⟨_, _, rfl, needs_of rfl, not_live_of rfl⟩

/-! ## The hypotheses of the positive theorems are met -/

/-- `total = 0`, `for row in rows:` (`if row.ok: total += f(row)[k]; continue`; `else: n.bad = row`), `out, err = [total, x]`,
`m: int = out` -/
def sample : Node :=
  .seq (.assign (.name 0) (.const (.int 0)))
    (.seq (.forr (.name 1) (.name 2)
        (.ite (.attr (.name 1) 3)
          (.seq (.aug (.name 0) (.sub (.call (.name 4) (.name 1)) (.name 5))) .cont)
          (.assign (.attr (.name 6) 7) (.name 1))) .skip)
      (.seq (.assign (.disp (some 2) (.pair (.name 8) (.name 9))) (.disp (some 2) (.pair (.name 0) (.name 10))))
        (.ann (.name 11) (.const (.str 12)) (.name 8))))

theorem sample_plain (keep : Bool) : Plain (P0 keep) sample := by
  refine ⟨⟨trivial, trivial⟩, ⟨trivial, trivial, ?_, trivial, .inr rfl⟩, ⟨⟨trivial, trivial⟩, trivial, trivial⟩, trivial,
    trivial, ?_⟩
  · exact ⟨trivial, ⟨⟨trivial, ⟨trivial, rfl, trivial, trivial⟩, rfl, trivial⟩, trivial⟩, trivial, trivial, rfl, trivial⟩
  · intro x h
    simp [sem, evs] at h

/-- The loop variable is never reported, the accumulator is reported as assigned. -/
example : ∃ l d, analyse (P0 false) 0 sample = .ok (l, d) ∧ NeedsValue sample 10 ∧ NeedsValue sample 4 ∧
    ReportedLive l 10 ∧ ReportedLive l 4 ∧ ¬ ReportedLive l 1 ∧ ReportedDead d 0 ∧ AlwaysWrites sample 0 ∧
    ¬ ReportedDead d 1 := by
  refine ⟨_, _, rfl, needs_of (by decide +kernel), needs_of (by decide +kernel), ?_, ?_, not_live_of (by decide +kernel), ?_, ?_, ?_⟩
  · exact live_sound_partial (P := P0 false) (n := 0) (fun _ _ => rfl) (sample_plain false) rfl
      (needs_of (by decide +kernel))
  · exact live_sound_partial (P := P0 false) (n := 0) (fun _ _ => rfl) (sample_plain false) rfl
      (needs_of (by decide +kernel))
  · unfold ReportedDead; decide +kernel
  · exact dead_sound_partial (P := P0 false) (n := 0) (fun _ _ => rfl) (sample_plain false) rfl
      (by unfold ReportedDead; decide +kernel)
  · unfold ReportedDead; decide +kernel

/-- `def f(a): return a + y * z.w` and `f(1)`: `y` and `z` are reported, `a` is not. -/
example : ∃ l s, visit (P0 false) (callBody (P0 false) 1) (.call (.name 0) (.const (.int 1))) {}
      ⟨{[nm 0]}, [(0, [1], false, .bin (.name 1) (.bin (.name 2) (.attr (.name 3) 4)))]⟩ = .ok (l, s) ∧
    ReportedLive l 2 ∧ ReportedLive l 3 ∧ ¬ ReportedLive l 1 := by
  have h : visit (P0 false) (callBody (P0 false) 1) (.call (.name 0) (.const (.int 1))) {}
      ⟨{[nm 0]}, [(0, [1], false, .bin (.name 1) (.bin (.name 2) (.attr (.name 3) 4)))]⟩ = .ok (_, _) := rfl
  have hp : Plain (P0 false) (.bin (.name 1) (.bin (.name 2) (.attr (.name 3) 4))) := ⟨trivial, trivial, trivial⟩
  refine ⟨_, _, h, ?_, ?_, not_live_of (by decide +kernel)⟩
  · exact call_reports_partial (P := P0 false) (args := .const (.int 1)) (ps := [1]) (c := {}) (fun _ _ => rfl) rfl trivial rfl hp h
      (needs_of (by decide +kernel)) (by decide)
  · exact call_reports_partial (P := P0 false) (args := .const (.int 1)) (ps := [1]) (c := {}) (fun _ _ => rfl) rfl trivial rfl hp h
      (needs_of (by decide +kernel)) (by decide)

end Verif.Live
