import Verif.Calls.Props

/-! A function that is called twice in a cell, between which the variable it reads is set: the code for the second result is always
wrong. -/

namespace Verif.Calls
open Verif Spec

/-- `a = 0 + f()`, `y = n`, `x = 0 + f()` in one cell. -/
def twice (a f y x : Nat) (n : Int) : List Stmt := [.set a 0 [.call f], .set y n [], .set x 0 [.call f]]

theorem twice_state (h : List (List Stmt)) (a f y x : Nat) (n m d : Int) (b t u : Nat) (haf : a ≠ f) (hyf : y ≠ f)
    (hf : (run h).env f = some (.fn b d [y], t)) (hy : (run h).env y = some (.int m, u)) :
    (run (twice a f y x n :: h)).log = .set x 0 [.call f] :: .set y n [] :: .set a 0 [.call f] :: (run h).log ∧
    (run (twice a f y x n :: h)).env x = some (.int (d + n), (run h).log.length + 2) ∧
    (run (twice a f y x n :: h)).dyn ((run h).log.length + 2) = [t] ∧
    (run (twice a f y x n :: h)).stat ((run h).log.length + 2) = [t, u] ∧
    ∀ i, i < (run h).log.length → (run (twice a f y x n :: h)).dyn i = (run h).dyn i ∧
      (run (twice a f y x n :: h)).stat i = (run h).stat i := by
  have e1 : evalOps (run h).env [] [.call f] = some (d + (m + 0) + 0, [t, u], [b]) := by simp [evalOps, readAll, hf, hy]
  have e2 : ∀ (env : Env) (fin : List Nat), evalOps env fin [] = some (0, [], fin) := fun _ _ => rfl
  have hfa : upd (run h).env a (some (Val.int (0 + (d + (m + 0) + 0)), (run h).log.length)) f = some (.fn b d [y], t) := by
    rw [upd_ne _ _ (Ne.symm haf), hf]
  have hfy : upd (upd (run h).env a (some (Val.int (0 + (d + (m + 0) + 0)), (run h).log.length))) y
      (some (Val.int (n + 0), (run h).log.length + 1)) f = some (.fn b d [y], t) := by rw [upd_ne _ _ (Ne.symm hyf), hfa]
  have hyy : upd (upd (run h).env a (some (Val.int (0 + (d + (m + 0) + 0)), (run h).log.length))) y
      (some (Val.int (n + 0), (run h).log.length + 1)) y = some (.int (n + 0), (run h).log.length + 1) := upd_self ..
  have e3 : evalOps (upd (upd (run h).env a (some (Val.int (0 + (d + (m + 0) + 0)), (run h).log.length))) y
      (some (Val.int (n + 0), (run h).log.length + 1))) [b] [.call f] = some (d + ((n + 0) + 0) + 0, [t], [b, b]) := by
    simp only [evalOps, hfy, readAll, hyy, List.mem_singleton, if_true]
  have hst : staticOp { env0 := (run h).env, dead := [y, a], funcs := fun _ => none, fin := [b], idx := 2 } (.call f) = [t, u] := by
    simp [staticOp, newBody, oldBody, tsOf, hf, hy, Ne.symm haf, Ne.symm hyf]
  have key : run (twice a f y x n :: h) =
      { env := upd (upd (upd (run h).env a (some (Val.int (0 + (d + (m + 0) + 0)), (run h).log.length))) y
          (some (Val.int (n + 0), (run h).log.length + 1))) x (some (.int (0 + (d + ((n + 0) + 0) + 0)), (run h).log.length + 2)),
        log := .set x 0 [.call f] :: .set y n [] :: .set a 0 [.call f] :: (run h).log,
        st := upd (upd (upd (run h).st (run h).log.length ⟨((run h).cells + 1 : Nat), 0⟩) ((run h).log.length + 1)
          ⟨((run h).cells + 1 : Nat), 1⟩) ((run h).log.length + 2) ⟨((run h).cells + 1 : Nat), 2⟩,
        dyn := upd (upd (upd (run h).dyn (run h).log.length [t, u]) ((run h).log.length + 1) []) ((run h).log.length + 2) [t],
        stat := upd (upd (upd (run h).stat (run h).log.length (([Op.call f]).flatMap (staticOp { env0 := (run h).env })))
          ((run h).log.length + 1) []) ((run h).log.length + 2) [t, u],
        cells := (run h).cells + 1 } := by
    have d1 : deadAfter { env0 := (run h).env } a [.call f] = [a] := by simp [deadAfter, refs]
    have d2 : deadAfter { env0 := (run h).env, dead := [a], funcs := fun _ => none, fin := [b], idx := 1 } y [] = [y, a] := by
      simp [deadAfter]
    show runCell (run h) (twice a f y x n) = _
    simp only [runCell, twice, goCell, step, e1, d1, e2, d2, List.length_cons]
    rw [e3]
    simp only [List.flatMap_cons, List.flatMap_nil, List.append_nil, hst]
    rfl
  rw [key]
  refine ⟨rfl, ?_, ?_, ?_, ?_⟩
  · dsimp only; rw [upd_self]; simp
  · dsimp only; rw [upd_self]
  · dsimp only; rw [upd_self]
  · intro i hi
    dsimp only
    rw [upd_ne _ _ (by omega), upd_ne _ _ (by omega), upd_ne _ _ (by omega), upd_ne _ _ (by omega), upd_ne _ _ (by omega),
      upd_ne _ _ (by omega)]
    exact ⟨rfl, rfl⟩

/-- Whatever was run before: when a cell calls a function, sets the variable that it reads and calls the function again, then the code
for the second result, run on its own, gives the first result. -/
theorem second_call_stale (h : List (List Stmt)) (hq : Quiet h) (a f y x : Nat) (n m d : Int) (haf : a ≠ f) (hyf : y ≠ f)
    (hf : notebook h f = some (.fn d [y])) (hy : notebook h y = some (.int m)) :
    notebook (twice a f y x n :: h) x = some (.int (d + n)) ∧
    ∃ C ρ, code (run (twice a f y x n :: h)) x = .ok C ∧
      runAll (fun _ => none) (text (run (twice a f y x n :: h)) C) = some ρ ∧ ρ x = some (.int (d + m)) := by
  have hv := values_right h f
  rw [hf] at hv
  obtain ⟨⟨v, t⟩, hf', hp⟩ := Option.map_eq_some_iff.1 hv
  have hv := values_right h y
  rw [hy] at hv
  obtain ⟨⟨w, u⟩, hy', hp'⟩ := Option.map_eq_some_iff.1 hv
  cases v with
  | int k => simp [plain] at hp
  | fn b c ys =>
    simp only [plain, PV.fn.injEq] at hp
    obtain ⟨rfl, rfl⟩ := hp
    cases w with
    | fn b' c' ys' => simp [plain] at hp'
    | int k =>
      simp only [plain, PV.int.injEq] at hp'
      subst hp'
      obtain ⟨s1, s2, s3, s4, s5⟩ := twice_state h a f y x n k c b t u haf hyf hf' hy'
      have hi := (run_inv h).1
      have hi' := (run_inv (twice a f y x n :: h)).1
      refine ⟨?_, ?_⟩
      · rw [← values_right, s2]; rfl
      · obtain ⟨C, h1, h2, h3⟩ := code_ok _ x _ _ s2
        have hT : (run h).log.length + 2 < (run (twice a f y x n :: h)).log.length := by rw [s1]; simp
        have htl := hi.past _ _ _ hf'
        have hul := hi.past _ _ _ hy'
        have hsmall : ∀ i, i ∈ C → i = (run h).log.length + 2 ∨ i < (run h).log.length := by
          intro i hic
          have := (h3 i).1 hic
          clear hic
          induction this with
          | refl => exact .inl rfl
          | @step p q _ hl ih =>
            rcases ih with rfl | ih
            · rw [s3, s4] at hl
              simp only [List.mem_cons, List.not_mem_nil, or_false] at hl
              rcases hl with rfl | rfl | rfl <;> exact .inr (by assumption)
            · rw [(s5 p ih).1, (s5 p ih).2] at hl
              rcases hl with hl | hl
              · have := hi.dynLe p ih q hl; exact .inr (by omega)
              · have := hi.statLe p ih q hl; exact .inr (by omega)
        obtain ⟨ρ, hr, ha⟩ := run_good h hq (fun t => t ∈ C) (fun p hp hpc q hl => (h3 q).2 (.step ((h3 p).1 hpc) (by
          rw [(s5 p hp).1, (s5 p hp).2]; exact hl)))
        have ht : t ∈ C := (h3 t).2 (.step (.refl _) (.inl (by rw [s3]; simp)))
        have hu : u ∈ C := (h3 u).2 (.step (.refl _) (.inr (by rw [s4]; simp)))
        have hρf := ha f _ _ hf' ht
        have hρy := ha y _ _ hy' hu
        have h0 : (run h).log.length ∉ C := fun hc => by have := hsmall _ hc; omega
        have h1' : (run h).log.length + 1 ∉ C := fun hc => by have := hsmall _ hc; omega
        have h2' : (run h).log.length + 2 ∈ C := (h3 _).2 (.refl _)
        refine ⟨C, upd ρ x (some (.int (c + k))), h1, ?_, upd_self ..⟩
        have hst := sel_text C h2 (run (twice a f y x n :: h)).log
        have hfl : C.filter (· < (run (twice a f y x n :: h)).log.length) = C := by
          rw [List.filter_eq_self]
          intro p hp
          have := reach_le hi'.dynLe hi'.statLe hT ((h3 p).1 hp)
          simp; omega
        rw [hfl] at hst
        unfold text
        rw [← hst, s1]
        simp only [sel, List.length_cons]
        rw [if_neg h0, if_neg h1', if_pos h2', List.append_nil, List.append_nil, runAll_append, hr]
        simp [runAll, exec, total, value, sum, hρf, hρy, plain]

end Verif.Calls
