import Verif.Pending.Lemmas

/-!
# C119: Each library call is recorded with its own arguments and result

`(ran b).log` are the records of library calls for which handlers have acted by the end of the statements `b`; `Spec.blockMade b` are the library calls that `b` makes.
-/

namespace Verif.Pending

open Spec

variable {N V : Type}

/-- `r = f(g(1), k(2)); try: q.remove(3); except ValueError: k()` where `f`, `g` and `q.remove` are of libraries, `k` is not, and the removal fails. -/
def sample : List (Stmt Nat Nat) :=
  [.simple (.call 1 .lib false [.call 2 .lib false [.leaf 1] (some 11), .call 3 .own false [.leaf 2] (some 12)] (some 13)),
   .try [.simple (.call 4 .lib false [.leaf 3] none)] [.simple (.call 5 .own false [] (some 0))]]

/-- The same without the `try`. -/
def sample' : List (Stmt Nat Nat) := sample.take 1

/-- Whatever happens – exceptions, calls back into the notebook, tracing turned off and on again: every record is of a library call that was made, once for each, in
the order in which they were made, with exactly the arguments of that call and, if it returned, with what it returned. -/
theorem sound (b : List (Stmt N V)) : ∃ l, l.Sublist (blockMade b) ∧ List.Forall₂ Of (ran b).log l := by
  obtain ⟨l, a, _, c, _⟩ := (ran_fine b).inv
  refine ⟨l.take (ran b).log.length, (List.take_sublist _ _).trans a, ?_⟩
  have := List.forall₂_take (ran b).log.length c
  simpa using this

/-- Four calls are made, three of them of library code, the last fails. -/
example : blockMade sample = [⟨2, [1], some 11⟩, ⟨1, [11, 12], some 13⟩, ⟨4, [3], none⟩] := rfl

example : ∃ l, l.Sublist (blockMade sample) ∧ List.Forall₂ Of (ran sample).log l := sound sample

/-- Every library call is recorded by the end of statements that come to their end, unless tracing was turned off while arguments of a library call were evaluated or
by a call that raised. What is missing: those cases (`lost_callback`, `lost_shell`, `lost_dropped`), and statements that fail (`lost_failing`). -/
theorem recorded_partial (b : List (Stmt N V)) (hok : okAll b = true) (hq : blockQuiet b = true) :
    List.Forall₂ Of (ran b).log (blockMade b) := by
  have f := ran_fine b
  obtain ⟨l, _, e, c, _⟩ := f.inv
  rw [e ⟨trivial, hq, rfl⟩, f.calls hok, List.append_nil] at c
  simpa using c

example : List.Forall₂ Of (ran sample).log (blockMade sample) := recorded_partial sample rfl rfl

/-- If moreover no library call raises, the records are exactly the calls. What is missing is as before, and calls that raise (`failed_recorded`, `other_result`). -/
theorem exact_partial (b : List (Stmt N V)) (hok : okAll b = true) (hq : blockQuiet b = true)
    (hr : ∀ m ∈ blockMade b, m.res ≠ none) :
    (ran b).log = (blockMade b).map fun m => ⟨m.call, m.args, m.res⟩ := by
  have f := recorded_partial b hok hq
  generalize (ran b).log = log at f
  generalize blockMade b = ms at f hr
  induction f with
  | nil => rfl
  | @cons r m rs ms o _ ih =>
    rw [List.map_cons, ih fun m h => hr m (List.mem_cons_of_mem _ h)]
    obtain ⟨o1, o2, o3⟩ := o
    cases r
    simp only at o1 o2 o3
    rw [o1, o2, o3 (hr m (List.mem_cons_self ..))]

example : (ran sample').log = [⟨2, [1], some 11⟩, ⟨1, [11, 12], some 13⟩] :=
  exact_partial sample' rfl rfl (by simp [sample', sample, blockMade, stmtMade, made, madeAll, values, Expr.value, here])

/-- A loop over `zip(…)` or `enumerate(…)`: what the loop is taken to iterate over are the arguments of that very call. What is missing: iterators that are not made in the
header of the loop (`loop_crash`, `loop_other`). -/
theorem loop_args_partial (b : List (Stmt N V)) (c : N) (off : Bool) (args : List (Expr N V)) (v : V) (vs : List V)
    (hb : okAll b = true) (hv : values args = some vs) (hs : strictAll args = true) :
    (ran (b ++ [.for (.call c .lib off args (some v)) true])).iters = (ran b).iters ++ [some vs] := by
  rw [ran_snoc b _ hb, Stmt.events, List.cons_append, run_cons, run_append]
  have hval : (Expr.value (.call c .lib off args (some v))).isSome = true := by simp [Expr.value, hv]
  rw [hval, if_pos rfl]
  have i := start_inv (ran_fine b).inv
  have k := call_calls c off args v i (start_on _) hv hs
  have it : ∀ (es : List (Ev N V)) (s : St N V), (∀ x ∈ es, ∀ p, x ≠ .iter p) → (run s es).iters = s.iters := by
    intro es
    induction es with
    | nil => intros; rfl
    | cons e es ih =>
      intro s h
      rw [run_cons, ih _ fun x m => h x (List.mem_cons_of_mem _ m)]
      have res : ∀ s : St N V, (resolve s).iters = s.iters := fun s => by unfold resolve; split <;> rfl
      have en : ∀ s : St N V, (enable s).iters = s.iters := fun s => by unfold enable; split <;> rfl
      cases e with
      | before c k n =>
        show (before c k n s).iters = _
        unfold before
        split
        · cases k <;> dsimp only <;> try rfl
          all_goals (split <;> first | rw [res]; rfl | rfl)
        · rfl
      | arg v l =>
        show (arg v l s).iters = _
        unfold arg
        split
        · split
          · dsimp only; split
            · rw [res]
            · rfl
          · rfl
        · rfl
      | body off => show St.iters (if off then _ else _) = _; split <;> rfl
      | after v =>
        show (after v s).iters = _
        have po : ∀ s : St N V, (pop s).iters = s.iters := fun s => by unfold pop; split <;> rfl
        unfold after; dsimp only; split <;> simp [po, en]
      | iter p => exact absurd rfl (h _ (List.mem_cons_self ..) p)
      | start => show (start s).iters = _; unfold start; split <;> simp [reset, en]
      | finish => show (finish s).iters = _; simp [finish, reset, en]
  have noiter := no_iter (.call c .lib off args (some v))
  show (finish (iter true _)).iters = _
  have e1 : ∀ s : St N V, (finish s).iters = s.iters := fun s => it [.finish] s (by simp)
  rw [e1]
  show St.iters _ ++ [Option.map _ (List.getLast? (St.calls _))] = _
  rw [show step (ran b) .start = start (ran b) from rfl]
  rw [k, it _ _ noiter]
  have : (start (ran b)).iters = (ran b).iters := it [.start] _ (by simp)
  rw [this]; rfl

/-- `for i, (x, y) in enumerate(zip(4, k(5)))`, after other statements. -/
example : (ran (sample ++ [.for (.call 6 .lib false [.call 7 .lib false [.leaf 4, .call 8 .own false [.leaf 5] (some 15)] (some 16)] (some 17)) true])).iters =
    (ran sample).iters ++ [some [16]] :=
  loop_args_partial sample 6 false _ 17 [16] rfl rfl rfl

end Verif.Pending
