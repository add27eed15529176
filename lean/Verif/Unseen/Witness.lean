import Verif.Unseen.Props

namespace Verif.Unseen.Witness
open Verif.Unseen Spec

/-- `d = json.load(f)`, `d.update(…)`, another element is read, `d["k"]` is read. -/
example : version (after 0 (.read 7 :: ([.read 8] ++ [.change]))) 7 = some 2 :=
  exact_partial 0 7 0 [.read 8] [.change] (.inr ⟨[], rfl⟩) (by intro e he; simp at he; subst he; exact .inr ⟨8, rfl⟩) (by simp [New]) (by simp [Names])

/-- With stores, variables and changes before. -/
example : ∃ n, version (after 0 (.read 7 :: [.unbind 0, .bind 1, .store 8, .change])) 7 = some n ∧ changed 7 [.unbind 0, .bind 1, .store 8, .change] ≤ n :=
  not_older 0 7 1 _ (by simp [New]) (by simp [Names])

/-- `d = json.load(f)`, `d["a"] = 1`, `d["k"]` is read. -/
example : ∃ n, version (after 0 (.read 7 :: ([.read 9] ++ .store 8 :: []))) 7 = some n ∧ now [.store 8] ≤ n ∧ changed 7 ([.read 9] ++ .store 8 :: []) < n :=
  stored_newer 0 7 8 0 [.read 9] [] (by simp) (by simp [New]) (by simp [Names])

/-- `d = json.load(f)`, `e = d`, `d["k"]` is read. -/
example : ∃ n, version (after 0 (.read 7 :: ([.unbind 0] ++ .bind 1 :: []))) 7 = some n ∧ now [.bind 1] ≤ n ∧ changed 7 ([.unbind 0] ++ .bind 1 :: []) < n :=
  bound_newer 0 7 1 [.unbind 0] [] (by simp) (by simp) (by simp [New])

/-- **C195** (violated): that the version is the last change is false. -/
theorem unseen_claim_false : ¬ ∀ (v0 k v : Nat) (h : List Ev), New k h → Names v0 h v → version (after v0 (.read k :: h)) k = some (changed k h) := by
  intro q
  have := q 0 7 0 [.store 8] (by simp [New]) (by simp [Names])
  revert this
  decide

end Verif.Unseen.Witness
