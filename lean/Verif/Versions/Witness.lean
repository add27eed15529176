import Verif.Versions.More

/-! # C134, C135: examples -/

namespace Verif.Versions
open Verif

/-- `x = 1`, `d = {0: x + 2}`, `d[1] = d[0]`, `x = x + 4`, `d = {}`, `d[5] = x`; `x` is 0 and `d` is 1. Last first. -/
def sample : List Stmt :=
  [.put 1 5 [.name 0] 0, .dict 1 [], .num 0 [.name 0] 4, .put 1 1 [.elt 1 0] 0, .dict 1 [(0, [.name 0], 2)], .num 0 [] 1]

/-- The code of a version and what `x` is after running it on its own. -/
def got (h : List Stmt) (x : Nat) (v : Int) : Option (Except Err (List Nat × Option Spec.View)) :=
  (track h).map fun σ => match code σ (fun _ => []) x v with
    | .error e => .error e
    | .ok C => .ok (C, (runCode σ C ⟨[], []⟩).bind fun p => Spec.view p x)

theorem earlier_none : Spec.Earlier fun _ => [] := fun _ _ h => by cases h

theorem sample_direct : Spec.Direct sample := by
  simp [sample, Spec.Direct, Spec.operands, Spec.ownDict, Spec.binds]

example : (track sample).isSome ∧ Spec.now sample 1 = some (.dict [(5, 5)]) ∧ Spec.now sample 0 = some (.num 5) := by decide
example : got sample 1 (-1) = some (.ok ([0, 3, 4, 5], some (.dict [(5, 5)]))) := by rfl
example : got sample 0 0 = some (.ok ([0], some (.num 1))) := by rfl
example : Spec.Untouched 0 sample ∧ pyIndex (Spec.changes 0 sample) 1 = some (some (.num 5)) :=
  ⟨⟨⟨⟨⟨⟨⟨trivial, trivial⟩, trivial⟩, by decide⟩, trivial⟩, trivial⟩, by decide⟩, by decide⟩
example : got sample 0 1 = some (.ok ([0, 3], some (.num 5))) := by rfl
example : got sample 0 (-2) = some (.ok ([0], some (.num 1))) := by rfl
example : got sample 0 2 = some (.error .crash) := by rfl
example : got sample 7 0 = some (.error .crash) := by rfl

/-- `d` was `{0: 3, 1: 3}` after its second change, but the code of that version gives `{0: 3}`. -/
example : Spec.changes 1 sample =
      [some (.dict [(0, 3)]), some (.dict [(0, 3), (1, 3)]), some (.dict []), some (.dict [(5, 5)])] ∧
    Spec.versions 1 sample = [some (.dict [(0, 3)]), some (.dict [(0, 3)]), some (.dict []), some (.dict [])] ∧
    got sample 1 1 = some (.ok ([0, 1], some (.dict [(0, 3)]))) := ⟨by decide, by decide, by rfl⟩

example : sample = [.dict 1 [], .num 0 [.name 0] 4].cons (.put 1 5 [.name 0] 0) ++
    .put 1 1 [.elt 1 0] 0 :: [.dict 1 [(0, [.name 0], 2)], .num 0 [] 1] ∧
    Spec.shared [.dict 1 [(0, [.name 0], 2)], .num 0 [] 1] 1 1 = true := by decide

/-- **C134** is violated: the last version by its number is not what `code(d)` gives; `d` is now `{5: 5}`. -/
theorem last_by_number : (Spec.versions 1 sample).length = 4 ∧ got sample 1 3 = some (.ok ([4], some (.dict []))) ∧
    got sample 1 (-1) = some (.ok ([0, 3, 4, 5], some (.dict [(5, 5)]))) := ⟨by decide, by rfl, by rfl⟩

/-- `d = {}`, `d[0] = 1`, `d[1] = 2`, `d[1] = 5`, `d[0] = 3`. -/
def ordered : List Stmt := [.put 0 0 [] 3, .put 0 1 [] 5, .put 0 1 [] 2, .put 0 0 [] 1, .dict 0 []]

/-- **C134** is violated if the order of the elements is looked at: `list(d)` is `[0, 1]`, and `[1, 0]` when the code is run on its own. -/
theorem order_changed : Spec.now ordered 0 = some (.dict [(0, 3), (1, 5)]) ∧
    got ordered 0 (-1) = some (.ok ([0, 3, 4], some (.dict [(1, 5), (0, 3)]))) := ⟨by decide, by rfl⟩

/-- `d = {0: 0}`, `e = d`, `d[0] = 1`, `z = e[0]`; `d`, `e` and `z` are 0, 1 and 2. -/
def named : List Stmt := [.num 2 [.elt 1 0] 0, .put 0 0 [] 1, .same 1 0, .dict 0 [(0, [], 0)]]

/-- **C134** is violated if an element is read through a second name: the code of `z` is `d = {0: 0}`, `d[0] = 1`, `z = e[0]`, which raises. -/
theorem second_name_missing : Spec.now named 2 = some (.num 1) ∧ got named 2 (-1) = some (.ok ([0, 2, 3], none)) := ⟨by decide, by rfl⟩

/-- `e = d` makes a version of `d`, whose code gives `{0: 0}`; version 0 of `e` has no code. -/
example : Spec.shared [.dict 0 []] 0 0 = true ∧ Spec.isDict [.dict 0 []] 0 = true ∧ (track named).isSome ∧
    Spec.versions 0 named = [some (.dict [(0, 0)]), some (.dict [(0, 0)]), some (.dict [(0, 0)])] ∧
    Spec.versions 1 named = [none, some (.dict [(0, 0)]), some (.dict [(0, 0)])] ∧
    got named 1 0 = some (.error .crash) := ⟨by decide, by decide, by decide, by decide, by decide, by rfl⟩

example : (track [.same 1 0, .dict 0 []]).map (fun σ => timestamp σ 0) = some (some 1) ∧ Spec.lastChange 0 [.same 1 0, .dict 0 []] = some 0 := by decide
example : Spec.NoNames sample ∧ (track sample).map (fun σ => (timestamp σ 0, timestamp σ 1)) = some (some 3, some 5) :=
  ⟨by simp [Spec.NoNames, sample], by decide⟩

end Verif.Versions
