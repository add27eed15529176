import Verif.Asked.Props

/-!
# What commands answer about: concrete cases -/

namespace Verif.Asked.Witness
open Verif Verif.Asked

/-- A variable 0 (symbol 10) with an attribute 1 (symbol 11), an element 5 (symbol 15) and an element named 2 (symbol 12); attribute 1 of the element (symbol 16); a function 3
(symbol 13). -/
def world : World where
  root := fun n => if n = 0 then some 10 else if n = 3 then some 13 else none
  nsOf := fun s =>
    if s = 10 then some ⟨fun n => if n = 1 then some 11 else none, fun k => if k = .index 5 then some 15 else if k = .name 2 then some 12 else none⟩
    else if s = 15 then some ⟨fun n => if n = 1 then some 16 else none, fun _ => none⟩
    else none

/-- The same without the element that has a name. -/
def numbers : World where
  root := fun n => if n = 0 then some 10 else if n = 3 then some 13 else none
  nsOf := fun s =>
    if s = 10 then some ⟨fun n => if n = 1 then some 11 else none, fun k => if k = .index 5 then some 15 else none⟩
    else if s = 15 then some ⟨fun n => if n = 1 then some 16 else none, fun _ => none⟩
    else none

/-- What a user expects. -/
def Claim : Prop := ∀ (w : World) (t : Text), answer w t = .ok (match t with | .expr e => means w e | _ => none)

/-- **C198 is violated.** -/
theorem asked_claim_false : ¬Claim := by
  intro h
  have := h world (.expr (.attr (.name 0) 7))
  revert this
  decide

theorem world_ns {s : Nat} {ns : Ns} (h : world.nsOf s = some ns) (n : Name) : ns.attrs n = none ∨ ns.subs (.name n) = none := by
  simp only [world] at h
  split at h
  · injection h with h
    subst h
    by_cases hn : n = 1
    · subst hn; right; rfl
    · left; simp [hn]
  · split at h
    · injection h with h
      subst h
      exact Or.inr rfl
    · cases h

example : Apart world := fun _ _ n h => world_ns h n
example : Numbered numbers := by
  intro s ns n h
  simp only [numbers] at h
  split at h
  · injection h with h
    subst h
    simp
  · split at h
    · injection h with h
      subst h
      rfl
    · cases h

/-- `v0[5].v1` -/
def deep : Expr := .attr (.sub (.name 0) (.const (.index 5))) 1

-- `known_partial`
example : Path deep ∧ means world deep = some 16 := ⟨.attr _ (.sub _ (.name _)), by decide⟩
example : answer world (.expr deep) = .ok (some 16) := by decide
-- `answers_nearest`: `v0[5].v7` and `v0[6].v1`
example : answer numbers (.expr (.attr (.sub (.name 0) (.const (.index 5))) 7)) = .ok (some 15) := by decide
example : answer numbers (.expr (.attr (.sub (.name 0) (.const (.index 6))) 1)) = .ok (some 10) := by decide
example : NoStrings deep := trivial
-- `index_dropped`: `v0[v3].v1` is answered with the attribute of `v0`
example : answer world (.expr (.attr (.sub (.name 0) (.var 3)) 1)) = .ok (some 11) := by decide
-- `mixed_up`
example : answer world (.expr (.attr (.name 0) 2)) = .ok (some 12) ∧ answer world (.expr (.sub (.name 0) (.const (.name 1)))) = .ok (some 11) := by decide
-- `call_answers_function`
example : answer world (.expr (.attr (.call (.name 3)) 1)) = .ok (some 13) := by decide
example : answer world (.expr (.call (.sub (.name 0) (.const (.index 5))))) = .ok (some 10) := by decide
-- texts
example : answer world .none = .ok none ∧ answer world .broken = .ok none ∧ answer world (.expr .display) = .ok none ∧ answer world (.stmts (some .display)) = .ok none := by decide

end Verif.Asked.Witness
