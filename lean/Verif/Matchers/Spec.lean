import Verif.Matchers.Model

/-!
# What matchers say
-/

namespace Verif.Matchers

open Verif

/-- Parents are not repeated, and all elements of a set are looked at. -/
structure World.Ok (w : World) : Prop where
  nodup : ∀ x, (w.parents x).Nodup
  order : ∀ l y, y ∈ w.order l ↔ y ∈ l

/-- `y` is a parent of `x` that has a name. -/
def NamedParent (w : World) (x y : Nat) : Prop := y ∈ w.parents x ∧ w.anon y = false

/-- `y` is a child of `x` that has a name. -/
def NamedChild (w : World) (x y : Nat) : Prop := y ∈ w.children x ∧ w.anon y = false

mutual
/-- The symbol is as the matcher says. -/
def Fits (w : World) : M → Nat → Prop
  | .plain _, _ => True
  | .ref b, x => w.bound b = some x
  | .allOf _ ms, x => AllFit w ms x
  | .anyOf _ ms, x => AnyFit w ms x
  | .display _, x => x = w.display
  | .file b literal, x => w.inFs x = true ∧ (literal = true → w.path x = w.pathOf b)
  | .children _ ms exact, x => ∃ ys, Pairs w ms ys ∧ ys.Nodup ∧ (∀ y ∈ ys, NamedChild w x y) ∧
      (exact = true → ∀ y, NamedChild w x y → y ∈ ys)
  | .parents _ ms exact, x => ∃ ys, Pairs w ms ys ∧ ys.Nodup ∧ (∀ y ∈ ys, NamedParent w x y) ∧
      (exact = true → ∀ y, NamedParent w x y → y ∈ ys)
/-- It is as all of the matchers say. -/
def AllFit (w : World) : Ms → Nat → Prop
  | .nil, _ => True
  | .cons m ms, x => Fits w m x ∧ AllFit w ms x
/-- It is as one of the matchers says. -/
def AnyFit (w : World) : Ms → Nat → Prop
  | .nil, _ => False
  | .cons m ms, x => Fits w m x ∨ AnyFit w ms x
/-- The symbols are, one by one, as the matchers say. -/
def Pairs (w : World) : Ms → List Nat → Prop
  | .nil, ys => ys = []
  | .cons m ms, ys => ∃ y zs, ys = y :: zs ∧ Fits w m y ∧ Pairs w ms zs
end

mutual
/-- The matcher contains no `Ref`. -/
def NoRef : M → Prop
  | .ref _ => False
  | .allOf _ ms => AllNoRef ms
  | .anyOf _ ms => AllNoRef ms
  | .children _ ms _ => AllNoRef ms
  | .parents _ ms _ => AllNoRef ms
  | _ => True
/-- The same for lists. -/
def AllNoRef : Ms → Prop
  | .nil => True
  | .cons m ms => NoRef m ∧ AllNoRef ms
end

mutual
/-- The matcher contains no `AnyOf` and no `Children`. -/
def Safe : M → Prop
  | .allOf _ ms => AllSafe ms
  | .anyOf _ _ => False
  | .children _ _ _ => False
  | .parents _ ms _ => AllSafe ms
  | _ => True
/-- The same for lists. -/
def AllSafe : Ms → Prop
  | .nil => True
  | .cons m ms => Safe m ∧ AllSafe ms
end

mutual
/-- The matcher or one inside has this name, and is not `Parents`, `Children`, `Ref` or a literal
path. -/
def Mentions (n : Nat) : M → Prop
  | .plain b => b = n
  | .ref _ => False
  | .allOf b ms => b = n ∨ ListMentions n ms
  | .anyOf b ms => b = n ∨ ListMentions n ms
  | .display b => b = n
  | .file b literal => b = n ∧ literal = false
  | .children _ ms _ => ListMentions n ms
  | .parents _ ms _ => ListMentions n ms
/-- The same for lists. -/
def ListMentions (n : Nat) : Ms → Prop
  | .nil => False
  | .cons m ms => Mentions n m ∨ ListMentions n ms
end

mutual
/-- The matcher or one inside that has to match together with it has this name, and is not `Parents`,
`Children`, `Ref` or a literal path. -/
def Needs (n : Nat) : M → Prop
  | .plain b => b = n
  | .ref _ => False
  | .allOf b ms => b = n ∨ ListNeeds n ms
  | .anyOf b _ => b = n
  | .display b => b = n
  | .file b literal => b = n ∧ literal = false
  | .children _ ms _ => ListNeeds n ms
  | .parents _ ms _ => ListNeeds n ms
/-- The same for lists. -/
def ListNeeds (n : Nat) : Ms → Prop
  | .nil => False
  | .cons m ms => Needs n m ∨ ListNeeds n ms
end

mutual
/-- The matcher binds `n` to `v` when it is held against `x`. -/
def Binds (w : World) (n : Nat) (v : Val) : M → Nat → Prop
  | .plain b, x => b = n ∧ v = .sym x
  | .ref _, _ => False
  | .allOf b ms, x => (b = n ∧ v = .sym x) ∨ (b ≠ n ∧ ListBinds w n v ms x)
  | .anyOf b ms, x => (b = n ∧ v = .sym x) ∨ (b ≠ n ∧ ListBinds w n v ms x)
  | .display b, x => b = n ∧ v = .sym x
  | .file b literal, x => b = n ∧ literal = false ∧ v = .obj x
  | .children _ _ _, _ => False
  | .parents _ ms _, x => SomeBinds w n v ms (NamedParent w x)
/-- One of the matchers binds `n` to `v`, and fits. -/
def ListBinds (w : World) (n : Nat) (v : Val) : Ms → Nat → Prop
  | .nil, _ => False
  | .cons m ms, x => (Fits w m x ∧ Binds w n v m x) ∨ ListBinds w n v ms x
/-- One of the matchers binds `n` to `v` when held against one of these symbols, and fits. -/
def SomeBinds (w : World) (n : Nat) (v : Val) : Ms → (Nat → Prop) → Prop
  | .nil, _ => False
  | .cons m ms, p => (∃ y, p y ∧ Fits w m y ∧ Binds w n v m y) ∨ SomeBinds w n v ms p
end

/-- The first full claim: there is an answer for every matcher and symbol, and it is right. -/
def MatchClaim : Prop :=
  ∀ (w : World) (m : M) (x : Nat), w.Ok → ∃ r, mat w m x = .ok r ∧ (r.isSome ↔ Fits w m x)

/-- The second full claim: a `Parents` matcher that is met binds its name to the symbol, as the others
do. -/
def OwnNameClaim : Prop :=
  ∀ (w : World) (b : Nat) (ms : Ms) (exact : Bool) (x : Nat) (c : List (Nat × Val)), w.Ok →
    mat w (.parents b ms exact) x = .ok (some c) → Assoc.get c b = some (.sym x)

/-- The third full claim, from the description of `AnyOf`: if several match, the first one wins. -/
def FirstWinsClaim : Prop :=
  ∀ (w : World) (b : Nat) (m1 m2 : M) (x : Nat) (c1 c2 c : List (Nat × Val)) (n : Nat) (v : Val), w.Ok →
    mat w m1 x = .ok (some c1) → mat w m2 x = .ok (some c2) → n ≠ b → Assoc.get c1 n = some v →
    mat w (.anyOf b (.cons m1 (.cons m2 .nil))) x = .ok (some c) → Assoc.get c n = some v

end Verif.Matchers
