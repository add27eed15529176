import Verif.Target.Model

/-!
# Which variable a name means

The rules of Python for names, without the functions of the model.
-/

namespace Verif.Target

variable {V : Type}

/-- `Owner chain j i`: the variable which the name means in code of block `j` is the one of
block `i`. -/
inductive Owner (chain : List Block) : Nat → Nat → Prop
  | own {j b} : chain[j]? = some b → b.decl = .binds → Owner chain j j
  | global {j b} : chain[j]? = some b → b.decl = .isGlobal → Owner chain j (chain.length - 1)
  | outer {j b i c} : chain[j]? = some b → (b.decl = .isNonlocal ∨ b.decl = .uses) →
      j < i → chain[i]? = some c → c.isClass = false → c.decl = .binds →
      (∀ k d, j < k → k < i → chain[k]? = some d → d.isClass = false → d.decl ≠ .binds) →
      Owner chain j i

/-- The last block is the module, which is no class and binds its variables. -/
structure Wf (chain : List Block) : Prop where
  nonempty : chain ≠ []
  top : ∀ b, chain[chain.length - 1]? = some b → b.isClass = false ∧ b.decl = .binds

/-- What the running code does with the name: code of block `j` binds or deletes it. -/
inductive Op (V : Type) where
  | bind (j : Nat) (v : V)
  | del (j : Nat)

/-- The values of the variables of the name, one for each block, as Python has them. -/
abbrev World (V : Type) := Nat → Option V

/-- What Python does: the variable meant is changed.  Code that binds or deletes a name without
declaring it global or nonlocal makes it one of its own, so it does not just use it. -/
inductive Does (chain : List Block) : World V → Op V → World V → Prop
  | bind {w j v i} : Owner chain j i → (∀ b, chain[j]? = some b → b.decl ≠ .uses) →
      Does chain w (.bind j v) (fun k => if k = i then some v else w k)
  | del {w j i} : Owner chain j i → (∀ b, chain[j]? = some b → b.decl ≠ .uses) →
      Does chain w (.del j) (fun k => if k = i then none else w k)

/-- A run of the code, with what is recorded: whether there is a global variable of the name
is seen in the world after the operation. -/
inductive Runs (chain : List Block) : List (Op V) → World V → Tab V → Prop
  | start : Runs chain [] (fun _ => none) (fun _ => none)
  | bind {ops w t j v w'} : Runs chain ops w t → Does chain w (.bind j v) w' →
      Runs chain (ops ++ [.bind j v]) w' (store chain j v (w' (chain.length - 1)).isSome t)
  | del {ops w t j w'} : Runs chain ops w t → Does chain w (.del j) w' →
      Runs chain (ops ++ [.del j]) w' (delete j t)

/-- Operations for which the scope is found: a block that declares the name nonlocal is a
function whose table of symbols is known, and the variable is one of the block just around it;
nothing is deleted that is declared global or nonlocal. -/
def Plain (chain : List Block) : Op V → Prop
  | .bind j _ => ∀ b, chain[j]? = some b → b.decl = .isNonlocal →
      b.isClass = false ∧ b.hasTab = true ∧ Owner chain j (j + 1)
  | .del j => ∀ b, chain[j]? = some b → b.decl = .binds

end Verif.Target
