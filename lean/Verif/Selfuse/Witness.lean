import Verif.Selfuse.Props

/-! # C136: examples -/

namespace Verif.Selfuse
open Verif

/-- The code of `k` and what `k` is after running it on its own. -/
def got (h : List Stmt) (k : Key) : Option (Except Err (List Nat × Option (Option Val))) :=
  (track h).map fun σ => match code σ (fun _ => []) k with
    | .error e => .error e
    | .ok C => .ok (C, (runCode σ C fun _ => none).map fun e => e k)

/-- `o = SimpleNamespace()`, `o.a = 1`, `x = o.a + 2`, `o.b = o.a + x`, `o.a += o.b`, `y = 7`; last first. -/
def sample : List Stmt :=
  [.num 9 [] 7, .aug 0 0 [.attr 0 1] 0, .put 0 1 [.attr 0 0, .var 1] 0, .num 1 [.attr 0 0] 2, .put 0 0 [] 1, .make 0]

example : Spec.SelfFree sample := by
  intro o a ops c hm
  simp only [sample, List.mem_cons, reduceCtorEq, Stmt.put.injEq, List.not_mem_nil, or_false, false_or] at hm
  rcases hm with ⟨rfl, rfl, rfl, rfl⟩ | ⟨rfl, rfl, rfl, rfl⟩ <;> simp
example : (Spec.run sample).map (fun e => (e (.attr 0 0), e (.var 1))) = some (some (.num 5), some (.num 3)) := by decide
example : got sample (.attr 0 0) = some (.ok ([0, 1, 2, 3, 4], some (some (.num 5)))) := by rfl
example : got sample (.var 1) = some (.ok ([0, 1, 2], some (some (.num 3)))) := by rfl
example : got sample (.var 0) = some (.ok ([0, 1, 2, 3, 4], some (some .obj))) := by rfl

/-- `o = SimpleNamespace()`, `o.a = 1`, `o.a = o.a + 1`. -/
def counter : List Stmt := [.put 0 0 (List.replicate 1 (.attr 0 0)) 1, .put 0 0 [] 1, .make 0]

example : (track counter).isSome ∧ (Spec.run counter).map (fun e => e (.attr 0 0)) = some (some (.num 2)) := by decide
example : got counter (.attr 0 0) = some (.ok ([0, 2], none)) := by rfl

/-- `o = SimpleNamespace()`, `o.a = 1`, `o.b = o.a`, `o.a = 5`, `o.a = o.a + o.b`. -/
def mixed : List Stmt := [.put 0 0 [.attr 0 0, .attr 0 1] 0, .put 0 0 [] 5, .put 0 1 [.attr 0 0] 0, .put 0 0 [] 1, .make 0]

/-- **C136** is violated: `o.a` is 6, and its code gives 2, without any exception. -/
theorem self_update_wrong : (Spec.run mixed).map (fun e => e (.attr 0 0)) = some (some (.num 6)) ∧
    got mixed (.attr 0 0) = some (.ok ([0, 1, 2, 4], some (some (.num 2)))) := ⟨by decide, by rfl⟩

end Verif.Selfuse
