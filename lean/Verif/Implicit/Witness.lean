import Verif.Implicit.Props

/-!
# Functions that run without being called in the text: concrete cases

Symbols: 1 is `o`, 2 is `b`, 3 is `g`, 9 is a global variable that the function with number 7 reads.
-/

namespace Verif.Implicit.Witness

/-- A function that reads a global variable (concrete data; `core/ipyflow/tracing/ipyflow_tracer.py` 423-441). -/
def f : Fn Nat := ⟨7, [9]⟩

/-- `o` (concrete data; `core/ipyflow/tracing/symbol_resolver.py` 77-79). -/
def o (n : Nat) : Exp Nat := .name n 1

/-- `x = o.p`. -/
example : 9 ∈ (assign [] (.attr 11 [] (o 10) (some f))).1 :=
  reads_partial [] _ (.attr (by simp [Plain, o])) (by simp [Fresh, fns, o]) f (by simp [fns, o]) 9 (by decide)

/-- `x = g(1, o.p.q) + o[b]`, where `p` is a property and `o[b]` runs another function. -/
example : 9 ∈ (assign [] (.bin 30 (.call 20 (.name 21 3) (.cons (.lit 22) (.cons (.attr 12 [] (.attr 11 [] (o 10) (some f)) none) .nil)) none)
    (.sub 23 [] (o 24) (.name 25 2) (some ⟨8, [4]⟩)) none)).1 :=
  reads_partial [] _ (.binTop (.call (by simp [Plain]) (.cons (.plain (by simp [Plain]) (by decide)) (.cons (.chain (by simp [Chain, Plain, o])) .nil)) (by decide))
    (.sub (by simp [Plain, o]) (by simp [Plain]))) (by simp [Fresh, fns, o, f]) f (by simp [fns, o]) 9 (by decide)

/-- `x = o.p.q`: nothing is known of the variable. -/
example : 9 ∉ (assign [] (.attr 12 [] (.attr 11 [] (o 10) (some f)) none)).1 := by
  intro h
  have := inner_lost [] 12 11 [] [] (o 10) f trivial (by decide) 9 h
  rw [← static_named] at this
  revert this
  decide

/-- `x = o[o.p]`. -/
example : 9 ∉ (assign [] (.sub 12 [5] (o 10) (.attr 11 [] (o 13) (some f)) none)).1 := by
  intro h
  have := index_lost [] 12 11 [5] [] (o 10) (o 13) f trivial trivial (by decide) 9 h
  rw [← static_named] at this
  revert this
  decide

/-- `x = o + b`. -/
example : 9 ∉ (assign [] (.bin 12 (o 10) (.name 11 2) (some f))).1 := by
  intro h
  have := operation_lost [] 12 (o 10) (.name 11 2) f trivial trivial 9 h
  rw [← static_named] at this
  revert this
  decide

/-- `x = o.a + b`. -/
example : 9 ∈ (assign [] (.bin 12 (.attr 13 [5] (o 10) none) (.name 11 2) (some f))).1 :=
  late_found [] 12 13 [5] (o 10) (.name 11 2) f trivial trivial (by decide) 9 (by decide)

/-- `x = (o + b).q`. -/
example : 9 ∉ (assign [] (.attr 14 [5] (.bin 12 (o 10) (.name 11 2) (some f)) none)).1 := by
  intro h
  have := before_lost [] 14 12 [5] (o 10) (.name 11 2) f trivial trivial 9 h
  rw [← static_named] at this
  revert this
  decide

/-- `x = g(o.p + b)`. -/
example : 9 ∉ (assign [] (.call 20 (.name 21 3) (.cons (.bin 22 (.attr 11 [] (o 10) (some f)) (.name 12 2) none) .nil) none)).1 := by
  intro h
  have := operand_lost [] 20 22 11 21 [] 3 (o 10) (.name 12 2) f trivial trivial (by decide) (by decide) 9 h
  rw [← static_named] at this
  revert this
  decide

/-- `x = g().a`. -/
example : 9 ∉ (assign [] (.attr 12 [5] (.call 20 (.name 21 3) .nil (some f)) none)).1 := by
  intro h
  have := result_lost [] 12 20 21 [5] 3 f 9 h
  rw [← static_named] at this
  revert this
  decide

/-- `x = o.p` and `y = o.p` in a cell: only `x` depends on the variable. -/
example : cell [] [.attr 11 [] (o 10) (some f), .attr 13 [] (o 12) (some f)] = [[9], [1]] := by decide

example : 9 ∉ (assign [7] (.attr 13 [] (o 12) (some f))).1 := by
  intro h
  have := again_lost [7] 13 [] (o 12) f trivial (by decide) 9 h
  rw [← static_named] at this
  revert this
  decide

/-- The claim is false. -/
theorem reads_claim_false : ¬ReadsClaim := by
  intro h
  have h9 := h (.bin 12 (o 10) (.name 11 2) (some f)) (by simp [Fresh, fns, o, f]) f (by simp [fns, o]) 9 (by decide)
  have := operation_lost [] 12 (o 10) (.name 11 2) f trivial trivial 9 h9
  rw [← static_named] at this
  revert this
  decide

end Verif.Implicit.Witness
