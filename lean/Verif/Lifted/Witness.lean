import Verif.Lifted.Props

/-!
# The variable that an argument stands for: concrete cases

Names: 0 is `l`, 1 is `i`, 2 is `n`, 3 is `x`, 4 is `y`. The symbol of name `k` is `k`; `l` is a list of two elements (symbols 10 and 11, keys 100 and 101) with attributes `n`
(symbols 20, 21); `i` is 1 and so is `l[1].n`.
-/

namespace Verif.Lifted.Witness

/-- The world of the examples (concrete data; `core/ipyflow/data_model/scope.py` 127-175). -/
def W : World Nat Nat where
  look k := if k < 5 then some k else none
  obj s := if s = 0 then 1000 else if s = 1 ∨ s = 21 then 1 else if s = 3 ∨ s = 4 then 7 else if s = 2 then 9 else if s = 20 then 5 else 2000 + s
  member s k := if s = 0 ∧ k = 100 then some 10 else if s = 0 ∧ k = 101 then some 11 else if s = 10 ∧ k = 2 then some 20 else if s = 11 ∧ k = 2 then some 21 else none
  body _ := []

/-- Object 1 as subscript is the key 101 (concrete data; `core/ipyflow/data_model/namespace.py` 252-285). -/
def key (o : Nat) : Nat := 100 + o

/-- `deps(l[1].n)`. -/
example : speaks W true [⟨true, .attr (.item [11] (.name 0) 101) 2, 1⟩] = some 21 :=
  attr_speaks_partial W _ 21 [0, 11] [] (.attr (.item (b := []) (.name rfl) rfl) rfl) trivial (by decide)

/-- `deps(x)`, although `y` has the same object. -/
example : speaks W true [⟨true, .name 3, 7⟩] = some 3 := name_speaks W 3 3 [] rfl

/-- `deps(l[1])`. -/
example : speaks W true [⟨true, .item [11] (.name 0) 101, 2011⟩] = some 11 :=
  item_speaks W [11] (.name 0) 101 11 [0] [] (.item (b := []) (.name rfl) rfl) (by decide) (by decide)

/-- `deps(l[1])` if only another element has been recorded. -/
example : speaks W true [⟨true, .item [10] (.name 0) 101, 2011⟩] ≠ some 11 :=
  item_missed W [10] (.name 0) 101 11 [0] 2011 [] (.item (b := []) (.name rfl) rfl) (by decide) (by decide)

/-- `deps(l[i].n)` speaks about `i`. -/
example : speaks W true [⟨true, .attr (.sub [11] (.name 0) (.name 1)) 2, 1⟩] = some 1 := index_wrong W [11] 0 1 2 0 1 1 [] rfl rfl rfl (by decide) rfl

example : speaks W true [⟨true, .attr (.sub [11] (.name 0) (.name 1)) 2, 1⟩] ≠ some 21 :=
  index_raises W [11] 0 1 2 0 1 21 1 [] rfl rfl (by decide) (by decide) (by decide)

/-- `deps((x or y).n)` with a value that is the object of the variable `n`. -/
example : speaks W true [⟨true, .attr (.op (.pair (.name 3) (.name 4))) 2, 9⟩] = some 2 := by rw [option_wrong]; rfl

/-- `deps(x or y)`, both the same object. -/
example : speaks W true [⟨true, .op (.pair (.name 3) (.name 4)), 7⟩] = none := choice_raises W 3 4 3 4 [] rfl rfl (by decide) rfl

/-- `deps(x + i)` with a value that is the object of `x`. -/
example : speaks W true [⟨true, .bin (.name 3) (.name 1), 7⟩] = some 3 := bin_speaks W 3 1 3 1 7 [] rfl rfl rfl (by decide)

/-- `code(format_type=n, sym=x)`. -/
example : speaks W true [⟨false, .name 2, 9⟩, ⟨true, .name 3, 7⟩] = none := later_raises W true _ _ rfl

/-- The second round of a loop. -/
example : speaks W false [⟨true, .name 3, 7⟩] = none := untraced_raises W _

/-- `deps(1)`. -/
example : speaks W true [⟨true, .lit, 1⟩] = none := literal_raises W 1 []

example : ∃ a ∈ [(⟨true, .name 3, 7⟩ : Arg Nat Nat)], a.main = true ∧ W.obj 3 = a.val ∧ Mentioned W a.exp 3 :=
  (speaks_sound W true [⟨true, .name 3, 7⟩] 3 rfl).2

/-- A path on which a symbol other than the last has the same object: `x.n` is `x` (concrete data;
`core/ipyflow/data_model/scope.py` 127-175). -/
def W' : World Nat Nat where
  look k := if k = 3 then some 3 else none
  obj _ := 7
  member s k := if s = 3 ∧ k = 2 then some 30 else none
  body _ := []

example : speaks W' true [⟨true, .attr (.name 3) 2, 7⟩] = none :=
  attr_raises W' _ 30 3 [3] [] (.attr (b := []) (.name rfl) rfl) trivial (by decide) rfl (by decide)

/-- The claim is false: `deps(l[i].n)` speaks about `i`. -/
theorem lift_claim_false : ¬LiftClaim := by
  intro h
  have := h W key true ⟨true, .attr (.sub [11] (.name 0) (.name 1)) 2, 1⟩ [] [] 21 rfl
    (.attr (s := 11) (.sub (s := 0) (u := 1) (.name rfl) (.name rfl) rfl) rfl) rfl
  rw [List.nil_append, index_wrong W [11] 0 1 2 0 1 1 [] rfl rfl rfl (by decide) rfl] at this
  exact absurd this (by decide)

end Verif.Lifted.Witness
