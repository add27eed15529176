import Verif.Lifted.Lemmas

/-!
# The variable that an argument stands for: proofs

C174. What `lift`, `code`, `deps`, `users`, `timestamp` and the others speak about has the object of the argument and has to do with its expression (`speaks_sound`). For a variable it is that variable (`name_speaks`); for an attribute reached from a variable by attributes and constant subscripts it is that attribute
exactly if no symbol passed on the way, other than itself, has the same object (`attr_speaks_partial`, `attr_raises`); for a constant subscript, the one with the object among those that
the tracer recorded (`item_speaks`).

The claim is false (`lift_claim_false`): for `deps(l[i].n)` the name `n` is looked for in `l`, and `i` counts as a candidate, so that the function speaks about `i` if the value
is the same small number (`index_wrong`), and raises otherwise (`index_raises`); for `(x or y).n` a global variable `n` is a candidate (`option_wrong`); an argument that is not the
first to be evaluated is not exchanged (`later_raises`), and none is when the tracer is off, as in all but the first round of a loop (`untraced_raises`).
-/

namespace Verif.Lifted

variable {S O : Type} [DecidableEq S] [DecidableEq O]

/-- What a function speaks about is what its first argument has been exchanged for. -/
theorem speaks_first (W : World S O) (traced : Bool) (l : List (Arg S O)) (s : S) (h : speaks W traced l = some s) :
    ∃ a r, l = a :: r ∧ a.main = true ∧ traced = true ∧ lift W a.exp a.val = some s := by
  cases l with
  | nil => cases h
  | cons a r =>
    simp only [speaks] at h
    cases traced with
    | false => simp at h
    | true =>
      cases hm : a.main with
      | false => simp [hm] at h
      | true => exact ⟨a, r, rfl, hm, rfl, by simpa [hm] using h⟩

omit [DecidableEq S] [DecidableEq O] in
theorem resolve_mentioned (W : World S O) (e : Exp S) (s : S) (h : s ∈ resolve W e) : Mentioned W e s := by
  unfold resolve at h
  split at h
  · exact static_mentioned W e false s h
  · exact direct_mentioned W e s h

/-- The object of what a function speaks about is the value of the argument, and the tracer was on. -/
theorem speaks_sound (W : World S O) (traced : Bool) (l : List (Arg S O)) (s : S) (h : speaks W traced l = some s) :
    traced = true ∧ ∃ a ∈ l, a.main = true ∧ W.obj s = a.val ∧ Mentioned W a.exp s := by
  obtain ⟨a, r, rfl, hm, ht, hl⟩ := speaks_first W traced l s h
  obtain ⟨h1, h2, _⟩ := (lift_iff W a.exp a.val s).1 hl
  exact ⟨ht, a, List.mem_cons_self, hm, h2, resolve_mentioned W a.exp s h1⟩

/-- Of a variable, a function speaks about it. -/
theorem name_speaks (W : World S O) (x : Nat) (s : S) (r : List (Arg S O)) (hx : W.look x = some s) :
    speaks W true (⟨true, .name x, W.obj s⟩ :: r) = some s := by
  simp only [speaks, Bool.and_true, if_true]
  refine (lift_iff W _ _ s).2 ?_
  rw [path_named W (.name hx) trivial]
  simp

/-- Of a variable or an attribute, reached by a path on which no other symbol has the same object, a function speaks about it. -/
theorem attr_speaks_partial (W : World S O) (e : Exp S) (s : S) (b : List S) (r : List (Arg S O)) (h : Path W e s b) (hn : Named e)
    (hb : ∀ t ∈ b, W.obj t = W.obj s → t = s) : speaks W true (⟨true, e, W.obj s⟩ :: r) = some s := by
  simp only [speaks, Bool.and_true, if_true]
  refine (lift_iff W _ _ s).2 ?_
  rw [path_named W h hn]
  refine ⟨by simp, rfl, fun t ht hv => ?_⟩
  rcases List.mem_append.1 ht with ht | ht
  · exact hb t ht hv
  · simpa using ht

/-- If another symbol on the path has the same object, the function raises. -/
theorem attr_raises (W : World S O) (e : Exp S) (s t : S) (b : List S) (r : List (Arg S O)) (h : Path W e s b) (hn : Named e)
    (ht : t ∈ b) (hv : W.obj t = W.obj s) (hne : t ≠ s) : speaks W true (⟨true, e, W.obj s⟩ :: r) = none := by
  simp only [speaks, Bool.and_true, if_true]
  cases hl : lift W e (W.obj s) with
  | none => rfl
  | some u =>
    obtain ⟨_, _, h3⟩ := (lift_iff W _ _ u).1 hl
    rw [path_named W h hn] at h3
    exact (hne ((h3 t (by simp [ht]) hv).trans (h3 s (by simp) rfl).symm)).elim

/-- Of a constant subscript, a function speaks about the one with the object among those that the tracer recorded. -/
theorem item_speaks (W : World S O) (l : List S) (e : Exp S) (k : Nat) (s : S) (b : List S) (r : List (Arg S O)) (h : Path W (.item l e k) s b)
    (hs : s ∈ l) (hl : ∀ t ∈ l, W.obj t = W.obj s → t = s) : speaks W true (⟨true, .item l e k, W.obj s⟩ :: r) = some s := by
  simp only [speaks, Bool.and_true, if_true]
  refine (lift_iff W _ _ s).2 ?_
  have hne : l ≠ [] := by rintro rfl; cases hs
  rw [path_item W h, if_neg hne]
  exact ⟨hs, rfl, hl⟩

/-- If the symbol of a subscript has not been recorded, but others have, it is not what the function speaks about. -/
theorem item_missed (W : World S O) (l : List S) (e : Exp S) (k : Nat) (s : S) (b : List S) (v : O) (r : List (Arg S O)) (h : Path W (.item l e k) s b)
    (hl : l ≠ []) (hs : s ∉ l) : speaks W true (⟨true, .item l e k, v⟩ :: r) ≠ some s := by
  simp only [speaks, Bool.and_true, if_true]
  intro hsp
  have h1 := ((lift_iff W _ _ s).1 hsp).1
  rw [path_item W h, if_neg hl] at h1
  exact hs h1

omit [DecidableEq S] [DecidableEq O] in
/-- The symbols found for an attribute of an element at a variable index. -/
theorem index_found (W : World S O) (ld : List S) (x i a : Nat) (s u : S) (hx : W.look x = some s) (hi : W.look i = some u) :
    resolve W (.attr (.sub ld (.name x) (.name i)) a) = s :: ((W.member s a).toList ++ [u]) := by
  have h0 : direct (.attr (.sub ld (.name x) (.name i)) a : Exp S) = [] := rfl
  simp only [resolve, h0, static, ofChain, rootBin, atoms, Bool.false_eq_true, if_false, if_true, Option.map, List.reverse_cons, List.reverse_nil, List.nil_append,
    List.cons_append, chainSyms, hx, hi, walk, Option.toList]
  cases W.member s a <;> rfl

/-- Of an attribute of an element at a variable index, a function speaks about the index if that has the same object. -/
theorem index_wrong (W : World S O) (ld : List S) (x i a : Nat) (s u : S) (v : O) (r : List (Arg S O)) (hx : W.look x = some s) (hi : W.look i = some u)
    (hu : W.obj u = v) (hs : W.obj s ≠ v) (ha : W.member s a = none) :
    speaks W true (⟨true, .attr (.sub ld (.name x) (.name i)) a, v⟩ :: r) = some u := by
  simp only [speaks, Bool.and_true, if_true]
  refine (lift_iff W _ _ u).2 ?_
  rw [index_found W ld x i a s u hx hi, ha]
  refine ⟨by simp, hu, fun t ht hv => ?_⟩
  simp only [Option.toList_none, List.nil_append, List.mem_cons, List.not_mem_nil, or_false] at ht
  rcases ht with rfl | rfl
  · exact (hs hv).elim
  · rfl

/-- It never speaks about the attribute, unless that is at hand in another way. -/
theorem index_raises (W : World S O) (ld : List S) (x i a : Nat) (s u t : S) (v : O) (r : List (Arg S O)) (hx : W.look x = some s) (hi : W.look i = some u)
    (hts : t ≠ s) (htu : t ≠ u) (ha : W.member s a ≠ some t) :
    speaks W true (⟨true, .attr (.sub ld (.name x) (.name i)) a, v⟩ :: r) ≠ some t := by
  simp only [speaks, Bool.and_true, if_true]
  intro h
  have h1 := ((lift_iff W _ _ t).1 h).1
  rw [index_found W ld x i a s u hx hi] at h1
  simp only [List.mem_cons, List.mem_append, Option.mem_toList, List.not_mem_nil, or_false] at h1
  rcases h1 with h1 | h1 | h1
  · exact hts h1
  · exact ha h1
  · exact htu h1

/-- Of an attribute of a choice between variables, a function speaks about a variable with the name of the attribute if that has the same object, and otherwise raises. -/
theorem option_wrong (W : World S O) (x y a : Nat) (v : O) (r : List (Arg S O)) :
    speaks W true (⟨true, .attr (.op (.pair (.name x) (.name y))) a, v⟩ :: r) = (W.look a).filter fun s => W.obj s = v := by
  simp only [speaks, Bool.and_true, if_true, lift, resolve, direct, Exp.isCall, static, ofChain, rootBin, atoms, Bool.false_eq_true, if_false, Option.map,
    List.reverse_cons, List.reverse_nil, List.nil_append, List.append_nil, chainSyms, walk]
  cases hl : W.look a with
  | none => rfl
  | some t => by_cases hv : W.obj t = v <;> simp [hv, only, Option.filter]

/-- Of a variable among others that have the same object, nothing is said. -/
theorem choice_raises (W : World S O) (x y : Nat) (s t : S) (r : List (Arg S O)) (hx : W.look x = some s) (hy : W.look y = some t) (hne : s ≠ t)
    (hv : W.obj s = W.obj t) : speaks W true (⟨true, .op (.pair (.name x) (.name y)), W.obj s⟩ :: r) = none := by
  simp [speaks, lift, resolve, direct, static, hx, hy, hv, only, Ne.symm hne]

/-- An operation the value of which is the object of an operand counts as that operand. -/
theorem bin_speaks (W : World S O) (x y : Nat) (s t : S) (v : O) (r : List (Arg S O)) (hx : W.look x = some s) (hy : W.look y = some t) (hs : W.obj s = v)
    (ht : W.obj t ≠ v) : speaks W true (⟨true, .bin (.name x) (.name y), v⟩ :: r) = some s := by
  simp [speaks, lift, resolve, direct, static, hx, hy, hs, ht, only]

/-- Of an argument that is not evaluated first, nothing is said. -/
theorem later_raises (W : World S O) (traced : Bool) (a : Arg S O) (r : List (Arg S O)) (ha : a.main = false) : speaks W traced (a :: r) = none := by
  simp [speaks, ha]

/-- When the tracer is off, nothing is said. -/
theorem untraced_raises (W : World S O) (l : List (Arg S O)) : speaks W false l = none := by
  cases l <;> simp [speaks]

/-- Of a literal nothing is said. -/
theorem literal_raises (W : World S O) (v : O) (r : List (Arg S O)) : speaks W true (⟨true, .lit, v⟩ :: r) = none := by
  simp [speaks, lift, resolve, direct, static, only]

end Verif.Lifted
