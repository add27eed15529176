import Verif.Place.Props

/-! # Assignments to parts of objects: cases, and where the code goes wrong -/

namespace Verif.Place
open Verif Verif.Chain Verif.Place.Spec

instance {O : Type} (s : St O) (o : O) (k : Key) (a : Nat) : Decidable (At s o k a) := inferInstanceAs (Decidable ((k, a) ∈ s.tab o))

/-- An element with a string as its index, as in `core/ipyflow/types.py` 15-30. -/
abbrev nameKey (x : String) : Key := .sub (.str x)

/-- An element with a number as its index. -/
abbrev numKey (i : Int) : Key := .sub (.int i)

/-- `x = {"a": {"n": …}, "m": 6}` is object 1 and `x["a"]` is object 2; `x["a"]["n"]` is `v` and `x["c"]` is `c`. -/
def dictGet (v : Nat) (c : Option Nat) : Nat → Key → Option Nat := fun o k =>
  if o = 1 then (if k = nameKey "a" then some 2 else if k = nameKey "m" then some 6 else if k = nameKey "c" then c else none)
  else if o = 2 then (if k = nameKey "n" then some v else none)
  else none

def dictWorld (v : Nat) (c : Option Nat) : World Nat := ⟨dictGet v c, fun o => o = 1 || o = 2, fun _ => none, 0⟩

/-- What is recorded when `x["a"]["n"]` is object 5: symbols 0 for `x["a"]`, 1 for `x["m"]`, 2 for `x["a"]["n"]`. -/
def dictState : St Nat where
  tab o := if o = 1 then [(nameKey "a", 0), (nameKey "m", 1)] else if o = 2 then [(nameKey "n", 2)] else []
  obj a := if a = 0 then 2 else if a = 1 then 6 else 5
  next := 10
  made o := o = 1 || o = 2
  base _ := none
  parent o := if o = 2 then some 1 else none
  nm o := if o = 1 then .attr "x" else nameKey "a"
  deps _ := []

theorem dict_wf : Wf dictState := by
  refine ⟨?_, ?_, ?_, ?_⟩
  · intro o
    simp only [dictState]
    split
    · decide
    · split <;> decide
  · intro o o' k k' a h h'
    simp only [dictState] at h h'
    split at h <;> (try split at h) <;> split at h' <;> (try split at h') <;> simp_all
    rcases h with h | h <;> simp_all
  · intro o k a h
    simp only [dictState] at h ⊢
    split at h <;> (try split at h) <;> simp_all
    omega
  · intro o h
    simp only [dictState, Bool.or_eq_false_iff, decide_eq_false_iff_not] at h ⊢
    rw [if_neg h.1, if_neg h.2]

theorem dict_accurate : Accurate (dictGet 5 none) dictState := by
  intro o k a h
  simp only [dictState] at h ⊢
  split at h
  · subst_vars
    rcases List.mem_cons.1 h with h | h
    · cases h; rfl
    · rcases List.mem_cons.1 h with h | h
      · cases h; rfl
      · exact nomatch h
  · split at h
    · subst_vars
      rcases List.mem_cons.1 h with h | h
      · cases h; rfl
      · exact nomatch h
    · exact nomatch h

/-- The target `x["a"]["n"]`. -/
def inner (deps idx : List Nat) : Leaf Nat := ⟨2, nameKey "n", deps, idx⟩

theorem dict_same {w : World Nat} (hw : w.len = fun _ => none) {o : Nat} {k k' : Key} (h : Same w o k k') : k = k' := by
  cases h with
  | refl => rfl
  | neg h => rw [hw] at h; exact nomatch h
  | pos h => rw [hw] at h; exact nomatch h

theorem dict_only (v : Nat) (deps idx : List Nat) : OnlyAt (dictWorld v none) (dictGet 5 none) [inner deps idx] := by
  intro o k h
  show dictGet v none o k = dictGet 5 none o k
  unfold dictGet
  by_cases h1 : o = 1
  · rw [if_pos h1, if_pos h1]
  · rw [if_neg h1, if_neg h1]
    by_cases h2 : o = 2
    · rw [if_pos h2, if_pos h2]
      by_cases h3 : k = nameKey "n"
      · subst h2 h3
        exact absurd (Same.refl _) (h (inner deps idx) (by simp) rfl)
      · rw [if_neg h3, if_neg h3]
    · rw [if_neg h2, if_neg h2]

theorem dict_idx (v : Nat) (deps idx : List Nat) : ∀ l ∈ [inner deps idx], ∀ k a, (k, a) ∈ dictState.tab l.o →
    Same (dictWorld v none) l.o l.k k → k = l.k := fun _ _ _ _ _ h => (dict_same rfl h).symm

theorem dict_announced (v : Nat) (deps idx : List Nat) : Announced (dictWorld v none) false v (inner deps idx) :=
  fun _ => .inr rfl

theorem dict_outside {o p : Nat} (h : Outside dictState.parent o p) : o = 2 ∧ p = 1 := by
  obtain ⟨q, h1, h2⟩ := h
  simp only [dictState] at h1
  split at h1
  · cases h1
    refine ⟨by assumption, ?_⟩
    cases h2 with
    | refl => rfl
    | up h3 _ => exact nomatch h3
  · exact nomatch h1

theorem dict_lone {v : Nat} (h2 : v ≠ 2) (h6 : v ≠ 6) {k : Key} : Lone dictState 2 k v := by
  intro p hp hh
  obtain ⟨-, rfl⟩ := dict_outside hp
  rcases hh with ⟨k', a, hm, -, ho⟩ | ⟨c, hb, -⟩
  · rcases List.mem_cons.1 hm with h | h
    · cases h; exact h2 ho.symm
    · rcases List.mem_cons.1 h with h | h
      · cases h; exact h6 ho.symm
      · exact nomatch h
  · exact nomatch hb

/-- After `x["a"]["n"] = y` with a value that `x` does not have, everything recorded is so. -/
example : ∃ s', statement (dictWorld 7 none) 9 false 7 true dictState [inner [4] []] = .ok s' ∧ Accurate (dictGet 7 none) s' :=
  ⟨_, rfl, accurate_partial (w := dictWorld 7 none) (n := 9) (over := true) (ls := [inner [4] []]) dict_wf dict_accurate
    (fun l hl => by rw [List.mem_singleton.1 hl]; rfl) (dict_only 7 [4] []) (dict_idx 7 [4] [])
    (fun l hl => by rw [List.mem_singleton.1 hl]; exact dict_announced 7 [4] [])
    (fun l hl v hv => by rw [List.mem_singleton.1 hl] at hv ⊢; cases hv; exact .inr (dict_lone (by decide) (by decide)))
    (List.pairwise_singleton _ _) rfl⟩

theorem inner_lone {v : Nat} (h2 : v ≠ 2) (h6 : v ≠ 6) (deps idx : List Nat) :
    ∀ u, (dictWorld v none).get (inner deps idx).o (inner deps idx).k = some u →
      u = (dictWorld v none).nil ∨ Lone dictState (inner deps idx).o (inner deps idx).k u := by
  intro u hu
  cases hu
  exact .inr (dict_lone h2 h6)

example : ∃ s', record (dictWorld 7 none) 9 false 7 true dictState (inner [4] []) = .ok s' ∧
    ∃ a, At s' 2 (nameKey "n") a ∧ some 7 = some (s'.obj a) :=
  ⟨_, rfl, recorded_partial (w := dictWorld 7 none) (n := 9) (over := true) dict_wf rfl (dict_announced 7 [4] [])
    (inner_lone (by decide) (by decide) _ _) rfl⟩

example : ∃ s', record (dictWorld 7 none) 9 false 7 true dictState (inner [4] []) = .ok s' ∧ At s' 1 (nameKey "m") 1 ∧
    s'.obj 1 = 6 := by
  have h := others_kept_partial (w := dictWorld 7 none) (n := 9) (over := true) dict_wf rfl (dict_announced 7 [4] [])
    (inner_lone (by decide) (by decide) _ _) rfl (o := 1) (k := nameKey "m") (a := 1) (by decide : (nameKey "m", 1) ∈ dictState.tab 1)
    (.inl (by decide)) (fun b hb => by
      have : b = 2 := by simpa [At, inner, dictState] using hb
      subst this; decide)
  exact ⟨_, rfl, h.1, h.2.1⟩

/-- What is recorded after `x["a"]["n"] = y`. -/
def dictNext : St Nat := redep { dictState with obj := put dictState.obj 2 7 } 2 [4] true

theorem dict_next : record (dictWorld 7 none) 9 false 7 true dictState (inner [4] []) = .ok dictNext := rfl

example : 4 ∈ dictNext.deps 2 :=
  (dependencies_partial dict_wf rfl (dict_announced 7 [4] []) (inner_lone (by decide) (by decide) _ _) dict_next (a := 2) (by decide)).1
    4 (by decide) (by decide) (by decide)

example {d : Nat} (hd : d ∈ dictNext.deps 2) : d = 4 := by
  rcases dependencies_only_partial dict_wf rfl (dict_announced 7 [4] []) (inner_lone (by decide) (by decide) _ _) dict_next (a := 2)
    (by decide) (by decide) (fun _ _ => by simp [dictState]) hd with h | ⟨k, h1, h2⟩ | ⟨c, h1, -⟩
  · simpa [inner] using h
  · have := dict_same rfl h1
    subst this
    have h2 : d = 2 := by simpa [At, inner, dictState] using h2
    subst h2
    exact absurd hd (by decide)
  · exact nomatch h1

theorem dict_ends : ∀ o, ∃ m, Ends dictState.parent o m := by
  intro o
  by_cases h : o = 2
  · exact ⟨2, .up (q := 1) (by simp [dictState, h]) (.last (by simp [dictState]))⟩
  · exact ⟨1, .last (by simp [dictState, h])⟩

example : ∃ s', record (dictWorld 7 none) 2 false 7 true dictState (inner [4] []) = .ok s' :=
  dealt_with_partial (dict_announced 7 [4] []) rfl (.inr (dict_lone (by decide) (by decide)))
    (.up (q := 1) rfl (.last rfl)) (fun a ha => by
      have : a = 2 := by simpa [At, inner, dictState] using ha
      subst this; exact .last rfl)

example : ∃ s', record (dictWorld 7 none) 2 false 7 true dictState (inner [4] []) = .ok s' ∧ ∀ o, ∃ m, Ends s'.parent o m :=
  ⟨_, rfl, ends_kept_partial (w := dictWorld 7 none) (n := 2) (over := true) (dict_announced 7 [4] []) rfl
    (.inr (dict_lone (by decide) (by decide))) dict_ends (fun a ha => by
      have : a = 2 := by simpa [At, inner, dictState] using ha
      subst this; intro h; exact absurd (dict_outside h).1 (by decide)) rfl⟩

theorem dict_outermost : Outermost dictState 2 (nameKey "n") 6 1 :=
  ⟨.up (q := 1) rfl (.refl _), .inl ⟨nameKey "m", 1, by decide, trivial, rfl⟩, fun p hp => absurd (dict_outside hp).1 (by decide)⟩

example : ∃ s', record (dictWorld 6 none) 9 false 6 true dictState (inner [4] []) = .ok s' ∧ s'.obj 2 = 5 :=
  ⟨_, rfl, ((misplaced (w := dictWorld 6 none) (n := 9) (over := true) dict_wf rfl (dict_announced 6 [4] []) rfl (by decide)
    dict_outermost rfl).2 (by decide) 2 (by decide : (nameKey "n", 2) ∈ [(nameKey "n", 2)]) (fun b hb => by
      have hb : (nameKey "n", b) ∈ [(nameKey "a", 0), (nameKey "m", 1)] := hb
      simp [nameKey] at hb)).2⟩

/-! ## Where the claim fails -/

/-- `x = {"a": {"n": 1}, "m": 0}; x["a"]["n"] = 0`: afterwards `x` is recorded to have an element `"n"`, which it does not
have, and `x["a"]["n"]` is still recorded as the old object. Everything but the missing part of `accurate_partial` holds. -/
theorem ancestor_confused : ∃ (w : World Nat) (s s' : St Nat) (h : Nat → Key → Option Nat) (l : Leaf Nat), Wf s ∧ Accurate h s ∧
    s.made l.o = true ∧ OnlyAt w h [l] ∧ (∀ k a, At s l.o k a → Same w l.o l.k k → k = l.k) ∧ w.get l.o l.k = some 6 ∧
    statement w 9 false 6 true s [l] = .ok s' ∧
    (∃ a, At s' 1 l.k a ∧ w.get 1 l.k = none) ∧ (∃ a, At s' l.o l.k a ∧ w.get l.o l.k ≠ some (s'.obj a)) :=
  ⟨dictWorld 6 none, dictState, _, dictGet 5 none, inner [] [], dict_wf, dict_accurate, rfl, dict_only 6 [] [],
    fun k a ha => dict_idx 6 [] [] _ (by simp) k a ha, rfl, rfl,
    ⟨10, by decide, rfl⟩, ⟨2, by decide, by decide⟩⟩

/-- `x["c"] = x["a"]["n"] = y`, with a value that `x` does not have before: afterwards it is found in `x`, and
`x["a"]["n"]` is recorded as the old object. -/
theorem chained_confused : ∃ (w : World Nat) (s s' : St Nat) (h : Nat → Key → Option Nat) (l l' : Leaf Nat), Wf s ∧ Accurate h s ∧
    s.made l.o = true ∧ s.made l'.o = true ∧ OnlyAt w h [l, l'] ∧
    (∀ m ∈ [l, l'], ∀ k a, At s m.o k a → Same w m.o m.k k → k = m.k) ∧ Lone s l.o l.k 7 ∧ Lone s l'.o l'.k 7 ∧
    w.get l.o l.k = some 7 ∧ w.get l'.o l'.k = some 7 ∧ statement w 9 false 7 true s [l, l'] = .ok s' ∧
    ∃ a, At s' l'.o l'.k a ∧ w.get l'.o l'.k ≠ some (s'.obj a) := by
  refine ⟨dictWorld 7 (some 7), dictState, _, dictGet 5 none, ⟨1, nameKey "c", [], []⟩, inner [] [], dict_wf, dict_accurate, rfl, rfl, ?_,
    fun m _ k a _ hs => (dict_same rfl hs).symm, fun p hp => absurd (dict_outside hp).1 (by decide), dict_lone (by decide) (by decide),
    rfl, rfl, rfl, ⟨2, by decide, by decide⟩⟩
  intro o k h
  show dictGet 7 (some 7) o k = dictGet 5 none o k
  unfold dictGet
  by_cases h1 : o = 1
  · subst h1
    have : k ≠ nameKey "c" := by rintro rfl; exact h ⟨1, nameKey "c", [], []⟩ (by simp) rfl (.refl _)
    simp only [if_true, if_neg this]
  · rw [if_neg h1, if_neg h1]
    by_cases h2 : o = 2
    · subst h2
      have : k ≠ nameKey "n" := by rintro rfl; exact h (inner [] []) (by simp) rfl (.refl _)
      simp only [if_true, if_neg this]
    · rw [if_neg h2, if_neg h2]

/-- `x` is a list with two elements, object 1. -/
def listGet (u v : Nat) : Nat → Key → Option Nat := fun o k =>
  if o = 1 then (if k = numKey 0 ∨ k = numKey (-2) then some u else if k = numKey 1 ∨ k = numKey (-1) then some v else none)
  else none

def listWorld (u v : Nat) : World Nat := ⟨listGet u v, fun o => o = 1, fun o => if o = 1 then some 2 else none, 0⟩

/-- What is recorded when `x` is `[5, 6]`. -/
def listState : St Nat where
  tab o := if o = 1 then [(numKey 0, 0), (numKey 1, 1)] else []
  obj a := if a = 0 then 5 else 6
  next := 10
  made o := o = 1
  base _ := none
  parent _ := none
  nm _ := .attr "x"
  deps _ := []

theorem list_wf : Wf listState := by
  refine ⟨?_, ?_, ?_, ?_⟩
  · intro o
    simp only [listState]
    split <;> decide
  · intro o o' k k' a h h'
    simp only [listState] at h h'
    split at h <;> split at h' <;> simp_all
    rcases h with h | h <;> simp_all
  · intro o k a h
    simp only [listState] at h ⊢
    split at h <;> simp_all
    omega
  · intro o h
    simp only [listState, decide_eq_false_iff_not] at h ⊢
    rw [if_neg h]

theorem list_accurate : Accurate (listGet 5 6) listState := by
  intro o k a h
  simp only [listState] at h ⊢
  split at h
  · subst_vars
    rcases List.mem_cons.1 h with h | h
    · cases h; decide
    · rcases List.mem_cons.1 h with h | h
      · cases h; decide
      · exact nomatch h
  · exact nomatch h

theorem list_lone {o : Nat} {k : Key} {v : Nat} : Lone listState o k v := by
  rintro p ⟨q, h, -⟩
  exact nomatch h

/-- `x[0], x[1] = x[1], x[0]`: both elements are recorded as the pair on the right side, object 8. -/
theorem unpacked_confused : ∃ (s' : St Nat) (a b : Nat), Wf listState ∧ Accurate (listGet 5 6) listState ∧
    (∀ o k v, Lone listState o k v) ∧
    statement (listWorld 6 5) 9 false 8 true listState [⟨1, numKey 0, [1], []⟩, ⟨1, numKey 1, [0], []⟩] = .ok s' ∧
    At s' 1 (numKey 0) a ∧ At s' 1 (numKey 1) b ∧ s'.obj a = 8 ∧ s'.obj b = 8 :=
  ⟨_, 0, 1, list_wf, list_accurate, fun _ _ _ => list_lone, rfl, by decide, by decide, by decide, by decide⟩

/-- `x[0] += 1`: the element is recorded as `None`, object 0. -/
theorem augmented_confused : ∃ (s' : St Nat) (a : Nat), Wf listState ∧ Accurate (listGet 5 6) listState ∧
    (∀ o k v, Lone listState o k v) ∧ (listWorld 7 6).get 1 (numKey 0) = some 7 ∧
    statement (listWorld 7 6) 9 false 0 false listState [⟨1, numKey 0, [], []⟩] = .ok s' ∧
    At s' 1 (numKey 0) a ∧ s'.obj a = (listWorld 7 6).nil :=
  ⟨_, 0, list_wf, list_accurate, fun _ _ _ => list_lone, by decide, rfl, by decide, by decide⟩

/-- `x[-1] = y`: what is recorded for `x[1]` stays the old object. -/
theorem negative_confused : ∃ (s' : St Nat) (a : Nat), Wf listState ∧ Accurate (listGet 5 6) listState ∧
    (∀ o k v, Lone listState o k v) ∧ Same (listWorld 5 7) 1 (numKey (-1)) (numKey 1) ∧
    statement (listWorld 5 7) 9 false 7 true listState [⟨1, numKey (-1), [], []⟩] = .ok s' ∧
    At s' 1 (numKey 1) a ∧ (listWorld 5 7).get 1 (numKey 1) = some 7 ∧ s'.obj a = 6 :=
  ⟨_, 1, list_wf, list_accurate, fun _ _ _ => list_lone, .neg (n := 2) (i := -1) rfl (by decide), rfl, by decide, by decide, by decide⟩

/-- `x[i] = i`, where symbol 4 is for `i`: the element is recorded not to depend on `i`, though its value is computed from it. -/
theorem index_dependency_lost : ∃ (s' : St Nat) (a : Nat),
    statement (listWorld 7 6) 9 false 7 true listState [⟨1, numKey 0, [4], [4]⟩] = .ok s' ∧ At s' 1 (numKey 0) a ∧ s'.deps a = [] :=
  ⟨_, 0, rfl, by decide, by decide⟩

/-- `x = {"child": {"up": {}}}`: objects 1, 2 and 3. -/
def treeGet (v : Nat) : Nat → Key → Option Nat := fun o k =>
  if o = 1 then (if k = nameKey "child" then some 2 else none)
  else if o = 2 then (if k = nameKey "up" then some v else none)
  else none

def treeWorld (v : Nat) : World Nat := ⟨treeGet v, fun o => o = 1 || o = 2 || o = 3, fun _ => none, 0⟩

/-- What is recorded about it, `core/ipyflow/tracing/ipyflow_tracer.py` 1283-1380. -/
def treeState : St Nat where
  tab o := if o = 1 then [(nameKey "child", 0)] else if o = 2 then [(nameKey "up", 1)] else []
  obj a := if a = 0 then 2 else 3
  next := 10
  made o := o = 1 || o = 2 || o = 3
  base _ := none
  parent o := if o = 2 then some 1 else if o = 3 then some 2 else none
  nm o := if o = 1 then .attr "x" else if o = 2 then nameKey "child" else nameKey "up"
  deps _ := []

theorem tree_ends : ∀ o, ∃ m, Ends treeState.parent o m := by
  intro o
  by_cases h2 : o = 2
  · exact ⟨2, .up (q := 1) (by simp [treeState, h2]) (.last (by simp [treeState]))⟩
  · by_cases h3 : o = 3
    · exact ⟨3, .up (q := 2) (by simp [treeState, h3]) (.up (q := 1) (by simp [treeState]) (.last (by simp [treeState])))⟩
    · exact ⟨1, .last (by simp [treeState, h2, h3])⟩

theorem tree_lone : Lone treeState 2 (nameKey "up") 1 := by
  rintro p ⟨q, h1, h2⟩ hh
  cases h1
  have : p = 1 := by
    cases h2 with
    | refl => rfl
    | up h3 _ => exact nomatch h3
  subst this
  rcases hh with ⟨k', a, hm, -, ho⟩ | ⟨c, hb, -⟩
  · rcases List.mem_cons.1 hm with h | h
    · cases h; exact nomatch ho
    · exact nomatch h
  · exact nomatch hb

/-- What is recorded after `x["child"]["up"] = x`. -/
def treeNext : St Nat := redep (renew (treeWorld 1) { treeState with obj := put treeState.obj 1 1 } 3 1) 1 [] true

/-- `x["child"]["up"] = x`: afterwards `x` counts as a part of itself. -/
theorem cycle_made : Announced (treeWorld 1) false 1 ⟨2, nameKey "up", [], []⟩ ∧ Lone treeState 2 (nameKey "up") 1 ∧
    (∀ o, ∃ m, Ends treeState.parent o m) ∧
    record (treeWorld 1) 9 false 1 true treeState ⟨2, nameKey "up", [], []⟩ = .ok treeNext ∧ Outside treeNext.parent 1 1 :=
  ⟨fun _ => .inr rfl, tree_lone, tree_ends, rfl, 2, rfl, .up (q := 1) rfl (.refl _)⟩

/-- After that no assignment to a part of `x["child"]` is dealt with. -/
example (n : Nat) : record (treeWorld 5) n false 5 true treeNext ⟨2, nameKey "up", [], []⟩ = .error .fuel :=
  never_ends (fun _ => .inr rfl) rfl (by decide) (.up (q := 1) rfl (.refl 1)) cycle_made.2.2.2.2 n

end Verif.Place
