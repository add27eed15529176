import Verif.Age.Total
import Mathlib.Algebra.Order.Ring.Int

/-! # How new objects are: examples and counterexamples -/

namespace Verif.Age

/-- An update of an attribute, an element or a variable by an assignment. -/
def assign (s : Nat) (o : Nat) (now : Int) : Upd Nat Nat Int where
  sym := s
  target := some o
  mutated := false
  descend := false
  propagate := true
  refresh := true
  simple := true
  waiting := fun _ => false
  now := now

/-- The state in which the symbols `0 .. n-1` have the objects given (below 100), all others have objects of their own, and nothing was updated. -/
def fresh (objs : List Nat) : St Nat Nat Int where
  obj := fun s => objs.getD s (100 + s)
  aliases := fun o => (List.range objs.length).filter (fun s => objs.getD s (100 + s) == o) ++ (if 100 + objs.length ≤ o then [o - 100] else [])
  ts := fun _ => 0
  md := fun _ => 0

theorem fresh_exact (objs : List Nat) (h : ∀ o ∈ objs, o < 100) : Exact (fresh objs) := by
  intro q o
  simp only [fresh, List.mem_append, List.mem_filter, List.mem_range, beq_iff_eq]
  by_cases hq : q < objs.length
  · have hlt : objs.getD q (100 + q) < 100 := by
      rw [List.getD_eq_getElem?_getD, List.getElem?_eq_getElem hq]
      exact h _ (List.getElem_mem hq)
    constructor
    · rintro (h1 | h1)
      · exact h1.2
      · split at h1
        · simp at h1; omega
        · simp at h1
    · intro h1
      exact .inl ⟨hq, h1⟩
  · have he : objs.getD q (100 + q) = 100 + q := by
      rw [List.getD_eq_getElem?_getD, List.getElem?_eq_none (by omega)]
      rfl
    rw [he]
    constructor
    · rintro (h1 | h1)
      · omega
      · split at h1
        · simp at h1; omega
        · simp at h1
    · intro h1
      right
      rw [if_pos (by omega)]
      simp; omega

theorem fresh_names (objs : List Nat) (h : ∀ o ∈ objs, o < 100) : Names (fresh objs) := fun q => (fresh_exact objs h q _).2 rfl

/-- Symbols and what holds them: `held` gives for the objects that have a namespace the symbols in it. -/
def heapOf (held : List (Nat × List Nat)) (dup : Nat → List Nat := fun _ => []) : Heap Nat Nat where
  holder := fun s => (held.find? (fun p => p.2.contains s)).map Prod.fst
  hasNs := fun o => held.any (fun p => p.1 == o)
  isImport := fun _ => false
  isModule := fun _ => false
  own := fun o => ((held.find? (fun p => p.1 == o)).map Prod.snd).getD []
  members := fun o => ((held.find? (fun p => p.1 == o)).map Prod.snd).getD []
  rest := fun _ => true
  dup := dup

/-- `x` (0) is an object with an attribute `y` (1) that is an object with an attribute `z` (2); `v` (3) is another name of `x.y`. -/
def nested : Heap Nat Nat := heapOf [(10, [1]), (11, [2])]

theorem nested_holder (q o : Nat) : nested.holder q = some o ↔ (q = 1 ∧ o = 10) ∨ (q = 2 ∧ o = 11) := by
  simp only [nested, heapOf, List.find?_cons, List.find?_nil, List.contains_eq_mem, List.mem_singleton]
  by_cases h1 : q = 1
  · subst h1; simp; omega
  · by_cases h2 : q = 2
    · subst h2; simp; omega
    · simp [h1, h2]

theorem nested_wf : nested.Wf where
  ns q o h := by rcases (nested_holder q o).1 h with ⟨_, rfl⟩ | ⟨_, rfl⟩ <;> rfl
  plain q o _ := ⟨rfl, rfl⟩
  own o m hm := by
    rw [nested_holder]
    simp only [nested, heapOf, List.find?_cons, List.find?_nil] at hm
    by_cases h1 : o = 10
    · subst h1; simp at hm; omega
    · by_cases h2 : o = 11
      · subst h2; simp at hm; omega
      · have e1 : (10 == o) = false := by simp; omega
        have e2 : (11 == o) = false := by simp; omega
        simp [e1, e2] at hm
  members o m hm := hm

/-- All that `covers_partial` asks for. -/
example : nested.Wf ∧ Fresh (0 : Int) (fresh [10, 11, 12, 11]) ∧ Names (fresh [10, 11, 12, 11]) :=
  ⟨nested_wf, ⟨fun _ => rfl, fun _ => rfl⟩, fresh_names _ (by decide)⟩

/-- `x.y.z` is assigned at time 5: then `x`, `x.y` and `v` are of time 5. -/
example : ∃ st', run nested 9 [assign 2 13 5] (fresh [10, 11, 12, 11]) = .ok st' ∧ deep nested st' 0 = 5 ∧ deep nested st' 1 = 5 ∧
    deep nested st' 3 = 5 ∧ st'.ts 0 = 0 ∧ Inside nested st' 2 0 := by
  refine ⟨_, rfl, by decide, by decide, by decide, by decide, ?_⟩
  exact .tail (.single (b := 1) ⟨⟨rfl, rfl⟩, by decide⟩) ⟨⟨rfl, rfl⟩, by decide⟩

example : OkRun nested 9 (0 : Int) [assign 2 13 5] (fresh [10, 11, 12, 11]) := by
  refine ⟨by decide, ⟨.inl rfl, fun _ _ h => ?_⟩, fun _ _ => trivial⟩
  simp [assign] at h

/-- The variable `x` alone is assigned: `v` keeps its version. This is a case of `update_exact_partial`. -/
example : Exact (start (assign 0 14 5) (fresh [10, 11, 12, 11])) ∧ Concerned nested (assign 0 14 5) (start (assign 0 14 5) (fresh [10, 11, 12, 11])) 0 := by
  exact ⟨start_exact _ (fresh_exact _ (by decide)), .inl ⟨rfl, .inl rfl⟩⟩

example : ∃ st', update nested 9 (assign 0 14 5) (fresh [10, 11, 12, 11]) = .ok st' ∧ deep nested st' 0 = 5 ∧ deep nested st' 3 = 0 :=
  ⟨_, rfl, by decide, by decide⟩

/-- `t = [1]` (`t` is 0, `t[0]` is 1), `x = [t]` (2), `u = [t]` (3, `u[0]` is 4), and a list `[t]` (object 13, its element is 5). -/
def shared : Heap Nat Nat := heapOf [(10, [1]), (12, [4]), (13, [5])]

/-- The evaluation of `x = [t]` at time 5. -/
def build : Upd Nat Nat Int := { assign 2 13 5 with simple := false }

/-- C89 fails: once `x = [t]` was run again, the elements of `t` are of that time, and so is `t`, but `u`, which contains `t`, is not. -/
theorem covers_violated : ∃ st', update shared 9 build (fresh [10, 20, 11, 12, 10, 10]) = .ok st' ∧ Inside shared st' 1 3 ∧
    st'.ts 1 = 5 ∧ deep shared st' 0 = 5 ∧ deep shared st' 3 = 0 := by
  refine ⟨_, rfl, ?_, by decide, by decide, by decide⟩
  exact .tail (.single (b := 4) ⟨⟨rfl, rfl⟩, by decide⟩) ⟨⟨rfl, rfl⟩, by decide⟩

/-- C89 fails: `x.y.z` is assigned the object that it has already. Then `x.y` is newer than `x`. -/
theorem covers_violated_same : ∃ st', update nested 9 { assign 2 12 5 with propagate := false } (fresh [10, 11, 12, 11]) = .ok st' ∧
    Inside nested st' 2 0 ∧ st'.ts 2 = 5 ∧ deep nested st' 1 = 5 ∧ deep nested st' 0 = 0 := by
  refine ⟨_, rfl, ?_, by decide, by decide, by decide⟩
  exact .tail (.single (b := 1) ⟨⟨rfl, rfl⟩, by decide⟩) ⟨⟨rfl, rfl⟩, by decide⟩

theorem shared_none : shared.holder 2 = none := by decide

/-- C90 fails: `x = [t]` makes `t` newer, although `t` is neither assigned, nor changed, nor does it contain anything that is. -/
theorem exact_violated_list : ∃ st', update shared 9 build (fresh [10, 20, 11, 12, 10, 10]) = .ok st' ∧
    ¬ Concerned shared build (start build (fresh [10, 20, 11, 12, 10, 10])) 0 ∧ deep shared st' 0 = 5 ∧
    deep shared (start build (fresh [10, 20, 11, 12, 10, 10])) 0 = 0 := by
  refine ⟨_, rfl, ?_, by decide, by decide⟩
  have hd : ∀ p, Directly shared build (start build (fresh [10, 20, 11, 12, 10, 10])) p → p = 2 := by
    rintro p (h | ⟨_, h | h⟩)
    · exact h
    · exact absurd h.1 (by decide)
    · simp [shared, heapOf] at h
  rintro (⟨_, h | h⟩ | ⟨p, hp, hi⟩)
  · exact absurd h (by decide)
  · exact absurd (hd _ h.1) (by decide)
  · rw [hd p hp] at hi
    rcases Relation.TransGen.head'_iff.1 hi with ⟨c, hc, _⟩
    have h1 := shared_none
    rw [hc.2] at h1
    cases h1

/-- `a` (0) has the attributes `b` (1) and `c` (2), and `a.c` has an attribute `d` (3). -/
def siblings : Heap Nat Nat := heapOf [(10, [1, 2]), (12, [3])]

/-- A call `a.b.f()` that may change `a.b` anyhow, at time 5. -/
def mutate : Upd Nat Nat Int := { assign 1 11 5 with
  target := none
  mutated := true
  descend := true }

/-- C90 fails: a call `a.b.f()` makes `a.c` newer. -/
theorem exact_violated_sibling : ∃ st', update siblings 9 mutate (fresh [10, 11, 12, 13]) = .ok st' ∧
    ¬ Concerned siblings mutate (start mutate (fresh [10, 11, 12, 13])) 2 ∧ deep siblings st' 2 = 5 := by
  refine ⟨_, rfl, ?_, by decide⟩
  have hd : ∀ p, Directly siblings mutate (start mutate (fresh [10, 11, 12, 13])) p → p = 1 := by
    rintro p (h | ⟨_, h | h⟩)
    · exact h
    · have h2 := h.2
      simp only [start, mutate, assign, fresh] at h2
      rcases p with _ | _ | _ | _ | p <;> simp at h2
      · rfl
      · omega
    · simp [siblings, heapOf] at h
  rintro (⟨_, h | h⟩ | ⟨p, hp, hi⟩)
  · exact absurd h (by decide)
  · exact absurd (hd _ h.1) (by decide)
  · rw [hd p hp] at hi
    rcases Relation.TransGen.head'_iff.1 hi with ⟨c, hc, hc'⟩
    have h1 : (start mutate (fresh [10, 11, 12, 13])).obj c = 10 := by
      have h1 := hc.2
      have h2 : siblings.holder 1 = some 10 := by decide
      rw [h2] at h1
      exact (Option.some.inj h1).symm
    have hc0 : c = 0 := by
      simp only [start, mutate, assign, fresh] at h1
      rcases c with _ | _ | _ | _ | c <;> simp at h1
      · rfl
      · omega
    subst hc0
    rcases Relation.ReflTransGen.cases_head hc' with h2 | ⟨d, hd', _⟩
    · exact absurd h2 (by decide)
    · have h2 := hd'.2
      have h3 : siblings.holder 0 = none := by decide
      rw [h3] at h2
      cases h2

/-- A data frame (0) with a column that is known as attribute (1) and as element (2), as two objects. -/
def frame : Heap Nat Nat := heapOf [(10, [1, 2])] (fun s => if s = 1 then [1, 2] else [])

/-- C91 fails: when the column is changed in place, the element is entered in the table as a name of the object of the attribute. -/
theorem names_violated : ∃ st', update frame 9 mutate (fresh [10, 11, 12]) = .ok st' ∧ 2 ∈ st'.aliases 11 ∧ st'.obj 2 = 12 ∧
    ¬ 2 ∈ (fresh [10, 11, 12]).aliases 11 :=
  ⟨_, rfl, by decide, by decide, by decide⟩

/-- A list that contains itself: `x` (0) and `x[0]` (1). -/
example : ∃ st', update (heapOf [(10, [1])]) 9 { assign 0 10 5 with simple := false } (fresh [10, 10]) = .ok st' ∧ deep (heapOf [(10, [1])]) st' 1 = 5 :=
  ⟨_, rfl, by decide⟩

end Verif.Age
