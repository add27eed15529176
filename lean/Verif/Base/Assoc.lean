import Mathlib.Data.List.Basic
import Mathlib.Data.List.Nodup

/-! # Python dictionaries as association lists in insertion order

Models `dict` of Python 3.7+ (setting an existing key keeps its place). Used wherever the code iterates over a dictionary. -/

namespace Verif.Assoc
variable {κ ν : Type} [DecidableEq κ]

/-- `d.get(k)`. -/
def get : List (κ × ν) → κ → Option ν
  | [], _ => none
  | (k', v) :: l, k => if k' = k then some v else get l k

/-- `d[k] = v`. -/
def set : List (κ × ν) → κ → ν → List (κ × ν)
  | [], k, v => [(k, v)]
  | (k', v') :: l, k, v => if k' = k then (k', v) :: l else (k', v') :: set l k v

/-- `d.pop(k, None)`, the dictionary afterwards. -/
def erase (l : List (κ × ν)) (k : κ) : List (κ × ν) := l.filter fun p => p.1 ≠ k

/-- `d.keys()`. -/
def keys (l : List (κ × ν)) : List κ := l.map Prod.fst

@[simp] theorem get_nil (k : κ) : get ([] : List (κ × ν)) k = none := rfl

theorem get_set_self (l : List (κ × ν)) (k : κ) (v : ν) : get (set l k v) k = some v := by
  induction l with
  | nil => simp [set, get]
  | cons p l ih =>
    obtain ⟨k', v'⟩ := p
    by_cases h : k' = k
    · simp [set, get, h]
    · simp [set, get, h, ih]

theorem get_set_ne (l : List (κ × ν)) {k k' : κ} (v : ν) (h : k' ≠ k) : get (set l k v) k' = get l k' := by
  induction l with
  | nil => simp [set, get, Ne.symm h]
  | cons p l ih =>
    obtain ⟨k1, v1⟩ := p
    by_cases h1 : k1 = k
    · subst h1; simp [set, get, Ne.symm h]
    · simp only [set, if_neg h1, get, ih]

theorem get_set (l : List (κ × ν)) (k k' : κ) (v : ν) : get (set l k v) k' = if k' = k then some v else get l k' := by
  split
  · rename_i h; subst h; exact get_set_self l _ v
  · rename_i h; exact get_set_ne l v h

theorem get_eq_none_iff {l : List (κ × ν)} {k : κ} : get l k = none ↔ k ∉ keys l := by
  induction l with
  | nil => simp [keys]
  | cons p l ih =>
    obtain ⟨k1, v1⟩ := p
    by_cases h : k1 = k
    · simp [get, h, keys]
    · simp only [get, if_neg h, ih, keys, List.map_cons, List.mem_cons, not_or]
      exact ⟨fun h' => ⟨Ne.symm h, h'⟩, fun h' => h'.2⟩

theorem get_isSome_iff {l : List (κ × ν)} {k : κ} : (get l k).isSome ↔ k ∈ keys l := by
  rw [← not_iff_not]
  simp only [Option.not_isSome_iff_eq_none, get_eq_none_iff]

theorem mem_of_get {l : List (κ × ν)} {k : κ} {v : ν} (h : get l k = some v) : (k, v) ∈ l := by
  induction l with
  | nil => simp at h
  | cons p l ih =>
    obtain ⟨k1, v1⟩ := p
    by_cases h1 : k1 = k
    · simp only [get, h1, if_true, Option.some.injEq] at h; subst h; subst h1; simp
    · simp only [get, if_neg h1] at h; exact List.mem_cons_of_mem _ (ih h)

theorem get_eq_some_iff {l : List (κ × ν)} (hl : (keys l).Nodup) {k : κ} {v : ν} : get l k = some v ↔ (k, v) ∈ l := by
  refine ⟨mem_of_get, ?_⟩
  induction l with
  | nil => simp
  | cons p l ih =>
    obtain ⟨k1, v1⟩ := p
    simp only [keys, List.map_cons, List.nodup_cons] at hl
    rw [List.mem_cons]
    rintro (h | h)
    · injection h with h1 h2; subst h1; subst h2; simp [get]
    · have : k1 ≠ k := by
        rintro rfl; exact hl.1 (List.mem_map.2 ⟨_, h, rfl⟩)
      simp only [get, if_neg this]
      exact ih hl.2 h

theorem mem_keys_set {l : List (κ × ν)} {k k' : κ} {v : ν} : k' ∈ keys (set l k v) ↔ k' = k ∨ k' ∈ keys l := by
  rw [← get_isSome_iff, ← get_isSome_iff, get_set]
  split <;> simp [*]

theorem keys_set_of_mem {l : List (κ × ν)} {k : κ} {v : ν} (h : k ∈ keys l) : keys (set l k v) = keys l := by
  induction l with
  | nil => simp [keys] at h
  | cons p l ih =>
    obtain ⟨k1, v1⟩ := p
    by_cases h1 : k1 = k
    · simp [set, h1, keys]
    · have : k ∈ keys l := by
        simp only [keys, List.map_cons, List.mem_cons] at h
        exact h.resolve_left (Ne.symm h1)
      have := ih this
      simp only [set, if_neg h1]
      simp only [keys, List.map_cons] at this ⊢
      rw [this]

theorem set_of_not_mem {l : List (κ × ν)} {k : κ} {v : ν} (h : k ∉ keys l) : set l k v = l ++ [(k, v)] := by
  induction l with
  | nil => rfl
  | cons p l ih =>
    obtain ⟨k1, v1⟩ := p
    simp only [keys, List.map_cons, List.mem_cons, not_or] at h
    simp only [set, if_neg (Ne.symm h.1), List.cons_append]
    rw [ih h.2]

theorem nodup_set {l : List (κ × ν)} (hl : (keys l).Nodup) (k : κ) (v : ν) : (keys (set l k v)).Nodup := by
  by_cases h : k ∈ keys l
  · rw [keys_set_of_mem h]; exact hl
  · rw [set_of_not_mem h]
    simp only [keys, List.map_append, List.map_cons, List.map_nil]
    rw [List.nodup_append]
    refine ⟨hl, by simp, ?_⟩
    intro a ha b hb
    simp only [List.mem_singleton] at hb
    subst hb
    rintro rfl
    exact h ha

theorem get_erase (l : List (κ × ν)) (k k' : κ) : get (erase l k) k' = if k' = k then none else get l k' := by
  induction l with
  | nil => simp [erase]
  | cons p l ih =>
    obtain ⟨k1, v1⟩ := p
    unfold erase at ih ⊢
    by_cases h1 : k1 = k
    · subst h1
      simp only [List.filter_cons, ne_eq, not_true_eq_false, decide_false, Bool.false_eq_true, if_false]
      rw [ih]
      by_cases h2 : k' = k1
      · simp [h2]
      · simp [h2, get, Ne.symm h2]
    · simp only [List.filter_cons, ne_eq, h1, not_false_eq_true, decide_true, if_true, get]
      by_cases h2 : k1 = k'
      · subst h2; simp [h1]
      · simp only [if_neg h2]; exact ih

theorem nodup_erase {l : List (κ × ν)} (hl : (keys l).Nodup) (k : κ) : (keys (erase l k)).Nodup :=
  hl.sublist (List.filter_sublist.map _)

end Verif.Assoc
