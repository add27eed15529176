import Verif.Assigned.Props

/-!
# Concrete cases for C166 and C167

Variables: 0 `df`, 1 `clean`, 2 `d`, 3 `k`, 4 `np`, 5 `o`, 6 `i`.
-/

namespace Verif.Assigned

/-- `if i: df = load(i)` / `else: d = 1`, then `for k in d: o += k`, `def clean(): …`. -/
def text : Stmt :=
  .seq (.ite (.name 6) (.assign [.name 0] (.both (.chain 5) (.name 6))) (.assign [.name 2] .nil))
    (.seq (.forr (.name 3) (.name 2) (.aug (.name 5) (.name 3)) .skip) (.defn 1 .nil))

/-- Everything is ordinary here. -/
theorem text_ordinary (x : Nat) : Ordinary text x := by
  refine ⟨⟨trivial, ⟨⟨trivial, trivial⟩, ?_, ?_⟩, trivial, ?_, ?_⟩,
    ⟨trivial, trivial, ⟨trivial, trivial, ?_⟩, trivial⟩, trivial⟩
  · intro t ht; rw [List.mem_singleton] at ht; subst ht; trivial
  · rintro ⟨t, ht, q⟩ h
    rw [List.mem_singleton] at ht
    subst ht
    have q : x = 0 := q
    subst q
    rcases h with h | h
    · exact h
    · cases (show 0 = 6 from h)
  · intro t ht; rw [List.mem_singleton] at ht; subst ht; trivial
  · exact fun _ => id
  · intro u v h; cases h

example : 0 ∈ found false text ↔ Writes text 0 := found_partial false text 0 (text_ordinary 0)
example : 0 ∈ found false text := by decide
example : 6 ∉ found false text := by decide
example : 5 ∈ found true text ∧ 3 ∈ found true text ∧ 1 ∈ found true text := by decide

/-- `df = clean(df)`. -/
example : 0 ∉ found false (.assign [.name 0] (.both (.chain 1) (.name 0))) ∧
    Writes (.assign [.name 0] (.both (.chain 1) (.name 0))) 0 :=
  own_value_missed false 0 _ (.inr rfl) (by rintro (h | h) <;> exact h)

/-- `import np.linalg, d`. -/
example : 4 ∉ found true (.imp [.dotted 4, .plain 2]) ∧ Writes (.imp [.dotted 4, .plain 2]) 4 :=
  imports_missed true _ (.dotted 4) 4 (by simp) rfl (by simp)

/-- `from m import *`. -/
example : 4 ∉ found false (.imp [.star [4, 5]]) ∧ Writes (.imp [.star [4, 5]]) 4 :=
  imports_missed false _ (.star [4, 5]) 4 (by simp) (by simp [Binds]) (by simp)

/-- `d[k] += 1`. -/
example : 3 ∈ found false (.aug (.sub (.name 2) (.name 3)) .nil) ∧
    ¬ Writes (.aug (.sub (.name 2) (.name 3)) .nil) 3 :=
  index_found false _ _ _ 3 rfl id id id
example : 2 ∉ found false (.aug (.sub (.name 2) (.name 3)) .nil) := by decide

/-- `df: T`. -/
example : 0 ∈ found true (.annOnly (.name 0)) ∧ ¬ Writes (.annOnly (.name 0)) 0 :=
  annotation_found true 0

/-- `lambda a=o.x: a`. -/
example : 5 ∈ found false (.expr (.lam (.chain 5))) ∧ ¬ Writes (.expr (.lam (.chain 5))) 5 :=
  default_found false _ 5 rfl id

/-- `for d[k] in df: pass`. -/
example : 3 ∈ found false (.forr (.sub (.name 2) (.name 3)) (.name 0) .skip .skip) ∧
    ¬ Writes (.forr (.sub (.name 2) (.name 3)) (.name 0) .skip .skip) 3 :=
  loop_target_found false _ _ _ _ 3 (.inr ⟨_, _, rfl, .inr rfl⟩) (by rintro (h | h) <;> exact h)
    id id id

/-- `(d if i else o).k = 1`. -/
example : 3 ∈ found false (.assign [.attr (.both (.name 6) (.both (.name 2) (.name 5))) 3 true] .nil) ∧
    ¬ Writes (.assign [.attr (.both (.name 6) (.both (.name 2) (.name 5))) 3 true] .nil) 3 :=
  attribute_found false _ _ 3 (by simp [Occurs]) (by simp [Occurs])

/-- A run of `df = load(i)`, `d = 1`. -/
def run : List Write :=
  [⟨0, .assign [.name 0] (.both (.chain 5) (.name 6)), true⟩, ⟨2, .assign [.name 2] .nil, true⟩]

theorem run_plain (w : Write) (hw : w ∈ run) (_ : w.var = 0) : Plainly w := by
  rw [← isStatic_iff]
  revert w
  decide

example : statically 0 run = true := (statically_iff 0 run).2 ⟨⟨_, List.mem_cons_self, rfl⟩, run_plain⟩

/-- The claim, for the edit to `text`. -/
example : shown true run text 0 = true ↔ Writes text 0 :=
  link_partial true run text 0 ⟨_, List.mem_cons_self, rfl⟩ run_plain (text_ordinary 0)
example : shown true run text 0 = true := by decide
example : shown true run (.del 0) 0 = false := by decide
example : shown true run .skip 0 = true ↔
    Recognised .skip 0 ∨ ∃ w ∈ run, w.var = 0 ∧ ¬ Plainly w :=
  shown_iff true run .skip 0 ⟨_, List.mem_cons_self, rfl⟩

/-- The edit to `df = clean(df)`. -/
example : shown true run (.assign [.name 0] (.both (.chain 1) (.name 0))) 0 = false ∧
    Writes (.assign [.name 0] (.both (.chain 1) (.name 0))) 0 :=
  link_goes true run 0 _ ⟨_, List.mem_cons_self, rfl⟩ run_plain (.inr rfl)
    (by rintro (h | h) <;> exact h)

/-- A run of `for k in d: …`, edited to nothing. -/
example : shown true [⟨3, .forr (.name 3) (.name 2) .skip .skip, true⟩] .skip 3 = true ∧
    ¬ Writes .skip 3 :=
  ⟨other_forms_stay true _ .skip 3 _ List.mem_cons_self rfl
    (.inr (.inr (.inr (.inl ⟨_, _, _, _, rfl⟩)))), id⟩

/-- A run of `import np.linalg, d`: also the link because of `d` stays. -/
example : shown true [⟨2, .imp [.dotted 4, .plain 2], true⟩] .skip 2 = true :=
  other_forms_stay true _ .skip 2 _ List.mem_cons_self rfl
    (.inr (.inr (.inr (.inr (.inr ⟨_, 4, rfl, List.mem_cons_self⟩)))))

example : shown false [⟨0, .assign [.name 0] (.name 0), true⟩] .skip 0 = true :=
  link_stays false _ .skip 0 _ List.mem_cons_self rfl (fun h => by
    have := (isStatic_iff _).2 h
    revert this
    decide)

end Verif.Assigned
