import Verif.Extern.Witness

/-!
# The later arguments of a library function

A library function that returns `None` counts as changing its first argument, and those later arguments that depend on the first one. -/

namespace Verif.Extern

/-- The variable depends on one of those of the first argument. -/
def OnFirst (w : World) (syms : List Nat) (s : Nat) : Prop := ∃ f ∈ syms, f ∈ (w.sym s).parents

theorem mem_depending {w : World} {syms : List Nat} {rest : List (Nat × List Nat)} {s : Nat} :
    (∃ b ∈ depending w syms rest, s ∈ b.2) ↔ (∃ b ∈ rest, s ∈ b.2) ∧ OnFirst w syms s := by
  unfold depending OnFirst
  constructor
  · rintro ⟨b, hb, hs⟩
    obtain ⟨b', hb', rfl⟩ := List.mem_map.1 (List.mem_filter.1 hb).1
    obtain ⟨h1, h2⟩ := List.mem_filter.1 hs
    exact ⟨⟨b', hb', h1⟩, by simpa using h2⟩
  · rintro ⟨⟨b, hb, hs⟩, hf⟩
    have h1 : s ∈ b.2.filter fun s => syms.any fun f => f ∈ (w.sym s).parents := List.mem_filter.2 ⟨hs, by simpa using hf⟩
    refine ⟨(b.1, b.2.filter fun s => syms.any fun f => f ∈ (w.sym s).parents), List.mem_filter.2 ⟨List.mem_map.2 ⟨b, hb, rfl⟩, ?_⟩, h1⟩
    simp only [ne_eq, decide_not, Bool.not_eq_true', decide_eq_false_iff_not]
    exact List.ne_nil_of_mem h1

theorem module_call {w : World} {c : Call} {r : Rec} {k a : Nat} {syms : List Nat} {rest : List (Nat × List Nat)} (h : OfModule w c k)
    (hr : c.ret = 0) (ha : c.args = (a, syms) :: rest)
    (hk : w.kind a ≠ .list ∧ w.kind a ≠ .dict ∧ w.kind a ≠ .set ∧ w.kind a ≠ .frozen ∧ w.kind a ≠ .bytearray) :
    call w c r = .ok (argMutate w (markAll w r (argSyms c) (w.names k)) (argSyms { c with args := (a, syms) :: depending w syms rest })) := by
  obtain ⟨hc, hm⟩ := module_caller h
  unfold call
  rw [choose_module h, hc, hm]
  dsimp only
  unfold standard
  dsimp only
  rw [if_neg (by simp [hr]), ha]
  dsimp only
  have hp : (w.kind a).passedOver = false := by
    obtain ⟨a1, a2, a3, a4, a5⟩ := hk
    cases hka : w.kind a <;> simp_all [Kind.passedOver]
  rw [if_neg (by simp [h.kind]), hp, if_neg (by simp)]

/-- **C114**: what a function of a module that returns `None` counts as changing among variables that are not those of the module and not in keyword arguments: the variables of its first
argument, and those in later arguments that depend on one of them – no others, and all of them unless the variable is an import or has a value of a type that counts as immutable. -/
theorem later_arg_exact {w : World} {c : Call} {r : Rec} {k a : Nat} {syms : List Nat} {rest : List (Nat × List Nat)} (h : OfModule w c k)
    (hr : c.ret = 0) (ha : c.args = (a, syms) :: rest)
    (hk : w.kind a ≠ .list ∧ w.kind a ≠ .dict ∧ w.kind a ≠ .set ∧ w.kind a ≠ .frozen ∧ w.kind a ≠ .bytearray)
    {s : Nat} (hs : s ∉ w.names k) (hkw : ∀ b ∈ c.kwargs, s ∉ b.2) (hn : ∀ d, ¬ Marked r s d) (h1 : (w.sym s).anonymous = false) (h2 : (w.sym s).loaded = false)
    (h3 : w.kind (w.sym s).obj ≠ .frozen) (h4 : w.kind (w.sym s).obj ≠ .bytearray) :
    ∃ r', call w c r = .ok r' ∧ ((∃ d, Marked r' s d) ↔ s ∈ syms ∨ ((∃ b ∈ rest, s ∈ b.2) ∧ OnFirst w syms s)) := by
  have hin : s ∈ argSyms { c with args := (a, syms) :: depending w syms rest } ↔ s ∈ syms ∨ ((∃ b ∈ rest, s ∈ b.2) ∧ OnFirst w syms s) := by
    rw [← mem_depending, inArgs_iff]
    unfold InArgs
    constructor
    · rintro ⟨b, hb | hb, hs⟩
      · rcases List.mem_cons.1 hb with rfl | hb
        · exact .inl hs
        · exact .inr ⟨b, hb, hs⟩
      · exact absurd hs (hkw b hb)
    · rintro (hs | ⟨b, hb, hs⟩)
      · exact ⟨(a, syms), .inl (by simp), hs⟩
      · exact ⟨b, .inl (by simp [hb]), hs⟩
  refine ⟨_, module_call h hr ha hk, ?_⟩
  rw [← hin]
  constructor
  · rintro ⟨d, hd⟩
    rcases argMutate_new _ _ s d hd with hd | hd
    · rcases markAll_new _ _ _ s d hd with hd | hd
      · exact absurd hd (hn d)
      · exact absurd hd.1 hs
    · exact hd.1
  · exact fun hd => argMutate_all _ _ s hd h1 h2 h3 h4

/-- `fig` is 1, `ax` is 2 and depends on `fig` and on 5, `other` is 3. -/
def plots : World where
  kind
    | 9 => .module
    | _ => .other
  sym s := ⟨s, s, false, false, if s = 2 then [1, 5] else []⟩
  names o := if o = 9 then [9] else [o]
  elems _ := none

/-- `module.draw(fig, ax, other)`, where the first argument is made of the variables 1 and 4. -/
def draw : Call := ⟨some 9, some 9, .plain, some (.other 2), some 9, [(1, [1, 4]), (2, [2]), (3, [3])], [], 0⟩

example : ∃ r', call plots draw ⟨[], []⟩ = .ok r' ∧ ((∃ d, Marked r' 2 d) ↔ 2 ∈ [1, 4] ∨ ((∃ b ∈ [(2, [2]), (3, [3])], 2 ∈ b.2) ∧ OnFirst plots [1, 4] 2)) :=
  later_arg_exact (k := 9) ⟨.inr rfl, rfl, rfl, rfl⟩ rfl rfl (by decide) (by decide) (by simp [draw]) (by simp [Marked]) rfl rfl (by decide) (by decide)

example : OnFirst plots [1, 4] 2 ∧ ¬ OnFirst plots [1, 4] 3 := by
  refine ⟨⟨1, by simp, by simp [plots]⟩, ?_⟩
  rintro ⟨f, -, hf⟩
  simp [plots] at hf

end Verif.Extern
