import Verif.Annot.Choose

/-!
# C99: which stubs apply
-/

namespace Verif.Annot

variable {H : Type}

/-! ## Specification -/

/-- The decorators say that a stub is for module `m`. -/
def ForModule (ds : List Dec) (m : Nat) : Prop := ∃ args, .module args ∈ ds ∧ .str m ∈ args

/-- The stub, in the file for `file`, applies to module `m`. -/
def Applies {B : Type} (file : Nat) (s : Stub B) (m : Nat) : Prop := ForModule s.decs m ∨ ((∀ m', ¬ ForModule s.decs m') ∧ m = file)

/-- The decorators say that a stub is for the function or method `x`. -/
def ForName (ds : List Dec) (x : Nat) : Prop := ∃ args, .handlerFor args ∈ ds ∧ .str x ∈ args

/-- The stub is about the function or method `x`. -/
def About {B : Type} (s : Stub B) (x : Nat) : Prop := ForName s.decs x ∨ ((∀ y, ¬ ForName s.decs y) ∧ x = s.name)

open Classical in
/-- The stubs for the class `c` of module `m`. -/
noncomputable def stubsFor {B : Type} (files : List (Nat × List (Stub B))) (m c : Nat) : List (Stub B) :=
  files.flatMap fun f => f.2.filter fun s => decide (Applies f.1 s m ∧ s.name = c)

/-- `h` is the last annotation for `x` in a list of stubs. -/
def Final (l : List (Stub (Option H))) (x : Nat) (h : H) : Prop :=
  ∃ l1 f l2, l = l1 ++ f :: l2 ∧ f.body = some h ∧ About f x ∧ ∀ g ∈ l2, g.body ≠ none → ¬ About g x

/-- Decorators `@module` have one argument. -/
def OneArg {B : Type} (files : List (Nat × List (Stub B))) : Prop :=
  ∀ f ∈ files, ∀ s ∈ f.2, ∀ args, .module args ∈ s.decs → args.length = 1

/-! ## Proofs -/

theorem mem_strings (l : List DecArg) (m : Nat) : m ∈ strings l ↔ .str m ∈ l := by
  induction l with
  | nil => simp [strings]
  | cons a l ih => cases a <;> simp [strings, ih]

theorem mem_handlerNames (ds : List Dec) (x : Nat) : x ∈ handlerNames ds ↔ ForName ds x := by
  unfold ForName
  induction ds with
  | nil => simp [handlerNames]
  | cons d ds ih =>
    cases d with
    | module args => simp [handlerNames, ih]
    | other => simp [handlerNames, ih]
    | handlerFor args =>
      simp only [handlerNames, List.mem_append, ih, mem_strings, List.mem_cons, Dec.handlerFor.injEq]
      constructor
      · rintro (h | ⟨a, h1, h2⟩)
        · exact ⟨args, .inl rfl, h⟩
        · exact ⟨a, .inr h1, h2⟩
      · rintro ⟨a, rfl | h1, h2⟩
        · exact .inl h2
        · exact .inr ⟨a, h1, h2⟩

theorem mem_modules {ds : List Dec} (h1 : ∀ args, .module args ∈ ds → args.length = 1) (m : Nat) : m ∈ modules ds ↔ ForModule ds m := by
  unfold ForModule
  induction ds with
  | nil => simp [modules]
  | cons d ds ih =>
    have ih := ih fun args ha => h1 args (List.mem_cons_of_mem _ ha)
    cases d with
    | handlerFor args => simp [modules, ih]
    | other => simp [modules, ih]
    | module args =>
      rw [modules, if_pos (h1 args (List.mem_cons_self ..))]
      simp only [List.mem_append, ih, mem_strings, List.mem_cons, Dec.module.injEq]
      constructor
      · rintro (h | ⟨a, h1, h2⟩)
        · exact ⟨args, .inl rfl, h⟩
        · exact ⟨a, .inr h1, h2⟩
      · rintro ⟨a, rfl | h1, h2⟩
        · exact .inl h2
        · exact .inr ⟨a, h1, h2⟩

theorem mem_namesFor {B : Type} (s : Stub B) (x : Nat) : x ∈ namesFor s.name s.decs ↔ About s x := by
  unfold namesFor About
  by_cases h : handlerNames s.decs = []
  · rw [if_pos h]
    have hno : ∀ y, ¬ ForName s.decs y := by
      intro y hy
      rw [← mem_handlerNames, h] at hy
      cases hy
    simp [hno]
  · rw [if_neg h, mem_handlerNames]
    have hex : ∃ y, ForName s.decs y := by
      obtain ⟨y, hy⟩ := List.exists_mem_of_ne_nil _ h
      exact ⟨y, (mem_handlerNames _ _).1 hy⟩
    obtain ⟨y, hy⟩ := hex
    constructor
    · exact .inl
    · rintro (h | ⟨h, _⟩)
      · exact h
      · exact absurd hy (h y)

theorem mem_modulesOf {B : Type} {file : Nat} {s : Stub B} (h1 : ∀ args, .module args ∈ s.decs → args.length = 1) (m : Nat) :
    m ∈ modulesOf file s ↔ Applies file s m := by
  unfold modulesOf Applies
  by_cases h : modules s.decs = []
  · rw [if_pos h]
    have hno : ∀ y, ¬ ForModule s.decs y := by
      intro y hy
      rw [← mem_modules h1, h] at hy
      cases hy
    simp [hno]
  · rw [if_neg h, mem_modules h1]
    obtain ⟨y, hy⟩ := List.exists_mem_of_ne_nil _ h
    have hy := (mem_modules h1 y).1 hy
    constructor
    · exact .inl
    · rintro (h | ⟨h, _⟩)
      · exact h
      · exact absurd hy (h y)

theorem get_filter {K V : Type} [DecidableEq K] (d : List (K × V)) {k k' : K} (h : k ≠ k') : get (d.filter fun e => e.1 ≠ k) k' = get d k' := by
  induction d with
  | nil => rfl
  | cons e d ih =>
    obtain ⟨a, v⟩ := e
    by_cases ha : a = k
    · rw [List.filter_cons_of_neg (by simp [ha]), ih, get_cons, if_neg (by rw [ha]; exact h)]
    · rw [List.filter_cons_of_pos (by simp [ha]), get_cons, get_cons, ih]

theorem get_put {K V : Type} [DecidableEq K] (d : List (K × V)) (k k' : K) (v : V) : get (put d k v) k' = if k = k' then some v else get d k' := by
  unfold put
  rw [get_cons]
  by_cases h : k = k'
  · rw [if_pos h, if_pos h]
  · rw [if_neg h, if_neg h, get_filter d h]

theorem get_fold_put (h : H) (x : Nat) : ∀ (ns : List Nat) (d : List (Nat × H)), get (ns.foldl (fun d n => put d n h) d) x = if x ∈ ns then some h else get d x
  | [], d => by simp
  | n :: ns, d => by
    rw [List.foldl_cons, get_fold_put h x ns, get_put]
    by_cases hx : x ∈ ns
    · simp [hx]
    · by_cases hn : n = x
      · simp [hn]
      · simp [hx, hn, Ne.symm hn]

theorem split_last {α : Type} {l l1 l2 : List α} {a b : α} (h : l ++ [a] = l1 ++ b :: l2) : (l2 = [] ∧ a = b ∧ l = l1) ∨ ∃ l3, l2 = l3 ++ [a] ∧ l = l1 ++ b :: l3 := by
  rcases List.eq_nil_or_concat l2 with rfl | ⟨l3, x, rfl⟩
  · have h1 := List.append_inj' h rfl
    simp only [List.cons.injEq, and_true] at h1
    exact .inl ⟨rfl, h1.2, h1.1⟩
  · have h1 : l ++ [a] = (l1 ++ b :: l3) ++ [x] := by rw [h]; simp
    have h2 := List.append_inj' h1 rfl
    simp only [List.cons.injEq, and_true] at h2
    exact .inr ⟨l3, by rw [h2.2]; simp, h2.1⟩

theorem compileClass_iff (l : List (Stub (Option H))) (x : Nat) (h : H) : get (compileClass l) x = some h ↔ Final l x h := by
  unfold compileClass
  induction l using List.reverseRecOn with
  | nil => simp [get, Final]
  | append_singleton l f ih =>
    rw [List.foldl_append]
    simp only [List.foldl_cons, List.foldl_nil]
    cases hf : f.body with
    | none =>
      simp only
      rw [ih]
      unfold Final
      constructor
      · rintro ⟨l1, g, l2, rfl, h1, h2, h3⟩
        refine ⟨l1, g, l2 ++ [f], by simp, h1, h2, fun k hk hn => ?_⟩
        rcases List.mem_append.1 hk with hk | hk
        · exact h3 k hk hn
        · rw [List.mem_singleton.1 hk] at hn; exact absurd hf hn
      · rintro ⟨l1, g, l2, he, h1, h2, h3⟩
        rcases split_last he with ⟨rfl, rfl, rfl⟩ | ⟨l3, rfl, rfl⟩
        · rw [hf] at h1; cases h1
        · exact ⟨l1, g, l3, rfl, h1, h2, fun k hk => h3 k (by simp [hk])⟩
    | some h0 =>
      simp only
      rw [get_fold_put]
      by_cases hx : x ∈ namesFor f.name f.decs
      · rw [if_pos hx]
        constructor
        · intro he
          refine ⟨l, f, [], rfl, by rw [hf, he], (mem_namesFor f x).1 hx, by simp⟩
        · rintro ⟨l1, g, l2, he, h1, h2, h3⟩
          rcases split_last he with ⟨rfl, rfl, rfl⟩ | ⟨l3, rfl, rfl⟩
          · rw [hf] at h1; exact h1
          · exact absurd ((mem_namesFor f x).1 hx) (h3 f (by simp) (by rw [hf]; simp))
      · rw [if_neg hx, ih]
        have hx' : ¬ About f x := fun hh => hx ((mem_namesFor f x).2 hh)
        unfold Final
        constructor
        · rintro ⟨l1, g, l2, rfl, h1, h2, h3⟩
          refine ⟨l1, g, l2 ++ [f], by simp, h1, h2, fun k hk hn => ?_⟩
          rcases List.mem_append.1 hk with hk | hk
          · exact h3 k hk hn
          · rw [List.mem_singleton.1 hk]; exact hx'
        · rintro ⟨l1, g, l2, he, h1, h2, h3⟩
          rcases split_last he with ⟨rfl, rfl, rfl⟩ | ⟨l3, rfl, rfl⟩
          · exact absurd h2 hx'
          · exact ⟨l1, g, l3, rfl, h1, h2, fun k hk => h3 k (by simp [hk])⟩

theorem compileClasses_last (cs : List (Stub (List (Stub (Option H))))) (c : Nat) :
    get (compileClasses cs) c = ((cs.filter fun s => decide (s.name = c)).getLast?).map fun s => compileClass s.body := by
  unfold compileClasses
  induction cs using List.reverseRecOn with
  | nil => rfl
  | append_singleton cs s ih =>
    rw [List.foldl_append, List.filter_append]
    simp only [List.foldl_cons, List.foldl_nil]
    rw [get_put, ih]
    by_cases hs : s.name = c
    · rw [if_pos hs, List.filter_cons_of_pos (by simp [hs])]
      simp
    · rw [if_neg hs, List.filter_cons_of_neg (by simp [hs])]
      simp

theorem specs_filter {B : Type} {files : List (Nat × List (Stub B))} (h1 : OneArg files) (m c : Nat) :
    ((specs files m).filter fun s => decide (s.name = c)) = stubsFor files m c := by
  unfold specs stubsFor
  rw [List.filter_flatMap]
  unfold OneArg at h1
  induction files with
  | nil => rfl
  | cons f files ih =>
    rw [List.flatMap_cons, List.flatMap_cons, ih fun g hg => h1 g (List.mem_cons_of_mem _ hg)]
    congr 1
    rw [List.filter_filter]
    apply List.filter_congr
    intro s hs
    have := mem_modulesOf (file := f.1) (fun args ha => h1 f (List.mem_cons_self ..) s hs args ha) m
    by_cases hn : s.name = c <;> by_cases ha : Applies f.1 s m <;> simp [hn, ha, this]

/-- C99 in part. If decorators name one module each and there is at most one stub for the class, the annotation in force for a method is the last one
that is given for it in the stub of its class. Missing: decorators naming several modules, and several stubs for a class; see `stubs_violated_modules`, `stubs_violated_twice`. -/
theorem stubs_partial {files : List (Nat × List (Stub (List (Stub (Option H)))))} (h1 : OneArg files) {m c : Nat} (h2 : (stubsFor files m c).length ≤ 1)
    (x : Nat) (h : H) : inForce files m c x = some h ↔ Final ((stubsFor files m c).flatMap (·.body)) x h := by
  unfold inForce
  rw [compileClasses_last, specs_filter h1]
  cases hl : stubsFor files m c with
  | nil => simp [Final]
  | cons s l =>
    cases l with
    | nil =>
      simp only [List.getLast?_singleton, Option.map_some, Option.bind_some, List.flatMap_cons, List.flatMap_nil, List.append_nil]
      exact compileClass_iff s.body x h
    | cons t l => rw [hl] at h2; simp at h2

/-- Also in general nothing is in force that no stub asks for: the annotation stands in a stub for the class. -/
theorem stubs_sound {files : List (Nat × List (Stub (List (Stub (Option H)))))} (h1 : OneArg files) {m c x : Nat} {h : H} (hf : inForce files m c x = some h) :
    ∃ s ∈ stubsFor files m c, Final s.body x h := by
  unfold inForce at hf
  rw [compileClasses_last, specs_filter h1] at hf
  cases hl : (stubsFor files m c).getLast? with
  | none => rw [hl] at hf; cases hf
  | some s =>
    rw [hl] at hf
    exact ⟨s, List.mem_of_getLast? hl, (compileClass_iff s.body x h).1 hf⟩

/-! ## Cases -/

/-- A file for module 7 with a stub for the class 1 of module 8 and one for the class 2, whose methods 3 and 4 have an annotation. -/
def file7 : Nat × List (Stub (List (Stub (Option Char)))) :=
  (7, [⟨1, [.module [.str 8]], [⟨3, [], some 'a'⟩]⟩, ⟨2, [], [⟨5, [.handlerFor [.str 3, .str 4]], some 'b'⟩, ⟨6, [], none⟩]⟩])

example : OneArg [file7] ∧ inForce [file7] 8 1 3 = some 'a' ∧ inForce [file7] 7 1 3 = none ∧ inForce [file7] 7 2 4 = some 'b' ∧
    inForce [file7] 7 2 5 = none := by
  refine ⟨?_, by decide, by decide, by decide, by decide⟩
  intro f hf s hs args ha
  rw [List.mem_singleton.1 hf] at hs
  simp only [file7, List.mem_cons, List.not_mem_nil, or_false] at hs
  rcases hs with rfl | rfl
  · simp only [List.mem_cons, List.not_mem_nil, or_false, Dec.module.injEq] at ha
    rw [ha]; rfl
  · simp at ha

/-- **C99 fails** for `@module("m8", "m9")`: the stub applies to neither of the modules, but to the one of the file. -/
theorem stubs_violated_modules : Applies 7 (⟨1, [.module [.str 8, .str 9]], [⟨3, [], some 'a'⟩]⟩ : Stub (List (Stub (Option Char)))) 8 ∧
    inForce [(7, [⟨1, [.module [.str 8, .str 9]], [⟨3, [], some 'a'⟩]⟩])] 8 1 3 = none ∧
    inForce [(7, [⟨1, [.module [.str 8, .str 9]], [⟨3, [], some 'a'⟩]⟩])] 7 1 3 = some 'a' :=
  ⟨.inl ⟨_, List.mem_cons_self .., by simp⟩, by decide, by decide⟩

/-- **C99 fails** for two stubs for one class: the methods of the first are not annotated any more. -/
theorem stubs_violated_twice : ∃ files : List (Nat × List (Stub (List (Stub (Option Char))))), OneArg files ∧
    Final ((stubsFor files 7 1).flatMap (·.body)) 3 'a' ∧ inForce files 7 1 3 = none := by
  refine ⟨[(7, [⟨1, [], [⟨3, [], some 'a'⟩]⟩, ⟨1, [], [⟨4, [], some 'b'⟩]⟩])], ?_, ?_, by decide⟩
  · intro f hf s hs args ha
    rw [List.mem_singleton.1 hf] at hs
    simp only [List.mem_cons, List.not_mem_nil, or_false] at hs
    rcases hs with rfl | rfl <;> simp at ha
  · refine ⟨[], ⟨3, [], some 'a'⟩, [⟨4, [], some 'b'⟩], ?_, rfl, .inr ⟨by simp [ForName], rfl⟩, ?_⟩
    · simp [stubsFor, Applies, ForModule]
    · intro g hg _
      rw [List.mem_singleton.1 hg]
      simp [About, ForName]

end Verif.Annot
