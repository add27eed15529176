import Verif.StubFile.Lemmas

/-!
# Files of annotations: lemmas about sessions
-/

namespace Verif.StubFile
open Annot (Stub About Final modulesOf namesFor)

variable {C F H G : Type}

/-! ## Compiling -/

theorem get_fold_set (h : H) (x : Nat) : ∀ (ns : List Nat) (d : List (Nat × H)),
    Assoc.get (ns.foldl (fun d n => Assoc.set d n h) d) x = if x ∈ ns then some h else Assoc.get d x
  | [], d => by simp
  | n :: ns, d => by
    rw [List.foldl_cons, get_fold_set h x ns, Assoc.get_set]
    by_cases hx : x ∈ ns
    · simp [hx]
    · by_cases hn : x = n
      · simp [hn]
      · simp [hx, hn]

theorem nodup_fold_set (h : H) : ∀ (ns : List Nat) (d : List (Nat × H)), (Assoc.keys d).Nodup → (Assoc.keys (ns.foldl (fun d n => Assoc.set d n h) d)).Nodup
  | [], _, hd => hd
  | n :: ns, d, hd => nodup_fold_set h ns _ (Assoc.nodup_set hd n h)

theorem nodup_compile (l : List (Stub (Option H))) : (Assoc.keys (compileFunctions l)).Nodup := by
  unfold compileFunctions
  induction l using List.reverseRecOn with
  | nil => exact List.nodup_nil
  | append_singleton l f ih =>
    rw [List.foldl_append]
    simp only [List.foldl_cons, List.foldl_nil]
    cases f.body with
    | none => exact ih
    | some h => exact nodup_fold_set h _ _ ih

theorem get_compile_snoc (l : List (Stub (Option H))) (f : Stub (Option H)) (x : Nat) : Assoc.get (compileFunctions (l ++ [f])) x =
    match f.body with
    | none => Assoc.get (compileFunctions l) x
    | some h => if x ∈ namesFor f.name f.decs then some h else Assoc.get (compileFunctions l) x := by
  unfold compileFunctions
  rw [List.foldl_append]
  simp only [List.foldl_cons, List.foldl_nil]
  cases f.body with
  | none => rfl
  | some h => exact get_fold_set h x _ _

theorem get_compile (l : List (Stub (Option H))) (x : Nat) : Assoc.get (compileFunctions l) x = Annot.get (Annot.compileClass l) x := by
  induction l using List.reverseRecOn with
  | nil => rfl
  | append_singleton l f ih =>
    rw [get_compile_snoc, ih]
    unfold Annot.compileClass
    rw [List.foldl_append]
    simp only [List.foldl_cons, List.foldl_nil]
    cases f.body with
    | none => rfl
    | some h => exact (Annot.get_fold_put h x _ _).symm

theorem compile_iff (l : List (Stub (Option H))) (x : Nat) (h : H) : Assoc.get (compileFunctions l) x = some h ↔ Final l x h := by
  rw [get_compile]
  exact Annot.compileClass_iff l x h

theorem compile_none {l l' : List (Stub (Option H))} {x : Nat} (h : Assoc.get (compileFunctions (l ++ l')) x = none) : Assoc.get (compileFunctions l) x = none := by
  induction l' using List.reverseRecOn with
  | nil => rwa [List.append_nil] at h
  | append_singleton l' f ih =>
    rw [← List.append_assoc, get_compile_snoc] at h
    cases hb : f.body with
    | none => rw [hb] at h; exact ih h
    | some h0 =>
      rw [hb] at h
      simp only at h
      by_cases hx : x ∈ namesFor f.name f.decs
      · rw [if_pos hx] at h; cases h
      · rw [if_neg hx] at h; exact ih h

variable [DecidableEq G]

/-- The annotation that a function gets when its module is compiled. -/
def newer (new old : Option H) : Option H := match new with | some h => some h | none => old

theorem setAll_at {exports : Nat → Nat → Option G} {m x : Nat} {g : G} (hg : OnlyAt exports m x g) : ∀ (d : List (Nat × H)) (b : G → Option H), (Assoc.keys d).Nodup →
    setAll exports m d b g = newer (Assoc.get d x) (b g)
  | [], b, _ => rfl
  | (y, h) :: d, b, hd => by
    have hd' : y ∉ Assoc.keys d ∧ (Assoc.keys d).Nodup := List.nodup_cons.1 hd
    rw [setAll]
    by_cases hy : y = x
    · subst hy
      have he : exports m y = some g := (hg m y).2 ⟨rfl, rfl⟩
      rw [he]
      dsimp only
      rw [setAll_at hg d _ hd'.2, Assoc.get_eq_none_iff.2 hd'.1]
      simp [Assoc.get, newer]
    · have hget : Assoc.get ((y, h) :: d) x = Assoc.get d x := by simp [Assoc.get, hy]
      rw [hget]
      cases he : exports m y with
      | none => exact setAll_at hg d b hd'.2
      | some g' =>
        dsimp only
        have hne : g ≠ g' := by
          rintro rfl
          exact hy ((hg m y).1 he).2
        rw [setAll_at hg d _ hd'.2]
        simp only [if_neg hne]

theorem setAll_other {exports : Nat → Nat → Option G} {m m' x : Nat} {g : G} (hg : OnlyAt exports m x g) (hm : m' ≠ m) : ∀ (d : List (Nat × H)) (b : G → Option H),
    setAll exports m' d b g = b g
  | [], _ => rfl
  | (y, h) :: d, b => by
    rw [setAll]
    cases he : exports m' y with
    | none => exact setAll_other hg hm d b
    | some g' =>
      dsimp only
      have hne : g ≠ g' := by
        rintro rfl
        exact hm ((hg m' y).1 he).1
      rw [setAll_other hg hm d _]
      simp only [if_neg hne]

theorem compileModule_at {exports : Nat → Nat → Option G} {m x : Nat} {g : G} (hg : OnlyAt exports m x g) (m' : Nat) (σ : State C H G) :
    (compileModule exports m' σ).byFn g = if m' = m then newer (Assoc.get (compileFunctions (σ.specs.fn m)) x) (σ.byFn g) else σ.byFn g := by
  unfold compileModule
  by_cases h : m' = m
  · rw [if_pos h, h]
    exact setAll_at hg _ _ (nodup_compile _)
  · rw [if_neg h]
    exact setAll_other hg h _ _

theorem newer_newer (a b : Option H) : newer a (newer a b) = newer a b := by
  cases a <;> rfl

theorem compileImported_frame (exports : Nat → Nat → Option G) : ∀ (ms : List Nat) (σ : State C H G),
    (compileImported exports ms σ).specs = σ.specs ∧ (compileImported exports ms σ).imported = σ.imported
  | [], σ => ⟨rfl, rfl⟩
  | m :: ms, σ => by
    rw [compileImported]
    have := compileImported_frame exports ms (if m ∈ σ.imported then compileModule exports m σ else σ)
    by_cases h : m ∈ σ.imported
    · rw [if_pos h] at this ⊢; exact this
    · rw [if_neg h] at this ⊢; exact this

theorem compileImported_at {exports : Nat → Nat → Option G} {m x : Nat} {g : G} (hg : OnlyAt exports m x g) : ∀ (ms : List Nat) (σ : State C H G),
    (compileImported exports ms σ).byFn g =
      if m ∈ ms ∧ m ∈ σ.imported then newer (Assoc.get (compileFunctions (σ.specs.fn m)) x) (σ.byFn g) else σ.byFn g
  | [], σ => by simp [compileImported]
  | m' :: ms, σ => by
    rw [compileImported]
    by_cases hi : m' ∈ σ.imported
    · rw [if_pos hi, compileImported_at hg ms]
      have h1 : (compileModule exports m' σ).imported = σ.imported := rfl
      have h2 : (compileModule exports m' σ).specs = σ.specs := rfl
      rw [h1, h2, compileModule_at hg]
      by_cases hm : m' = m
      · subst hm
        simp only [if_true, List.mem_cons, true_or, true_and, if_pos hi]
        by_cases h : m' ∈ ms
        · rw [if_pos ⟨h, hi⟩, newer_newer]
        · rw [if_neg fun h' => h h'.1]
      · rw [if_neg hm]
        have : (m ∈ m' :: ms ∧ m ∈ σ.imported) ↔ (m ∈ ms ∧ m ∈ σ.imported) := by simp [Ne.symm hm]
        simp only [this]
    · rw [if_neg hi, compileImported_at hg ms]
      have : (m ∈ m' :: ms ∧ m ∈ σ.imported) ↔ (m ∈ ms ∧ m ∈ σ.imported) := by
        constructor
        · rintro ⟨h1, h2⟩
          rcases List.mem_cons.1 h1 with rfl | h1
          · exact absurd h2 hi
          · exact ⟨h1, h2⟩
        · exact fun h => ⟨List.mem_cons_of_mem _ h.1, h.2⟩
      simp only [this]

/-! ## Registering files -/

theorem addFile_tidy {p : Python} {f : File C F} (hp : f.parses = true) (ht : Tidy p f.nodes) (t : Specs C F) :
    ∃ ms, addFile p f t = (t.plus f.name (allClasses p f.nodes) (allFunctions p f.nodes), .ok ms) ∧
      ∀ s ∈ allFunctions p f.nodes, ∀ m ∈ modulesOf f.name s, m ∈ ms := by
  obtain ⟨ms, h1, h2⟩ := addNodes_tidy p f.name f.nodes t ht
  exact ⟨ms, by unfold addFile; rw [if_pos hp, h1], h2⟩

theorem forModule_mem {B : Type} {l : List (Stub B)} (h1 : OneModule l) {file m : Nat} (h : forModule file m l ≠ []) : ∃ s ∈ l, m ∈ modulesOf file s := by
  rw [← filter_modules h1] at h
  obtain ⟨s, hs⟩ := List.exists_mem_of_ne_nil _ h
  rw [List.mem_filter] at hs
  exact ⟨s, hs.1, of_decide_eq_true hs.2⟩

theorem addFiles_tidy {p : Python} : ∀ (fs : List (File C F)) (t : Specs C F), (∀ f ∈ fs.filter (·.pyi), f.parses = true ∧ Tidy p f.nodes ∧ OneModule (allFunctions p f.nodes)) →
    ∃ t' ms, addFiles p fs t = (t', .ok ms) ∧ (∀ m, t'.fn m = t.fn m ++ (fs.filter (·.pyi)).flatMap fun f => forModule f.name m (allFunctions p f.nodes)) ∧
      ∀ m, (fs.filter (·.pyi)).flatMap (fun f => forModule f.name m (allFunctions p f.nodes)) ≠ [] → m ∈ ms
  | [], t, _ => ⟨t, [], rfl, by simp, by simp⟩
  | f :: fs, t, h => by
    rw [addFiles]
    by_cases hf : f.pyi = true
    · rw [if_pos hf]
      rw [List.filter_cons_of_pos (by simpa using hf)] at h ⊢
      obtain ⟨hp, ht, h1⟩ := h f (List.mem_cons_self ..)
      obtain ⟨ms, h2, h3⟩ := addFile_tidy hp ht t
      obtain ⟨t', ms', h4, h5, h6⟩ := addFiles_tidy fs (t.plus f.name (allClasses p f.nodes) (allFunctions p f.nodes)) fun g hg => h g (List.mem_cons_of_mem _ hg)
      refine ⟨t', ms ++ ms', by rw [h2]; simp only [h4], fun m => ?_, fun m hm => ?_⟩
      · rw [h5, List.flatMap_cons, ← List.append_assoc]
        congr 1
        simp only [Specs.plus]
        rw [filter_modules h1]
      · rw [List.flatMap_cons] at hm
        by_cases h0 : forModule f.name m (allFunctions p f.nodes) = []
        · rw [h0, List.nil_append] at hm
          exact List.mem_append_right _ (h6 m hm)
        · obtain ⟨s, hs, hm'⟩ := forModule_mem h1 h0
          exact List.mem_append_left _ (h3 s hs m hm')
    · rw [if_neg hf]
      rw [List.filter_cons_of_neg (by simpa using hf)] at h ⊢
      exact addFiles_tidy fs t h

/-! ## Sessions -/

theorem imported_iff (p : Python) (exports : Nat → Nat → Option G) (m : Nat) : ∀ hist : List (Act C (Option H)), m ∈ (run p exports hist).imported ↔ Imported m hist
  | [] => by simp [run, Imported]
  | .imp m' :: h => by
    have ih := imported_iff p exports m h
    rw [run, step]
    unfold Imported at ih ⊢
    by_cases hi : m' ∈ (run p exports h).imported
    · rw [if_pos hi]
      rw [ih, List.mem_cons, Act.imp.injEq]
      constructor
      · exact .inr
      · rintro (rfl | h')
        · exact ih.1 hi
        · exact h'
    · rw [if_neg hi]
      show m ∈ m' :: (run p exports h).imported ↔ _
      rw [List.mem_cons, ih, List.mem_cons, Act.imp.injEq]
  | .file f :: h => by
    have ih := imported_iff p exports m h
    rw [run, step]
    unfold Imported at ih ⊢
    rw [List.mem_cons, ← ih]
    rcases addFile p f (run p exports h).specs with ⟨t, x | ms⟩ <;> simp
  | .dir fs :: h => by
    have ih := imported_iff p exports m h
    rw [run, step]
    unfold Imported at ih ⊢
    rw [List.mem_cons, ← ih]
    rcases addFiles p fs (run p exports h).specs with ⟨t, x | ms⟩
    · simp
    · simp [(compileImported_frame exports ms _).2]

/-- The tables of a session with well-formed files. -/
theorem run_specs {p : Python} {exports : Nat → Nat → Option G} : ∀ {hist : List (Act C (Option H))}, AllTidy p hist → ∀ m, (run p exports hist).specs.fn m = stubs p m hist
  | [], _, m => rfl
  | .imp m' :: h, ht, m => by
    have ih := run_specs (exports := exports) (fun a ha => ht a (List.mem_cons_of_mem _ ha)) m
    rw [run, step, stubs]
    simp only [filesOf, List.flatMap_nil, List.append_nil]
    split <;> exact ih
  | .file f :: h, ht, m => by
    have ih := run_specs (exports := exports) (fun a ha => ht a (List.mem_cons_of_mem _ ha)) m
    obtain ⟨hp, htf, h1⟩ := ht (.file f) (List.mem_cons_self ..) f (List.mem_singleton.2 rfl)
    obtain ⟨ms, h2, _⟩ := addFile_tidy hp htf (run p exports h).specs
    rw [run, step, h2, stubs, ← ih]
    simp only [filesOf, List.flatMap_cons, List.flatMap_nil, List.append_nil, Specs.plus]
    rw [filter_modules h1]
  | .dir fs :: h, ht, m => by
    have ih := run_specs (exports := exports) (fun a ha => ht a (List.mem_cons_of_mem _ ha)) m
    obtain ⟨t', ms, h2, h3, _⟩ := addFiles_tidy fs (run p exports h).specs (ht (.dir fs) (List.mem_cons_self ..))
    rw [run, step, h2, stubs, ← ih]
    simp only [(compileImported_frame exports ms _).1, filesOf]
    exact h3 m

theorem newer_compile (l l' : List (Stub (Option H))) (x : Nat) :
    newer (Assoc.get (compileFunctions (l ++ l')) x) (Assoc.get (compileFunctions l) x) = Assoc.get (compileFunctions (l ++ l')) x := by
  cases h : Assoc.get (compileFunctions (l ++ l')) x with
  | none => rw [compile_none h]; rfl
  | some _ => rfl

open Classical in
/-- The handler of a function in a session with well-formed files. -/
theorem run_byFn {p : Python} {exports : Nat → Nat → Option G} {m x : Nat} {g : G} (hg : OnlyAt exports m x g) : ∀ {hist : List (Act C (Option H))}, AllTidy p hist → InTime p hist →
    (run p exports hist).byFn g = if Imported m hist then Assoc.get (compileFunctions (stubs p m hist)) x else none
  | [], _, _ => by simp [run, Imported]
  | .imp m' :: h, ht, hi => by
    have ht' : AllTidy p h := fun a ha => ht a (List.mem_cons_of_mem _ ha)
    rw [InTime] at hi
    have ih := run_byFn hg ht' hi
    have hs := run_specs (exports := exports) ht' m
    have him := imported_iff p exports m h
    have him' := imported_iff p exports m' h
    have hst : stubs p m (.imp m' :: h) = stubs p m h := by simp [stubs, filesOf]
    have hne : Imported m (.imp m' :: h) ↔ m = m' ∨ Imported m h := by simp [Imported]
    rw [run, step, hst]
    by_cases hm' : m' ∈ (run p exports h).imported
    · rw [if_pos hm', ih]
      have : Imported m (.imp m' :: h) ↔ Imported m h := by
        rw [hne]
        exact ⟨fun h => h.elim (fun h => by rw [h]; exact him'.1 hm') id, .inr⟩
      simp only [this]
    · rw [if_neg hm']
      dsimp only
      rw [compileModule_at hg]
      by_cases hm : m' = m
      · subst hm
        rw [if_pos rfl, if_pos (hne.2 (.inl rfl))]
        simp only
        rw [hs, ih, if_neg fun h' => hm' (him'.2 h')]
        cases Assoc.get (compileFunctions (stubs p m' h)) x <;> rfl
      · rw [if_neg hm]
        simp only
        rw [ih]
        have : Imported m (.imp m' :: h) ↔ Imported m h := by
          rw [hne]
          exact ⟨fun h => h.elim (fun h => absurd h.symm hm) id, .inr⟩
        simp only [this]
  | .file f :: h, ht, hi => by
    have ht' : AllTidy p h := fun a ha => ht a (List.mem_cons_of_mem _ ha)
    rw [InTime] at hi
    have ih := run_byFn hg ht' hi.2
    have hne : Imported m (.file f :: h) ↔ Imported m h := by simp [Imported]
    obtain ⟨hp, htf, h1⟩ := ht (.file f) (List.mem_cons_self ..) f (List.mem_singleton.2 rfl)
    obtain ⟨ms, h2, _⟩ := addFile_tidy hp htf (run p exports h).specs
    rw [run, step, h2]
    simp only [hne]
    rw [ih]
    by_cases him : Imported m h
    · rw [if_pos him, if_pos him, stubs]
      simp only [filesOf, List.flatMap_cons, List.flatMap_nil, List.append_nil]
      rw [hi.1 m him, List.append_nil]
    · rw [if_neg him, if_neg him]
  | .dir fs :: h, ht, hi => by
    have ht' : AllTidy p h := fun a ha => ht a (List.mem_cons_of_mem _ ha)
    rw [InTime] at hi
    have ih := run_byFn hg ht' hi
    have hs := run_specs (exports := exports) ht' m
    have him := imported_iff p exports m h
    have hne : Imported m (.dir fs :: h) ↔ Imported m h := by simp [Imported]
    obtain ⟨t', ms, h2, h3, h4⟩ := addFiles_tidy fs (run p exports h).specs (ht (.dir fs) (List.mem_cons_self ..))
    rw [run, step, h2]
    simp only [hne]
    rw [compileImported_at hg]
    simp only
    rw [h3, hs, ih, stubs]
    simp only [filesOf, him]
    by_cases hm : Imported m h
    · simp only [if_pos hm]
      by_cases hms : m ∈ ms
      · rw [if_pos ⟨hms, hm⟩, newer_compile]
      · rw [if_neg fun h' => hms h'.1]
        have : (fs.filter (·.pyi)).flatMap (fun f => forModule f.name m (allFunctions p f.nodes)) = [] := by
          by_contra hc
          exact hms (h4 m hc)
        rw [this, List.append_nil]
    · rw [if_neg fun h' => hm h'.2, if_neg hm, if_neg hm]

/-! ## Sessions in general -/

theorem addFile_grows (p : Python) (f : File C F) (t : Specs C F) : Grows f.nodes t (addFile p f t).1 := by
  unfold addFile
  split
  · exact addNodes_grows p f.name f.nodes t
  · exact grows_refl _ _

theorem addFiles_grows (p : Python) : ∀ (fs : List (File C F)) (t : Specs C F), ∀ m, ∀ s ∈ (addFiles p fs t).1.fn m,
    s ∈ t.fn m ∨ ∃ f ∈ fs.filter (·.pyi), Inside (.fn s) f.nodes
  | [], t, m, s, h => .inl h
  | f :: fs, t, m, s, h => by
    rw [addFiles] at h
    by_cases hf : f.pyi = true
    · rw [if_pos hf] at h
      rw [List.filter_cons_of_pos (by simpa using hf)]
      have h1 := addFile_grows p f t
      rcases hr : addFile p f t with ⟨t1, x | ms⟩
      · rw [hr] at h h1
        exact (h1.2.1 m s h).imp_right fun h => ⟨f, List.mem_cons_self .., h⟩
      · rw [hr] at h h1
        have h2 := addFiles_grows p fs t1 m s
        have h3 : s ∈ (addFiles p fs t1).1.fn m := by
          dsimp only at h
          rcases hr' : addFiles p fs t1 with ⟨t2, x | ms'⟩ <;> (rw [hr'] at h; exact h)
        rcases h2 h3 with h | ⟨f', hf', h⟩
        · exact (h1.2.1 m s h).imp_right fun h => ⟨f, List.mem_cons_self .., h⟩
        · exact .inr ⟨f', List.mem_cons_of_mem _ hf', h⟩
    · rw [if_neg hf] at h
      rw [List.filter_cons_of_neg (by simpa using hf)]
      exact addFiles_grows p fs t m s h

theorem run_grows {p : Python} {exports : Nat → Nat → Option G} : ∀ (hist : List (Act C (Option H))) (m : Nat), ∀ s ∈ (run p exports hist).specs.fn m,
    ∃ a ∈ hist, ∃ f ∈ filesOf a, Inside (.fn s) f.nodes
  | [], m, s, h => by cases h
  | .imp m' :: h, m, s, hs => by
    have ih := run_grows (p := p) (exports := exports) h m s
    rw [run, step] at hs
    have hs' : s ∈ (run p exports h).specs.fn m := by split at hs <;> exact hs
    obtain ⟨a, ha, r⟩ := ih hs'
    exact ⟨a, List.mem_cons_of_mem _ ha, r⟩
  | .file f :: h, m, s, hs => by
    have ih := run_grows (p := p) (exports := exports) h m s
    have hg := addFile_grows p f (run p exports h).specs
    rw [run, step] at hs
    have hs' : s ∈ (addFile p f (run p exports h).specs).1.fn m := by
      rcases hr : addFile p f (run p exports h).specs with ⟨t, x | ms⟩ <;> (rw [hr] at hs; exact hs)
    rcases hg.2.1 m s hs' with hs | hs
    · obtain ⟨a, ha, r⟩ := ih hs
      exact ⟨a, List.mem_cons_of_mem _ ha, r⟩
    · exact ⟨_, List.mem_cons_self .., f, List.mem_singleton.2 rfl, hs⟩
  | .dir fs :: h, m, s, hs => by
    have ih := run_grows (p := p) (exports := exports) h m s
    rw [run, step] at hs
    have hs' : s ∈ (addFiles p fs (run p exports h).specs).1.fn m := by
      rcases hr : addFiles p fs (run p exports h).specs with ⟨t, x | ms⟩
      · rw [hr] at hs; exact hs
      · rw [hr] at hs
        simp only [(compileImported_frame exports ms _).1] at hs
        exact hs
    rcases addFiles_grows p fs _ m s hs' with hs | ⟨f, hf, hs⟩
    · obtain ⟨a, ha, r⟩ := ih hs
      exact ⟨a, List.mem_cons_of_mem _ ha, r⟩
    · exact ⟨_, List.mem_cons_self .., f, hf, hs⟩

theorem final_mem {l : List (Stub (Option H))} {x : Nat} {h : H} (hf : Final l x h) : ∃ s ∈ l, s.body = some h ∧ About s x := by
  obtain ⟨l1, s, l2, rfl, h1, h2, _⟩ := hf
  exact ⟨s, by simp, h1, h2⟩

/-- A handler comes from a stub for the module, which has been imported. -/
def Asked (σ : State C H G) (m x : Nat) (g : G) : Prop := ∀ h, σ.byFn g = some h → m ∈ σ.imported ∧ ∃ s ∈ σ.specs.fn m, s.body = some h ∧ About s x

theorem newer_some {a b : Option H} {h : H} (he : newer a b = some h) : a = some h ∨ b = some h := by
  cases a with
  | none => exact .inr he
  | some _ => exact .inl he


theorem addFiles_keeps (p : Python) : ∀ (fs : List (File C F)) (t : Specs C F), ∀ m, ∀ s ∈ t.fn m, s ∈ (addFiles p fs t).1.fn m
  | [], t, m, s, h => h
  | f :: fs, t, m, s, h => by
    rw [addFiles]
    by_cases hf : f.pyi = true
    · rw [if_pos hf]
      have h1 := (addFile_grows p f t).2.2 m s h
      rcases hr : addFile p f t with ⟨t1, x | ms⟩
      · rw [hr] at h1; exact h1
      · rw [hr] at h1
        have h2 := addFiles_keeps p fs t1 m s h1
        dsimp only
        rcases hr' : addFiles p fs t1 with ⟨t2, x | ms'⟩ <;> (rw [hr'] at h2; exact h2)
    · rw [if_neg hf]
      exact addFiles_keeps p fs t m s h

theorem run_asked {p : Python} {exports : Nat → Nat → Option G} {m x : Nat} {g : G} (hg : OnlyAt exports m x g) : ∀ hist : List (Act C (Option H)), Asked (run p exports hist) m x g
  | [], h, he => by cases he
  | .imp m' :: hs, h, he => by
    have ih := run_asked (p := p) hg hs
    rw [run, step] at he ⊢
    by_cases hi : m' ∈ (run p exports hs).imported
    · rw [if_pos hi] at he ⊢; exact ih h he
    · rw [if_neg hi] at he ⊢
      dsimp only at he ⊢
      rw [compileModule_at hg] at he
      have hold : (run p exports hs).byFn g = some h → m ∈ m' :: (run p exports hs).imported ∧ ∃ s ∈ (run p exports hs).specs.fn m, s.body = some h ∧ About s x :=
        fun he => ⟨List.mem_cons_of_mem _ (ih h he).1, (ih h he).2⟩
      by_cases hm : m' = m
      · rw [if_pos hm] at he
        rcases newer_some he with he | he
        · exact ⟨by rw [hm]; exact List.mem_cons_self .., final_mem ((compile_iff _ x h).1 he)⟩
        · exact hold he
      · rw [if_neg hm] at he
        exact hold he
  | .file f :: hs, h, he => by
    have ih := run_asked (p := p) hg hs
    have hk := (addFile_grows p f (run p exports hs).specs).2.2
    rw [run, step] at he ⊢
    rcases hr : addFile p f (run p exports hs).specs with ⟨t, x | ms⟩ <;>
      (rw [hr] at hk he; obtain ⟨h1, s, h2, h3⟩ := ih h he; exact ⟨h1, s, hk m s h2, h3⟩)
  | .dir fs :: hs, h, he => by
    have ih := run_asked (p := p) hg hs
    have hk := addFiles_keeps p fs (run p exports hs).specs
    rw [run, step] at he ⊢
    rcases hr : addFiles p fs (run p exports hs).specs with ⟨t, x | ms⟩
    · rw [hr] at hk he; obtain ⟨h1, s, h2, h3⟩ := ih h he; exact ⟨h1, s, hk m s h2, h3⟩
    · rw [hr] at hk he
      dsimp only at hk he ⊢
      rw [compileImported_at hg] at he
      rw [(compileImported_frame exports ms _).1, (compileImported_frame exports ms _).2]
      have hold : (run p exports hs).byFn g = some h → m ∈ (run p exports hs).imported ∧ ∃ s ∈ t.fn m, s.body = some h ∧ About s x := by
        intro he
        obtain ⟨h1, s, h2, h3⟩ := ih h he
        exact ⟨h1, s, hk m s h2, h3⟩
      split at he
      · rename_i hc
        rcases newer_some he with he | he
        · exact ⟨hc.2, final_mem ((compile_iff _ x h).1 he)⟩
        · exact hold he
      · exact hold he

end Verif.StubFile
