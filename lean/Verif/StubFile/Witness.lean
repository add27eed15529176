import Verif.StubFile.Props

/-!
# Files of annotations: concrete cases -/

namespace Verif.StubFile
open Annot (Stub Final Applies)

/-- Python 3.11.2. -/
def py : Python := ⟨3, 11, 2, 0, fun _ _ => false, fun _ => .error .fuel⟩

/-- `sys.version_info op (..)`. -/
def since (op : Op) (l : List Int) : Expr := .compare (.attr (.name .sys) .versionInfo) [(op, .tuple (l.map fun n => .const (.int n)))]

theorem means_ints (p : Python) (l : List Int) (h : l.length ≤ 3) : Means p (.tuple (l.map fun n => .const (.int n))) (l.map fun n => (n : Rat)) := by
  refine .tuple ?_ (by simpa using h)
  clear h
  induction l with
  | nil => exact .nil
  | cons n l ih => exact .cons (.int n) ih

theorem condition_since (p : Python) {op : Op} (ho : Compares op) {l : List Int} (h : l.length ≤ 3) : Condition p (since op l) :=
  .compare .version fun c hc => by
    rw [List.mem_singleton.1 hc]
    exact ⟨ho, _, means_ints p l h⟩

/-- A stub of the function `x` with the annotation `h`. -/
def stub (x : Nat) (h : Char) : Stub (Option Char) := ⟨x, [], some h⟩

/-- A file for module 7: function 1, and function 2 for Python from 3.8 on, in another way for Python before 3.8, and a remark. -/
def lib : File Unit (Option Char) :=
  ⟨true, 7, true, [.other, .fn (stub 1 'a'), .block (some ':') (some (since .ge [3, 8])) true [.fn (stub 2 'b')], .block (some ':') (some (since .lt [3, 8])) true [.fn (stub 2 'c')],
    .block (some ':') (some (.name .sys)) false [.fn (stub 3 'd')]]⟩

theorem holds_ge : Holds py (since .ge [3, 8]) :=
  .cons .version (means_ints py [3, 8] (by decide)) (.inl (by
    show [((3 : Int) : Rat), ((8 : Int) : Rat)] < [((3 : Nat) : Rat), ((11 : Nat) : Rat), ((2 : Nat) : Rat), 0]
    decide)) .nil

theorem not_holds_lt : ¬Holds py (since .lt [3, 8]) := by
  intro h
  cases h with
  | cons h1 h2 h3 _ =>
    rw [means_unique h1 .version, means_unique h2 (means_ints py [3, 8] (by decide))] at h3
    revert h3
    show ¬([((3 : Nat) : Rat), ((11 : Nat) : Rat), ((2 : Nat) : Rat), 0] < [((3 : Int) : Rat), ((8 : Int) : Rat)])
    decide

theorem lib_tidy : Tidy py lib.nodes := by
  simp only [lib, Tidy, TidyNode, and_true, true_and]
  exact ⟨.inl ⟨_, rfl, condition_since py (by simp [Compares]) (by decide)⟩, .inl ⟨_, rfl, condition_since py (by simp [Compares]) (by decide)⟩, .inr trivial⟩

theorem not_remark : ¬(some ':' = some ':' ∧ ∃ e, some (.name .sys) = some e ∧ Holds py e) := by
  rintro ⟨_, e, h, h'⟩
  rw [← Option.some.inj h] at h'
  exact h'

theorem lib_functions : allFunctions py lib.nodes = [stub 1 'a', stub 2 'b'] := by
  have h1 : (some ':' = some ':' ∧ ∃ e, some (since .ge [3, 8]) = some e ∧ Holds py e) := ⟨rfl, _, rfl, holds_ge⟩
  have h2 : ¬(some ':' = some ':' ∧ ∃ e, some (since .lt [3, 8]) = some e ∧ Holds py e) := by
    rintro ⟨_, e, h, h'⟩
    rw [← Option.some.inj h] at h'
    exact not_holds_lt h'
  simp only [lib, allFunctions, functionsOf, if_pos h1, if_neg h2, if_neg not_remark, List.nil_append, List.append_nil, List.cons_append]

theorem lib_classes : allClasses py lib.nodes = [] := by
  simp [lib, allClasses, classesOf]

theorem one (l : List (Stub (Option Char))) (h : ∀ s ∈ l, s.decs = []) : OneModule l := by
  intro s hs args ha
  rw [h s hs] at ha
  cases ha

theorem lib_one : OneModule (allFunctions py lib.nodes) := by
  rw [lib_functions]
  exact one _ (by simp [stub])

/-- No stubs yet. -/
def empty : Specs Unit (Option Char) := ⟨fun _ => [], fun _ => []⟩

/-- The names and annotations that are registered for a module. -/
def view (r : Specs Unit (Option Char) × Except Err (List Nat)) (m : Nat) : List (Nat × Option Char) × Bool :=
  ((r.1.fn m).map fun s => (s.name, s.body), match r.2 with | .ok _ => true | .error _ => false)

-- `blocks_partial`: its hypotheses hold for `lib`, and what is registered
example : lib.parses = true ∧ Tidy py lib.nodes ∧ OneModule (allClasses py lib.nodes) ∧ OneModule (allFunctions py lib.nodes) :=
  ⟨rfl, lib_tidy, (by rw [lib_classes]; intro s hs; cases hs), lib_one⟩
example : view (addFile py lib empty) 7 = ([(1, some 'a'), (2, some 'b')], true) := by decide

-- `blocks_sound`: the stub of function 2 stands inside of a string
example : Inside (.fn (stub 2 'b')) lib.nodes :=
  .block (mark := some ':') (lhs := .attr (.name .sys) .versionInfo) (cs := [(.ge, .tuple [.const (.int 3), .const (.int 8)])]) (parses := true) (body := [.fn (stub 2 'b')])
    (by simp [lib, since]) .version (by
      intro c hc
      rw [List.mem_singleton.1 hc]
      exact .tuple (by
        intro e he
        simp only [List.mem_cons, List.not_mem_nil, or_false] at he
        rcases he with rfl | rfl <;> exact ⟨_, .int _⟩)) (.here (by simp))

-- `nothing_else_evaluated`: a file with `open("x").close() == 1` in a header; the other interpreter would say yes
example : view (addFile { py with other := fun _ => .ok true } ⟨true, 7, true, [.block (some ':') (some (.compare (.other 0) [(.eq, .const (.int 1))])) true [.fn (stub 1 'a')]]⟩ empty) 7 =
    ([], true) := by decide

/-- A file with a docstring after the first function. -/
def documented : File Unit (Option Char) := ⟨true, 7, true, [.fn (stub 1 'a'), .line, .fn (stub 2 'b')]⟩

-- `docstring_stops`: a docstring of one line and one of two; what is registered
example : documented.nodes = [.fn (stub 1 'a')] ++ .line :: [.fn (stub 2 'b')] ∧ Tidy py (C := Unit) [.fn (stub 1 'a')] := ⟨rfl, by simp [Tidy, TidyNode]⟩
example : view (addFile py documented empty) 7 = ([(1, some 'a')], false) := by decide
example : view (addFile py ⟨true, 7, true, [.block (some 'S') none false [], .fn (stub 2 'b')]⟩ empty) 7 = ([], false) := by decide

-- `no_colon_needed`: a condition after `#`
example : view (addFile py ⟨true, 7, true, [.block (some '#') (some (since .ge [3, 8])) true [.fn (stub 2 'b')]]⟩ empty) 7 = ([(2, some 'b')], true) := by decide
example : allFunctions py (C := Unit) [.block (some '#') (some (since .ge [3, 8])) true [.fn (stub 2 'b')]] = [] := by
  simp [allFunctions, functionsOf]

-- `number_condition_stops`, `long_condition_stops`
example : view (addFile py ⟨true, 7, true, [.block (some ':') (some (.compare (.attr (.name .sys) .versionInfo) [(.ge, .const (.int 3))])) true [.fn (stub 2 'b')], .fn (stub 1 'a')]⟩ empty) 7 =
    ([], false) := by decide
example : view (addFile py ⟨true, 7, true, [.block (some ':') (some (since .ge [3, 11, 2, 0])) true [.fn (stub 2 'b')], .fn (stub 1 'a')]⟩ empty) 7 = ([], false) := by decide
-- and with other versions four numbers do no harm
example : view (addFile py ⟨true, 7, true, [.block (some ':') (some (since .ge [3, 11, 1, 0])) true [.fn (stub 2 'b')], .fn (stub 1 'a')]⟩ empty) 7 =
    ([(2, some 'b'), (1, some 'a')], true) := by decide

/-! ## Sessions -/

/-- Modules 7 and 8 have the functions 1 and 2. -/
def exps (m x : Nat) : Option (Nat × Nat) := if (m = 7 ∨ m = 8) ∧ (x = 1 ∨ x = 2) then some (m, x) else none

theorem onlyAt : OnlyAt exps 7 2 (7, 2) := by
  intro m' x'
  unfold exps
  constructor
  · intro h
    split at h
    · have := Option.some.inj h
      exact ⟨congrArg Prod.fst this, congrArg Prod.snd this⟩
    · cases h
  · rintro ⟨rfl, rfl⟩; rfl

/-- The directory is registered after the import. -/
def good : List (Act Unit (Option Char)) := [.dir [⟨false, 9, false, []⟩, lib], .imp 7]

/-- Only the file is registered after the import. -/
def late : List (Act Unit (Option Char)) := [.file lib, .imp 7]

theorem good_tidy : AllTidy py good := by
  intro a ha f hf
  simp only [good, List.mem_cons, List.not_mem_nil, or_false] at ha
  rcases ha with rfl | rfl
  · simp only [filesOf, List.mem_filter, List.mem_cons, List.not_mem_nil, or_false] at hf
    rcases hf with ⟨rfl | rfl, h⟩
    · cases h
    · exact ⟨rfl, lib_tidy, lib_one⟩
  · cases hf

theorem late_tidy : AllTidy py late := by
  intro a ha f hf
  simp only [late, List.mem_cons, List.not_mem_nil, or_false] at ha
  rcases ha with rfl | rfl
  · rw [List.mem_singleton.1 hf]
    exact ⟨rfl, lib_tidy, lib_one⟩
  · cases hf

theorem for7 : forModule 7 7 [stub 1 'a', stub 2 'b'] = [stub 1 'a', stub 2 'b'] := by
  simp [forModule, Applies, Annot.ForModule, stub]

theorem final2 : Final [stub 1 'a', stub 2 'b'] 2 'b' :=
  ⟨[stub 1 'a'], stub 2 'b', [], rfl, rfl, .inr ⟨by simp [Annot.ForName, stub], rfl⟩, by simp⟩

-- `in_force_partial`: the hypotheses hold for `good`, and the annotation is there
example : AllTidy py good ∧ InTime py good ∧ OnlyAt exps 7 2 (7, 2) ∧ Imported 7 good := ⟨good_tidy, by simp [good, InTime], onlyAt, by simp [good, Imported]⟩
example : (run py exps good).byFn (7, 2) = some 'b' := by decide
example : Final (stubs py 7 good) 2 'b' := by
  have : stubs py 7 good = [stub 1 'a', stub 2 'b'] := by
    simp only [good, stubs, filesOf, List.flatMap_nil, List.append_nil, List.nil_append]
    show (forModule lib.name 7 (allFunctions py lib.nodes)) ++ [] = _
    rw [lib_functions, List.append_nil]
    exact for7
  rw [this]
  exact final2

-- `in_force_partial` for a file that is registered before the import
example : InTime py ([.imp 7, .file lib] : List (Act Unit (Option Char))) ∧ (run py exps ([.imp 7, .file lib] : List (Act Unit (Option Char)))).byFn (7, 2) = some 'b' :=
  ⟨by simp [InTime, Imported], by decide⟩

-- `file_too_late`: its hypotheses hold for `late`
example : AllTidy py late ∧ Final (stubs py 7 late) 2 'b' ∧ ∀ h', ¬Final (stubs py 7 ([.imp 7] : List (Act Unit (Option Char)))) 2 h' := by
  refine ⟨late_tidy, ?_, ?_⟩
  · have : stubs py 7 late = [stub 1 'a', stub 2 'b'] := by
      simp only [late, stubs, filesOf, List.flatMap_nil, List.append_nil, List.nil_append, List.flatMap_cons]
      rw [lib_functions]
      exact for7
    rw [this]
    exact final2
  · rintro h' ⟨l1, s, l2, h, _⟩
    have : stubs py 7 ([.imp 7] : List (Act Unit (Option Char))) = [] := by simp [stubs, filesOf]
    rw [this] at h
    simp at h
example : (run py exps late).byFn (7, 2) = none := by decide

-- `bad_file_stops`: the docstring is in the file for another module
example : (run py exps ([.dir [lib, ⟨true, 8, true, [.line]⟩], .imp 7] : List (Act Unit (Option Char)))).byFn (7, 2) = none := by decide

end Verif.StubFile
