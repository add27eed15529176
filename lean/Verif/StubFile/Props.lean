import Verif.StubFile.Session

/-!
# Files of annotations: theorems (C149, C150)
-/

namespace Verif.StubFile
open Annot (Stub About Final)

variable {C F H G : Type}

/-! ## C149 -/

/-- **C149, in part.** Registering a file whose strings are all conditions adds, for every module, exactly the stubs outside of strings and under conditions that hold,
in their order. Missing: strings that are comments, conditions with other operators or more than three numbers, `@module` with several arguments; see
`docstring_stops`, `no_colon_needed`, `number_condition_stops`, `long_condition_stops`. -/
theorem blocks_partial {p : Python} {f : File C F} (hp : f.parses = true) (ht : Tidy p f.nodes) (h1 : OneModule (allClasses p f.nodes)) (h2 : OneModule (allFunctions p f.nodes))
    (t : Specs C F) : ∃ t' ms, addFile p f t = (t', .ok ms) ∧ ∀ m, t'.cls m = t.cls m ++ forModule f.name m (allClasses p f.nodes) ∧
      t'.fn m = t.fn m ++ forModule f.name m (allFunctions p f.nodes) := by
  obtain ⟨ms, h3, _⟩ := addFile_tidy hp ht t
  refine ⟨_, ms, h3, fun m => ⟨?_, ?_⟩⟩
  · rw [← filter_modules h1]; rfl
  · rw [← filter_modules h2]; rfl

/-- Whatever a file contains, all that is registered stands in it, and all strings around it are comparisons of the version and numbers. -/
theorem blocks_sound (p : Python) (f : File C F) (t : Specs C F) (m : Nat) :
    (∀ s ∈ (addFile p f t).1.cls m, s ∈ t.cls m ∨ Inside (.cls s) f.nodes) ∧ (∀ s ∈ (addFile p f t).1.fn m, s ∈ t.fn m ∨ Inside (.fn s) f.nodes) :=
  ⟨(addFile_grows p f t).1 m, (addFile_grows p f t).2.1 m⟩

/-- No expression but comparisons of the version and numbers is evaluated: what others would give, or do, makes no difference. -/
theorem nothing_else_evaluated (p : Python) (o : Expr → Except Err Bool) (f : File C F) (t : Specs C F) : addFile { p with other := o } f t = addFile p f t := by
  unfold addFile
  split
  · exact addNodes_with p o f.name f.nodes t
  · rfl

/-- **C149 fails** for text: a string of one line, or one whose first line is no expression after its first character, ends the registration with an error, and of the file
the stubs before it are registered only. -/
theorem docstring_stops {p : Python} {f : File C F} (hp : f.parses = true) {l1 l2 : List (Node C F)} {n : Node C F} (hf : f.nodes = l1 ++ n :: l2)
    (hn : n = .line ∨ ∃ mark parses body, n = .block mark none parses body) (ht : Tidy p l1) (h1 : OneModule (allFunctions p l1)) (t : Specs C F) :
    ∃ t', addFile p f t = (t', .error .crash) ∧ ∀ m, t'.fn m = t.fn m ++ forModule f.name m (allFunctions p l1) := by
  obtain ⟨ms, h3, _⟩ := addNodes_tidy p f.name l1 t ht
  refine ⟨t.plus f.name (allClasses p l1) (allFunctions p l1), ?_, fun m => by rw [← filter_modules h1]; rfl⟩
  unfold addFile
  rw [if_pos hp, hf, addNodes_append, h3]
  dsimp only
  rw [addNodes]
  rcases hn with rfl | ⟨mark, parses, body, rfl⟩ <;> rw [addNode]

/-- **C149 fails** for comments that look like conditions: the first character of a string is not looked at, so that a condition that was commented out
(`"""#sys.version_info >= (3, 8)`) is in effect. -/
theorem no_colon_needed {p : Python} (file : Nat) (mark : Option Char) {e : Expr} {body : List (Node C F)} (he : Condition p e) (hh : Holds p e) (hb : Tidy p body)
    (h1 : OneModule (allFunctions p body)) (t : Specs C F) :
    ∀ m, (addFile p ⟨true, file, true, [.block mark (some e) true body]⟩ t).1.fn m = t.fn m ++ forModule file m (allFunctions p body) := by
  intro m
  obtain ⟨h2, r, h3, h4⟩ := eval_condition he
  obtain ⟨ms, h5, _⟩ := addNodes_tidy p file body t hb
  rw [h4.2 hh] at h3
  show (addNodes p file _ t).1.fn m = _
  rw [addNodes, addNode, if_pos h2, h3]
  simp only [if_true, h5, addNodes]
  rw [← filter_modules h1]
  rfl

/-- **C149 fails** for a comparison with a number: `sys.version_info >= 3` passes the check and is a `TypeError`, which ends the registration. -/
theorem number_condition_stops (p : Python) (file : Nat) (mark : Option Char) (op : Op) (ho : op ∈ [Op.lt, .le, .gt, .ge]) (n : Int) (parses : Bool) (body l : List (Node C F))
    (t : Specs C F) : addFile p ⟨true, file, true, .block mark (some (.compare (.attr (.name .sys) .versionInfo) [(op, .const (.int n))])) parses body :: l⟩ t = (t, .error .crash) := by
  show addNodes p file _ t = _
  rw [addNodes, addNode, if_pos (show okHeader (.compare (.attr (.name .sys) .versionInfo) [(op, .const (.int n))]) = true from rfl)]
  have : eval p (.compare (.attr (.name .sys) .versionInfo) [(op, .const (.int n))]) = .error .crash := by
    simp only [List.mem_cons, List.not_mem_nil, or_false] at ho
    rcases ho with rfl | rfl | rfl | rfl <;> rfl
  rw [this]

/-- **C149 fails** for a comparison with four numbers, the first three of which are the version: a number is compared with the string in `sys.version_info`. -/
theorem long_condition_stops (p : Python) (file : Nat) (mark : Option Char) (op : Op) (ho : op ∈ [Op.lt, .le, .gt, .ge]) (n : Int) (parses : Bool) (body l : List (Node C F))
    (t : Specs C F) : addFile p ⟨true, file, true, .block mark (some (.compare (.attr (.name .sys) .versionInfo)
      [(op, .tuple [.const (.int p.major), .const (.int p.minor), .const (.int p.micro), .const (.int n)])])) parses body :: l⟩ t = (t, .error .crash) := by
  show addNodes p file _ t = _
  rw [addNodes, addNode, if_pos (show okHeader (.compare (.attr (.name .sys) .versionInfo)
    [(op, .tuple [.const (.int p.major), .const (.int p.minor), .const (.int p.micro), .const (.int n)])]) = true from rfl)]
  have hc : ∀ (a : Nat) (A B : List Item), cmpTuple op (.num (a : Rat) :: A) (.num (((a : Int) : Rat)) :: B) = cmpTuple op A B := by
    intro a A B
    show (if Item.num (a : Rat) = Item.num (((a : Int) : Rat)) then _ else _) = _
    exact if_pos (congrArg Item.num rfl)
  have : eval p (.compare (.attr (.name .sys) .versionInfo) [(op, .tuple [.const (.int p.major), .const (.int p.minor), .const (.int p.micro), .const (.int n)])]) = .error .crash := by
    have h1 : eval p (.compare (.attr (.name .sys) .versionInfo) [(op, .tuple [.const (.int p.major), .const (.int p.minor), .const (.int p.micro), .const (.int n)])]) =
        chain p (.tuple (versionInfo p)) [(op, .tuple [.num ((p.major : Int) : Rat), .num ((p.minor : Int) : Rat), .num ((p.micro : Int) : Rat), .num (n : Rat)])] := rfl
    have h2 : cmpTuple op (versionInfo p) [.num ((p.major : Int) : Rat), .num ((p.minor : Int) : Rat), .num ((p.micro : Int) : Rat), .num (n : Rat)] = .error .crash := by
      unfold versionInfo
      rw [hc, hc, hc]
      simp only [List.mem_cons, List.not_mem_nil, or_false] at ho
      rcases ho with rfl | rfl | rfl | rfl <;> rfl
    rw [h1, chain]
    have h3 : cmp p op (.tuple (versionInfo p)) (.tuple [.num ((p.major : Int) : Rat), .num ((p.minor : Int) : Rat), .num ((p.micro : Int) : Rat), .num (n : Rat)]) = .error .crash := by
      rw [← h2]
      simp only [List.mem_cons, List.not_mem_nil, or_false] at ho
      rcases ho with rfl | rfl | rfl | rfl <;> rfl
    rw [h3]
  rw [this]

/-! ## C150 -/

variable [DecidableEq G]

/-- **C150, in part.** In every session with well-formed files, where files that are registered on their own are for modules that were not imported before, a function of an
imported module has the last annotation that was registered for it, and no other. Missing: files for imported modules, see `file_alone_inert`; files with errors, see
`bad_file_stops`; functions that several modules have. -/
theorem in_force_partial {p : Python} {exports : Nat → Nat → Option G} {hist : List (Act C (Option H))} (ht : AllTidy p hist) (hi : InTime p hist) {m x : Nat} {g : G}
    (hg : OnlyAt exports m x g) (hm : Imported m hist) (h : H) : (run p exports hist).byFn g = some h ↔ Final (stubs p m hist) x h := by
  classical
  rw [run_byFn hg ht hi, if_pos hm]
  exact compile_iff _ x h

/-- In every session, with any files, a function has an annotation only if its module was imported and a stub with its name that was registered asks for it. -/
theorem in_force_sound {p : Python} {exports : Nat → Nat → Option G} {hist : List (Act C (Option H))} {m x : Nat} {g : G} (hg : OnlyAt exports m x g) {h : H}
    (hf : (run p exports hist).byFn g = some h) : Imported m hist ∧ ∃ a ∈ hist, ∃ f ∈ filesOf a, ∃ s, Inside (.fn s) f.nodes ∧ s.body = some h ∧ About s x := by
  obtain ⟨h1, s, h2, h3, h4⟩ := run_asked hg hist h hf
  obtain ⟨a, ha, f, hfa, h5⟩ := run_grows hist m s h2
  exact ⟨(imported_iff p exports m hist).1 h1, a, ha, f, hfa, s, h5, h3, h4⟩

/-- **C150 fails** for files: registering a file puts nothing in force. -/
theorem file_alone_inert (p : Python) (exports : Nat → Nat → Option G) (hist : List (Act C (Option H))) (f : File C (Option H)) :
    (run p exports (.file f :: hist)).byFn = (run p exports hist).byFn := by
  rw [run, step]
  rcases addFile p f (run p exports hist).specs with ⟨t, x | ms⟩ <;> rfl

/-- So if the module has been imported, a first annotation that comes in a file of its own is not in force. -/
theorem file_too_late {p : Python} {exports : Nat → Nat → Option G} {hist : List (Act C (Option H))} {f : File C (Option H)} (ht : AllTidy p (.file f :: hist)) (hi : InTime p hist)
    {m x : Nat} {g : G} (hg : OnlyAt exports m x g) (hm : Imported m hist) {h : H} (hnew : Final (stubs p m (.file f :: hist)) x h) (hold : ∀ h', ¬Final (stubs p m hist) x h') :
    Final (stubs p m (.file f :: hist)) x h ∧ (run p exports (.file f :: hist)).byFn g = none := by
  refine ⟨hnew, ?_⟩
  rw [file_alone_inert]
  cases hb : (run p exports hist).byFn g with
  | none => rfl
  | some h' => exact absurd ((in_force_partial (fun a ha => ht a (List.mem_cons_of_mem _ ha)) hi hg hm h').1 hb) (hold h')

/-- A string of one line ends the registration of a file, whatever else is in it. -/
theorem line_stops (p : Python) (file : Nat) : ∀ (l : List (Node C F)) (t : Specs C F), .line ∈ l → ∃ t' x, addNodes p file l t = (t', .error x)
  | [], _, h => by cases h
  | n :: l, t, h => by
    rw [addNodes]
    rcases hr : addNode p file n t with ⟨t1, x | ms⟩
    · exact ⟨t1, x, rfl⟩
    · rcases List.mem_cons.1 h with rfl | h
      · rw [addNode] at hr; cases hr
      · obtain ⟨t', x, h'⟩ := line_stops p file l t1 h
        exact ⟨t', x, by simp only [h']⟩

/-- A file that cannot be registered ends the registration of its directory. -/
theorem bad_stops (p : Python) : ∀ (fs : List (File C F)) (t : Specs C F), (∃ f ∈ fs, f.pyi = true ∧ (f.parses = false ∨ .line ∈ f.nodes)) → ∃ t' x, addFiles p fs t = (t', .error x)
  | [], _, h => by obtain ⟨f, hf, _⟩ := h; cases hf
  | f :: fs, t, h => by
    rw [addFiles]
    by_cases hp : f.pyi = true
    · rw [if_pos hp]
      rcases hr : addFile p f t with ⟨t1, x | ms⟩
      · exact ⟨t1, x, rfl⟩
      · obtain ⟨f', hf', h1, h2⟩ := h
        rcases List.mem_cons.1 hf' with rfl | hf'
        · unfold addFile at hr
          rcases h2 with h2 | h2
          · rw [if_neg (by rw [h2]; exact Bool.false_ne_true)] at hr; cases hr
          · split at hr
            · obtain ⟨t', x, h'⟩ := line_stops p f'.name f'.nodes t h2
              rw [h'] at hr; cases hr
            · cases hr
        · obtain ⟨t', x, h'⟩ := bad_stops p fs t1 ⟨f', hf', h1, h2⟩
          exact ⟨t', x, by simp only [h']⟩
    · rw [if_neg hp]
      obtain ⟨f', hf', h1, h2⟩ := h
      rcases List.mem_cons.1 hf' with rfl | hf'
      · exact absurd h1 hp
      · exact bad_stops p fs t ⟨f', hf', h1, h2⟩

/-- **C150 fails** for directories with a file that has an error, or a string of one line: then none of the annotations in the directory is put in force. -/
theorem bad_file_stops (p : Python) (exports : Nat → Nat → Option G) (hist : List (Act C (Option H))) {fs : List (File C (Option H))} {f : File C (Option H)} (hf : f ∈ fs)
    (hp : f.pyi = true) (hb : f.parses = false ∨ .line ∈ f.nodes) : (run p exports (.dir fs :: hist)).byFn = (run p exports hist).byFn := by
  obtain ⟨t', x, h⟩ := bad_stops p fs (run p exports hist).specs ⟨f, hf, hp, hb⟩
  rw [run, step, h]

end Verif.StubFile
