import Verif.StubFile.Spec
import Mathlib.Data.List.Forall2
import Mathlib.Order.Defs.LinearOrder

/-!
# Files of annotations: conditions and registration
-/

namespace Verif.StubFile
open Annot (Stub Applies modulesOf namesFor)

variable {C F H G : Type}

/-! ## Conditions -/

theorem number_iff {e : Expr} {q : Rat} : number e = some q ↔ Number e q := by
  constructor
  · intro h
    cases e with
    | const c =>
      cases c with
      | int n => simp only [number, Option.some.injEq] at h; subst h; exact .int n
      | bool b => cases b <;> (simp only [number, Option.some.injEq] at h; subst h; constructor)
      | float q => simp only [number, Option.some.injEq] at h; subst h; exact .float q
      | other => simp [number] at h
    | _ => simp [number] at h
  · intro h
    cases h <;> simp [number]

theorem okElt_iff {e : Expr} : okElt e = true ↔ ∃ q, Number e q := by
  constructor
  · intro h
    cases e with
    | const c =>
      cases c with
      | int n => exact ⟨_, .int n⟩
      | bool b => cases b <;> exact ⟨_, by constructor⟩
      | float q => exact ⟨_, .float q⟩
      | other => simp [okElt] at h
    | _ => simp [okElt] at h
  · rintro ⟨q, h⟩
    cases h <;> rfl

theorem okSide_iff {e : Expr} : okSide e = true ↔ Harmless e := by
  constructor
  · intro h
    cases e with
    | const c =>
      cases c with
      | int n => exact .int n
      | _ => simp [okSide] at h
    | attr e a =>
      cases e with
      | name x =>
        cases x <;> cases a <;> first | exact .version | simp [okSide] at h
      | _ => simp [okSide] at h
    | tuple es =>
      refine .tuple fun e he => okElt_iff.1 ?_
      simp only [okSide, List.all_eq_true] at h
      exact h e he
    | _ => simp [okSide] at h
  · intro h
    cases h with
    | version => rfl
    | int n => rfl
    | tuple h =>
      simp only [okSide, List.all_eq_true]
      exact fun e he => okElt_iff.2 (h e he)

theorem mapM_number {es : List Expr} {qs : List Rat} (h : List.Forall₂ Number es qs) : es.mapM number = some qs := by
  induction h with
  | nil => rfl
  | cons h1 _ ih => rw [List.mapM_cons, number_iff.2 h1, ih]; rfl

theorem means_unique {p : Python} {e : Expr} {a b : List Rat} (h1 : Means p e a) (h2 : Means p e b) : a = b := by
  cases h1 with
  | version => cases h2; rfl
  | tuple h1 _ =>
    cases h2 with
    | tuple h2 _ => exact Option.some.inj ((mapM_number h1).symm.trans (mapM_number h2))

/-- How the two kinds of sides are represented. -/
def Repr (p : Python) (a : List Rat) (A : List Item) : Prop :=
  (a = [(p.major : Rat), p.minor, p.micro, 0] ∧ A = versionInfo p) ∨ (A = a.map .num ∧ a.length ≤ 3)

theorem value_of_means {p : Python} {e : Expr} {a : List Rat} (h : Means p e a) : ∃ A, value p e = some (.tuple A) ∧ Repr p a A := by
  cases h with
  | version => exact ⟨_, rfl, .inl ⟨rfl, rfl⟩⟩
  | tuple h1 h2 => exact ⟨a.map .num, by simp only [value, mapM_number h1]; rfl, .inr ⟨rfl, h2⟩⟩

theorem harmless_of_means {p : Python} {e : Expr} {a : List Rat} (h : Means p e a) : Harmless e := by
  cases h with
  | version => exact .version
  | tuple h1 _ =>
    refine .tuple fun e he => ?_
    induction h1 with
    | nil => cases he
    | cons h1 _ ih =>
      rcases List.mem_cons.1 he with rfl | he
      · exact ⟨_, h1⟩
      · exact ih (by simp only [List.length_cons] at *; omega) he

theorem cmpNum_rel {op : Op} (ho : Compares op) {x y : Rat} (hne : x ≠ y) (a b : List Rat) : cmpNum op x y = true ↔ Rel op (x :: a) (y :: b) := by
  simp only [Compares, List.mem_cons, List.not_mem_nil, or_false] at ho
  have h1 : (x ≤ y) ↔ x < y := ⟨fun h => lt_of_le_of_ne h hne, le_of_lt⟩
  have h2 : (y ≤ x) ↔ y < x := ⟨fun h => lt_of_le_of_ne h (Ne.symm hne), le_of_lt⟩
  rcases ho with rfl | rfl | rfl | rfl | rfl | rfl <;>
    simp [cmpNum, Rel, List.cons_lt_cons_iff, hne, Ne.symm hne, h1, h2]

theorem rel_cons {op : Op} (x : Rat) (a b : List Rat) : Rel op (x :: a) (x :: b) ↔ Rel op a b := by
  cases op <;> simp [Rel]

theorem cmpNum_len {op : Op} (ho : Compares op) : (∀ n : Nat, cmpNum op ((n + 1 : Nat) : Rat) ((0 : Nat) : Rat) = true ↔ op = .gt ∨ op = .ge ∨ op = .ne) ∧
    (∀ n : Nat, cmpNum op ((0 : Nat) : Rat) ((n + 1 : Nat) : Rat) = true ↔ op = .lt ∨ op = .le ∨ op = .ne) ∧
    (cmpNum op ((0 : Nat) : Rat) ((0 : Nat) : Rat) = true ↔ op = .le ∨ op = .ge ∨ op = .eq) := by
  have hp : ∀ n : Nat, (0 : Rat) < ((n + 1 : Nat) : Rat) := fun n => by exact_mod_cast Nat.succ_pos n
  have hz : ((0 : Nat) : Rat) = 0 := rfl
  simp only [Compares, List.mem_cons, List.not_mem_nil, or_false] at ho
  refine ⟨fun n => ?_, fun n => ?_, ?_⟩
  · have := hp n
    have h2 := this.le
    have h3 := this.not_ge
    have h4 := this.not_gt
    have h5 := this.ne'
    rw [hz]
    rcases ho with rfl | rfl | rfl | rfl | rfl | rfl <;> simp only [cmpNum, decide_eq_true_eq] <;> simp_all
  · have := hp n
    have h2 := this.le
    have h3 := this.not_ge
    have h4 := this.not_gt
    have h5 := this.ne
    rw [hz]
    rcases ho with rfl | rfl | rfl | rfl | rfl | rfl <;> simp only [cmpNum, decide_eq_true_eq] <;> simp_all
  · rcases ho with rfl | rfl | rfl | rfl | rfl | rfl <;> simp [cmpNum]

theorem cmpTuple_num {op : Op} (ho : Compares op) : ∀ a b : List Rat, ∃ r, cmpTuple op (a.map .num) (b.map .num) = .ok r ∧ (r = true ↔ Rel op a b)
  | [], [] => by
    refine ⟨_, rfl, (cmpNum_len ho).2.2.trans ?_⟩
    simp only [Compares, List.mem_cons, List.not_mem_nil, or_false] at ho
    rcases ho with rfl | rfl | rfl | rfl | rfl | rfl <;> simp [Rel]
  | x :: a, [] => by
    refine ⟨_, rfl, ((cmpNum_len ho).1 _).trans ?_⟩
    simp only [Compares, List.mem_cons, List.not_mem_nil, or_false] at ho
    rcases ho with rfl | rfl | rfl | rfl | rfl | rfl <;> simp [Rel]
  | [], y :: b => by
    refine ⟨_, rfl, ((cmpNum_len ho).2.1 _).trans ?_⟩
    simp only [Compares, List.mem_cons, List.not_mem_nil, or_false] at ho
    rcases ho with rfl | rfl | rfl | rfl | rfl | rfl <;> simp [Rel]
  | x :: a, y :: b => by
    by_cases hxy : x = y
    · subst hxy
      obtain ⟨r, h1, h2⟩ := cmpTuple_num ho a b
      refine ⟨r, ?_, h2.trans (rel_cons x a b).symm⟩
      show (if Item.num x = Item.num x then _ else _) = _
      rw [if_pos rfl]
      exact h1
    · refine ⟨cmpNum op x y, ?_, cmpNum_rel ho hxy a b⟩
      show (if Item.num x = Item.num y then _ else _) = _
      rw [if_neg (by simpa using hxy)]
      simp only [Compares, List.mem_cons, List.not_mem_nil, or_false] at ho
      rcases ho with rfl | rfl | rfl | rfl | rfl | rfl <;> simp [cmpNum, hxy]

/-- What comes after a list does not matter if the other one is not longer. -/
theorem cmpTuple_left {op : Op} (ho : Compares op) (i : Item) (I : List Item) : ∀ (a b : List Rat), b.length ≤ a.length →
    cmpTuple op (a.map .num ++ i :: I) (b.map .num) = cmpTuple op ((a ++ [0]).map .num) (b.map .num)
  | [], [], _ => by
    show Except.ok _ = Except.ok _
    congr 1
    rw [Bool.eq_iff_iff]
    exact ((cmpNum_len ho).1 _).trans ((cmpNum_len ho).1 _).symm
  | [], y :: b, h => by simp at h
  | x :: a, [], _ => by
    show Except.ok _ = Except.ok _
    congr 1
    rw [Bool.eq_iff_iff]
    exact ((cmpNum_len ho).1 _).trans ((cmpNum_len ho).1 _).symm
  | x :: a, y :: b, h => by
    show (if Item.num x = Item.num y then _ else _) = (if Item.num x = Item.num y then _ else _)
    by_cases hxy : Item.num x = Item.num y
    · rw [if_pos hxy, if_pos hxy]
      exact cmpTuple_left ho i I a b (by simpa using h)
    · rw [if_neg hxy, if_neg hxy]

theorem cmpTuple_right {op : Op} (ho : Compares op) (i : Item) (I : List Item) : ∀ (a b : List Rat), b.length ≤ a.length →
    cmpTuple op (b.map .num) (a.map .num ++ i :: I) = cmpTuple op (b.map .num) ((a ++ [0]).map .num)
  | [], [], _ => by
    show Except.ok _ = Except.ok _
    congr 1
    rw [Bool.eq_iff_iff]
    exact ((cmpNum_len ho).2.1 _).trans ((cmpNum_len ho).2.1 _).symm
  | [], y :: b, h => by simp at h
  | x :: a, [], _ => by
    show Except.ok _ = Except.ok _
    congr 1
    rw [Bool.eq_iff_iff]
    exact ((cmpNum_len ho).2.1 _).trans ((cmpNum_len ho).2.1 _).symm
  | x :: a, y :: b, h => by
    show (if Item.num y = Item.num x then _ else _) = (if Item.num y = Item.num x then _ else _)
    by_cases hxy : Item.num y = Item.num x
    · rw [if_pos hxy, if_pos hxy]
      exact cmpTuple_right ho i I a b (by simpa using h)
    · rw [if_neg hxy, if_neg hxy]

theorem cmpTuple_same {op : Op} (ho : Compares op) (A : List Item) : ∃ r, cmpTuple op A A = .ok r ∧ (r = true ↔ op = .le ∨ op = .ge ∨ op = .eq) := by
  induction A with
  | nil => exact ⟨_, rfl, (cmpNum_len ho).2.2⟩
  | cons x A ih =>
    obtain ⟨r, h1, h2⟩ := ih
    refine ⟨r, ?_, h2⟩
    show (if x = x then _ else _) = _
    rw [if_pos rfl]
    exact h1

theorem cmpTuple_repr {p : Python} {op : Op} (ho : Compares op) {a b : List Rat} {A B : List Item} (ha : Repr p a A) (hb : Repr p b B) :
    ∃ r, cmpTuple op A B = .ok r ∧ (r = true ↔ Rel op a b) := by
  rcases ha with ⟨rfl, rfl⟩ | ⟨rfl, ha⟩ <;> rcases hb with ⟨rfl, rfl⟩ | ⟨rfl, hb⟩
  · obtain ⟨r, h1, h2⟩ := cmpTuple_same ho (versionInfo p)
    refine ⟨r, h1, h2.trans ?_⟩
    simp only [Compares, List.mem_cons, List.not_mem_nil, or_false] at ho
    rcases ho with rfl | rfl | rfl | rfl | rfl | rfl <;> simp [Rel]
  · have := cmpTuple_left ho .level [.num p.serial] [(p.major : Rat), p.minor, p.micro] b hb
    obtain ⟨r, h1, h2⟩ := cmpTuple_num ho [(p.major : Rat), p.minor, p.micro, 0] b
    exact ⟨r, this.trans h1, h2⟩
  · have := cmpTuple_right ho .level [.num p.serial] [(p.major : Rat), p.minor, p.micro] a ha
    obtain ⟨r, h1, h2⟩ := cmpTuple_num ho a [(p.major : Rat), p.minor, p.micro, 0]
    exact ⟨r, this.trans h1, h2⟩
  · exact cmpTuple_num ho a b

theorem cmp_repr {p : Python} {op : Op} (ho : Compares op) {a b : List Rat} {A B : List Item} (ha : Repr p a A) (hb : Repr p b B) :
    ∃ r, cmp p op (.tuple A) (.tuple B) = .ok r ∧ (r = true ↔ Rel op a b) := by
  obtain ⟨r, h1, h2⟩ := cmpTuple_repr ho ha hb
  refine ⟨r, ?_, h2⟩
  rw [← h1]
  simp only [Compares, List.mem_cons, List.not_mem_nil, or_false] at ho
  rcases ho with rfl | rfl | rfl | rfl | rfl | rfl <;> rfl

theorem chain_holds {p : Python} : ∀ {l : Expr} {a A} (cs : List (Op × Expr)), Means p l a → Repr p a A → (∀ c ∈ cs, Compares c.1 ∧ ∃ b, Means p c.2 b) →
    ∃ bs, (cs.mapM fun c => (value p c.2).map fun v => (c.1, v)) = some bs ∧ ∃ r, chain p (.tuple A) bs = .ok r ∧ (r = true ↔ AllHold p l cs)
  | l, a, A, [], _, _, _ => ⟨[], rfl, true, rfl, by simp [AllHold.nil]⟩
  | l, a, A, (op, r) :: cs, hl, hA, hc => by
    obtain ⟨ho, b, hb⟩ := hc (op, r) (List.mem_cons_self ..)
    obtain ⟨B, hv, hB⟩ := value_of_means hb
    obtain ⟨bs, h1, r', h2, h3⟩ := chain_holds cs hb hB fun c hc' => hc c (List.mem_cons_of_mem _ hc')
    obtain ⟨r0, h4, h5⟩ := cmp_repr ho hA hB
    refine ⟨(op, .tuple B) :: bs, ?_, ?_⟩
    · rw [List.mapM_cons, h1]
      simp only [hv]
      rfl
    · cases r0 with
      | false =>
        refine ⟨false, ?_, ?_⟩
        · show (match cmp p op (.tuple A) (.tuple B) with | .error e => _ | .ok false => _ | .ok true => _) = _
          rw [h4]
        · simp only [Bool.false_eq_true, false_iff] at h5 ⊢
          intro h
          cases h with
          | cons g1 g2 g3 _ =>
            rw [means_unique g1 hl, means_unique g2 hb] at g3
            exact h5 g3
      | true =>
        refine ⟨r', ?_, h3.trans ⟨fun h => .cons hl hb (h5.1 rfl) h, fun h => ?_⟩⟩
        · show (match cmp p op (.tuple A) (.tuple B) with | .error e => _ | .ok false => _ | .ok true => _) = _
          rw [h4]
          exact h2
        · cases h with
          | cons _ _ _ h => exact h

theorem eval_condition {p : Python} {e : Expr} (h : Condition p e) : okHeader e = true ∧ ∃ r, eval p e = .ok r ∧ (r = true ↔ Holds p e) := by
  cases h with
  | @compare l cs a hl hc =>
    constructor
    · simp only [okHeader, Bool.and_eq_true, List.all_eq_true]
      exact ⟨okSide_iff.2 (harmless_of_means hl), fun c h => okSide_iff.2 (harmless_of_means (hc c h).2.choose_spec)⟩
    · obtain ⟨A, hv, hA⟩ := value_of_means hl
      obtain ⟨bs, h1, r, h2, h3⟩ := chain_holds cs hl hA hc
      refine ⟨r, ?_, h3⟩
      simp only [eval, hv, h1]
      exact h2

/-! ## Registration -/

/-- Tables with further stubs. -/
def Specs.plus (t : Specs C F) (file : Nat) (cs : List (Stub C)) (fs : List (Stub F)) : Specs C F where
  cls := fun m => t.cls m ++ cs.filter fun s => decide (m ∈ modulesOf file s)
  fn := fun m => t.fn m ++ fs.filter fun s => decide (m ∈ modulesOf file s)

theorem plus_nil (t : Specs C F) (file : Nat) : t.plus file [] [] = t := by
  obtain ⟨c, f⟩ := t
  simp [Specs.plus]

theorem plus_plus (t : Specs C F) (file : Nat) (c1 c2 : List (Stub C)) (f1 f2 : List (Stub F)) :
    (t.plus file c1 f1).plus file c2 f2 = t.plus file (c1 ++ c2) (f1 ++ f2) := by
  simp [Specs.plus, List.filter_append]

theorem plus_cls (t : Specs C F) (file : Nat) (s : Stub C) : { t with cls := addTo t.cls (modulesOf file s) s } = t.plus file [s] [] := by
  simp only [Specs.plus, List.filter_nil, List.append_nil, Specs.mk.injEq, and_true]
  funext m
  by_cases h : m ∈ modulesOf file s <;> simp [addTo, h]

theorem plus_fn (t : Specs C F) (file : Nat) (s : Stub F) : { t with fn := addTo t.fn (modulesOf file s) s } = t.plus file [] [s] := by
  simp only [Specs.plus, List.filter_nil, List.append_nil, Specs.mk.injEq, true_and]
  funext m
  by_cases h : m ∈ modulesOf file s <;> simp [addTo, h]

mutual
theorem addNode_tidy (p : Python) (file : Nat) : ∀ (n : Node C F) (t : Specs C F), TidyNode p n →
    ∃ ms, addNode p file n t = (t.plus file (classesOf p n) (functionsOf p n), .ok ms) ∧ ∀ s ∈ functionsOf p n, ∀ m ∈ modulesOf file s, m ∈ ms
  | .cls s, t, _ => ⟨_, by rw [addNode, classesOf, functionsOf, plus_cls]; all_goals simp, by rw [functionsOf]; all_goals simp⟩
  | .fn s, t, _ => ⟨modulesOf file s, by rw [addNode, classesOf, functionsOf, plus_fn]; all_goals simp, by
      rw [functionsOf]; intro s' hs m hm; rw [List.mem_singleton.1 hs] at hm; exact hm⟩
  | .line, t, h => by rw [TidyNode] at h; exact h.elim
  | .expr, t, _ => ⟨[file], by rw [addNode, classesOf, functionsOf, plus_nil]; all_goals simp, by rw [functionsOf]; all_goals simp⟩
  | .other, t, _ => ⟨[], by rw [addNode, classesOf, functionsOf, plus_nil]; all_goals simp, by rw [functionsOf]; all_goals simp⟩
  | .block mark header parses body, t, h => by
    rw [TidyNode] at h
    rcases h with ⟨rfl, ⟨e, rfl, he⟩, rfl, hb⟩ | hr
    case inr =>
      obtain ⟨e, rfl, h1, h2⟩ : ∃ e, header = some e ∧ okHeader e = false ∧ ¬Holds p e := by
        rcases header with _ | e
        · exact hr.elim
        · refine ⟨e, rfl, ?_⟩
          cases e <;> first | exact hr.elim | exact ⟨rfl, fun h => h⟩
      have hn : ¬(mark = some ':' ∧ ∃ e', some e = some e' ∧ Holds p e') := fun ⟨_, e', h, h'⟩ => h2 (by rw [Option.some.inj h]; exact h')
      refine ⟨[file], ?_, ?_⟩
      · rw [addNode, if_neg (by rw [h1]; simp), classesOf, functionsOf, if_neg hn, if_neg hn, plus_nil]
      · rw [functionsOf, if_neg hn]; simp
    obtain ⟨h1, r, h2, h3⟩ := eval_condition he
    have hif : (some ':' = some ':' ∧ ∃ e', some e = some e' ∧ Holds p e') ↔ Holds p e :=
      ⟨fun ⟨_, e', h, h'⟩ => by rw [Option.some.inj h]; exact h', fun h => ⟨rfl, e, rfl, h⟩⟩
    cases r with
    | false =>
      have hn : ¬Holds p e := fun h => by have := h3.2 h; cases this
      refine ⟨[file], ?_, ?_⟩
      · rw [addNode, if_pos h1, h2, classesOf, functionsOf, if_neg fun h => hn (hif.1 h), if_neg fun h => hn (hif.1 h), plus_nil]
      · rw [functionsOf, if_neg fun h => hn (hif.1 h)]; simp
    | true =>
      have hn : Holds p e := h3.1 rfl
      obtain ⟨ms, h4, h5⟩ := addNodes_tidy p file body t hb
      refine ⟨file :: ms, ?_, ?_⟩
      · rw [addNode, if_pos h1, h2, classesOf, functionsOf, if_pos (hif.2 hn), if_pos (hif.2 hn)]
        simp only [if_true, h4]
      · rw [functionsOf, if_pos (hif.2 hn)]
        exact fun s hs m hm => List.mem_cons_of_mem _ (h5 s hs m hm)

theorem addNodes_tidy (p : Python) (file : Nat) : ∀ (l : List (Node C F)) (t : Specs C F), Tidy p l →
    ∃ ms, addNodes p file l t = (t.plus file (allClasses p l) (allFunctions p l), .ok ms) ∧ ∀ s ∈ allFunctions p l, ∀ m ∈ modulesOf file s, m ∈ ms
  | [], t, _ => ⟨[], by rw [addNodes, allClasses, allFunctions, plus_nil], by rw [allFunctions]; simp⟩
  | n :: l, t, h => by
    rw [Tidy] at h
    obtain ⟨ms, h1, h2⟩ := addNode_tidy p file n t h.1
    obtain ⟨ms', h3, h4⟩ := addNodes_tidy p file l (t.plus file (classesOf p n) (functionsOf p n)) h.2
    refine ⟨ms ++ ms', ?_, ?_⟩
    · rw [addNodes, h1]
      simp only [h3]
      rw [plus_plus, allClasses, allFunctions]
    · intro s hs m hm
      rw [allFunctions] at hs
      rcases List.mem_append.1 hs with hs | hs
      · exact List.mem_append_left _ (h2 s hs m hm)
      · exact List.mem_append_right _ (h4 s hs m hm)
end

theorem filter_modules {B : Type} {l : List (Stub B)} (h : OneModule l) (file m : Nat) : (l.filter fun s => decide (m ∈ modulesOf file s)) = forModule file m l := by
  unfold forModule
  apply List.filter_congr
  intro s hs
  have := Annot.mem_modulesOf (file := file) (fun args ha => h s hs args ha) m
  by_cases ha : Applies file s m <;> simp [ha, this]

/-! ## Registration in general -/

theorem inside_mono {n : Node C F} {l l' : List (Node C F)} (h : ∀ x ∈ l, x ∈ l') (hi : Inside n l) : Inside n l' := by
  cases hi with
  | here hm => exact .here (h _ hm)
  | block hm h1 h2 h3 => exact .block (h _ hm) h1 h2 h3

theorem mem_addTo {B : Type} {t : Nat → List (Stub B)} {ms : List Nat} {s s' : Stub B} {m : Nat} (h : s' ∈ addTo t ms s m) : s' ∈ t m ∨ s' = s := by
  unfold addTo at h
  split at h
  · rcases List.mem_append.1 h with h | h
    · exact .inl h
    · exact .inr (List.mem_singleton.1 h)
  · exact .inl h

theorem harmless_of_ok {e : Expr} (h : okHeader e = true) : ∃ l cs, e = .compare l cs ∧ Harmless l ∧ ∀ c ∈ cs, Harmless c.2 := by
  cases e with
  | compare l cs =>
    simp only [okHeader, Bool.and_eq_true, List.all_eq_true] at h
    exact ⟨l, cs, rfl, okSide_iff.1 h.1, fun c hc => okSide_iff.1 (h.2 c hc)⟩
  | _ => simp [okHeader] at h

/-- Nothing comes into the tables that does not stand in the file, and nothing is removed. -/
def Grows (l : List (Node C F)) (t t' : Specs C F) : Prop :=
  (∀ m, ∀ s ∈ t'.cls m, s ∈ t.cls m ∨ Inside (.cls s) l) ∧ (∀ m, ∀ s ∈ t'.fn m, s ∈ t.fn m ∨ Inside (.fn s) l) ∧ ∀ m, ∀ s ∈ t.fn m, s ∈ t'.fn m

theorem grows_refl (l : List (Node C F)) (t : Specs C F) : Grows l t t := ⟨fun _ _ h => .inl h, fun _ _ h => .inl h, fun _ _ h => h⟩

theorem grows_mono {l l' : List (Node C F)} (h : ∀ x ∈ l, x ∈ l') {t t' : Specs C F} (hg : Grows l t t') : Grows l' t t' :=
  ⟨fun m s hs => (hg.1 m s hs).imp_right (inside_mono h), fun m s hs => (hg.2.1 m s hs).imp_right (inside_mono h), hg.2.2⟩

theorem grows_trans {l : List (Node C F)} {t t1 t2 : Specs C F} (h1 : Grows l t t1) (h2 : Grows l t1 t2) : Grows l t t2 :=
  ⟨fun m s hs => (h2.1 m s hs).elim (h1.1 m s) .inr, fun m s hs => (h2.2.1 m s hs).elim (h1.2.1 m s) .inr, fun m s hs => h2.2.2 m s (h1.2.2 m s hs)⟩

mutual
theorem addNode_grows (p : Python) (file : Nat) : ∀ (n : Node C F) (t : Specs C F), Grows [n] t (addNode p file n t).1
  | .cls s, t => by
    rw [addNode]
    exact ⟨fun m s' hs => (mem_addTo hs).imp_right fun h => .here (by rw [h]; simp), fun m s' hs => .inl hs, fun m s' hs => hs⟩
  | .fn s, t => by
    rw [addNode]
    exact ⟨fun m s' hs => .inl hs, fun m s' hs => (mem_addTo hs).imp_right fun h => .here (by rw [h]; simp), fun m s' hs => by
      show s' ∈ addTo t.fn (modulesOf file s) s m
      unfold addTo
      split
      · exact List.mem_append_left _ hs
      · exact hs⟩
  | .line, t => by rw [addNode]; exact grows_refl _ _
  | .expr, t => by rw [addNode]; exact grows_refl _ _
  | .other, t => by rw [addNode]; exact grows_refl _ _
  | .block mark none parses body, t => by rw [addNode]; exact grows_refl _ _
  | .block mark (some e) parses body, t => by
    rw [addNode]
    have ih := addNodes_grows p file body t
    by_cases ho : okHeader e = true
    · rw [if_pos ho]
      rcases eval p e with x | _ | _
      · exact grows_refl _ _
      · exact grows_refl _ _
      · cases parses with
        | false => exact grows_refl _ _
        | true =>
          simp only [if_true]
          obtain ⟨l, cs, rfl, h1, h2⟩ := harmless_of_ok ho
          have hg : Grows [.block mark (some (.compare l cs)) true body] t (addNodes p file body t).1 :=
            ⟨fun m s hs => (ih.1 m s hs).imp_right (.block (List.mem_singleton.2 rfl) h1 h2), fun m s hs => (ih.2.1 m s hs).imp_right (.block (List.mem_singleton.2 rfl) h1 h2), ih.2.2⟩
          rcases hr : addNodes p file body t with ⟨t', x | ms⟩ <;> (rw [hr] at hg; exact hg)
    · rw [if_neg ho]; exact grows_refl _ _

theorem addNodes_grows (p : Python) (file : Nat) : ∀ (l : List (Node C F)) (t : Specs C F), Grows l t (addNodes p file l t).1
  | [], t => by rw [addNodes]; exact grows_refl _ _
  | n :: l, t => by
    rw [addNodes]
    have h1 := addNode_grows p file n t
    rcases hr : addNode p file n t with ⟨t1, x | ms⟩
    · rw [hr] at h1
      exact grows_mono (by simp) h1
    · rw [hr] at h1
      have h2 := addNodes_grows p file l t1
      simp only
      rcases hr' : addNodes p file l t1 with ⟨t2, x | ms'⟩ <;>
        (rw [hr'] at h2; exact grows_trans (grows_mono (by simp) h1) (grows_mono (fun x hx => List.mem_cons_of_mem _ hx) h2))
end

theorem value_some {e : Expr} (h : Harmless e) (p : Python) : ∃ v, value p e = some v := by
  cases h with
  | version => exact ⟨_, rfl⟩
  | int n => exact ⟨_, rfl⟩
  | @tuple es h =>
    have : ∃ qs, es.mapM number = some qs := by
      induction es with
      | nil => exact ⟨[], rfl⟩
      | cons e es ih =>
        obtain ⟨qs, hq⟩ := ih fun e he => h e (List.mem_cons_of_mem _ he)
        obtain ⟨q, hq'⟩ := h e (List.mem_cons_self ..)
        exact ⟨q :: qs, by rw [List.mapM_cons, number_iff.2 hq', hq]; rfl⟩
    obtain ⟨qs, hq⟩ := this
    exact ⟨.tuple (qs.map .num), by simp only [value, hq]; rfl⟩

theorem mapM_value_some {cs : List (Op × Expr)} (h : ∀ c ∈ cs, Harmless c.2) (p : Python) :
    ∃ bs, (cs.mapM fun c => (value p c.2).map fun v => (c.1, v)) = some bs := by
  induction cs with
  | nil => exact ⟨[], rfl⟩
  | cons c cs ih =>
    obtain ⟨bs, hb⟩ := ih fun c hc => h c (List.mem_cons_of_mem _ hc)
    obtain ⟨v, hv⟩ := value_some (h c (List.mem_cons_self ..)) p
    exact ⟨(c.1, v) :: bs, by rw [List.mapM_cons, hb]; simp only [hv]; rfl⟩

/-- The same interpreter with another idea of what other expressions give. -/
def Python.with (p : Python) (o : Expr → Except Err Bool) : Python := { p with other := o }

theorem chain_with (p : Python) (o : Expr → Except Err Bool) : ∀ (bs : List (Op × Value)) (a : Value), chain (p.with o) a bs = chain p a bs
  | [], _ => rfl
  | (op, b) :: bs, a => by
    rw [chain, chain]
    have h : cmp (p.with o) op a b = cmp p op a b := rfl
    rw [h]
    rcases cmp p op a b with x | _ | _
    · rfl
    · rfl
    · exact chain_with p o bs b

theorem eval_with {e : Expr} (h : okHeader e = true) (p : Python) (o : Expr → Except Err Bool) : eval (p.with o) e = eval p e := by
  obtain ⟨l, cs, rfl, h1, h2⟩ := harmless_of_ok h
  obtain ⟨a, ha⟩ := value_some h1 p
  obtain ⟨bs, hb⟩ := mapM_value_some h2 p
  have ha' : value (p.with o) l = some a := ha
  have hb' : (cs.mapM fun c => (value (p.with o) c.2).map fun v => (c.1, v)) = some bs := hb
  simp only [eval, ha, hb, ha', hb']
  exact chain_with p o bs a

mutual
theorem addNode_with (p : Python) (o : Expr → Except Err Bool) (file : Nat) : ∀ (n : Node C F) (t : Specs C F), addNode (p.with o) file n t = addNode p file n t
  | .cls s, t => by rw [addNode, addNode]
  | .fn s, t => by rw [addNode, addNode]
  | .line, t => by rw [addNode, addNode]
  | .expr, t => by rw [addNode, addNode]
  | .other, t => by rw [addNode, addNode]
  | .block mark none parses body, t => by rw [addNode, addNode]
  | .block mark (some e) parses body, t => by
    rw [addNode, addNode, addNodes_with p o file body t]
    by_cases ho : okHeader e = true
    · rw [if_pos ho, if_pos ho, eval_with ho]
    · rw [if_neg ho, if_neg ho]

theorem addNodes_with (p : Python) (o : Expr → Except Err Bool) (file : Nat) : ∀ (l : List (Node C F)) (t : Specs C F), addNodes (p.with o) file l t = addNodes p file l t
  | [], t => by rw [addNodes, addNodes]
  | n :: l, t => by
    rw [addNodes, addNodes, addNode_with p o file n t]
    rcases addNode p file n t with ⟨t1, x | ms⟩
    · rfl
    · simp only
      rw [addNodes_with p o file l t1]
end

/-- Statements one after the other. -/
theorem addNodes_append (p : Python) (file : Nat) : ∀ (l1 l2 : List (Node C F)) (t : Specs C F), addNodes p file (l1 ++ l2) t =
    match addNodes p file l1 t with
    | (t, .error x) => (t, .error x)
    | (t, .ok ms) => match addNodes p file l2 t with
      | (t, .error x) => (t, .error x)
      | (t, .ok ms') => (t, .ok (ms ++ ms'))
  | [], l2, t => by
    rw [addNodes, List.nil_append]
    dsimp only
    rcases addNodes p file l2 t with ⟨t1, x | ms⟩ <;> rfl
  | n :: l1, l2, t => by
    rw [List.cons_append, addNodes, addNodes]
    rcases addNode p file n t with ⟨t1, x | ms⟩
    · rfl
    · simp only
      rw [addNodes_append p file l1 l2 t1]
      rcases addNodes p file l1 t1 with ⟨t2, x | ms'⟩
      · rfl
      · simp only
        rcases addNodes p file l2 t2 with ⟨t3, x | ms''⟩
        · rfl
        · simp

end Verif.StubFile
