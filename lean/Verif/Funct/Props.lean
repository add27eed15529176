import Verif.Funct.Spec

/-!
# C125: A function made from a slice gives what running the slice gives -/

namespace Verif.Funct

open Spec

theorem eval_has {g h : Nat → Option Val} : ∀ {e : Exp}, (∀ x, In x e → g x = h x) → ∀ v, eval g e = some v ↔ Has h e v
  | .none, _, v => by
    constructor
    · intro h; cases h; exact .none
    · intro h; cases h; rfl
  | .num z, _, v => by
    constructor
    · intro h; cases h; exact .num z
    · intro h; cases h; rfl
  | .var x, hx, v => by
    simp only [eval, hx x rfl]
    constructor
    · exact .var
    · intro h; cases h; assumption
  | .add a b, hx, v => by
    have ha := eval_has (e := a) (fun x h => hx x (.inl h))
    have hb := eval_has (e := b) (fun x h => hx x (.inr h))
    constructor
    · intro h
      simp only [eval] at h
      split at h
      · rename_i x y h1 h2
        cases h
        exact .add ((ha _).1 h1) ((hb _).1 h2)
      · cases h
    · intro h
      cases h with
      | add h1 h2 => simp only [eval, (ha _).2 h1, (hb _).2 h2]

theorem mem_reads (x : Nat) : ∀ e, x ∈ reads e ↔ In x e
  | .none => by simp [reads, In]
  | .num _ => by simp [reads, In]
  | .var y => by simp [reads, In]
  | .add a b => by simp [reads, In, mem_reads x a, mem_reads x b]

/-- The statements without `return`. -/
def plain : FStmt → Stmt
  | .stmt s => s
  | .ret e => .expr e

/-- `return` is at most the last statement, and every expression that is last is returned. -/
def Tidy : List FStmt → Prop
  | [] => True
  | [.ret _] => True
  | [.stmt (.expr _)] => False
  | .stmt _ :: l => Tidy l
  | .ret _ :: _ => False

theorem mem_live (x : Nat) : ∀ (k : List Nat) (b : List FStmt), x ∈ live k b ↔ x ∉ k ∧ Needs x (b.map plain)
  | k, [] => by simp [live, Needs]
  | k, .stmt (.assign y e) :: l => by
    simp only [live, List.mem_append, List.mem_filter, mem_reads, decide_eq_true_eq, mem_live x (y :: k) l, List.mem_cons, not_or, List.map_cons, plain, Needs]
    constructor
    · rintro (⟨h1, h2⟩ | ⟨⟨h1, h2⟩, h3⟩)
      · exact ⟨h2, .inl h1⟩
      · exact ⟨h2, .inr ⟨h1, h3⟩⟩
    · rintro ⟨h1, h2 | ⟨h2, h3⟩⟩
      · exact .inl ⟨h2, h1⟩
      · exact .inr ⟨⟨h2, h1⟩, h3⟩
  | k, .stmt (.expr e) :: l => by
    simp only [live, List.mem_append, List.mem_filter, mem_reads, decide_eq_true_eq, mem_live x k l, List.map_cons, plain, Needs]
    tauto
  | k, .ret e :: l => by
    simp only [live, List.mem_append, List.mem_filter, mem_reads, decide_eq_true_eq, mem_live x k l, List.map_cons, plain, Needs]
    tauto

theorem mem_assigned (x : Nat) : ∀ b : List FStmt, x ∈ assigned b ↔ ∃ e, FStmt.stmt (.assign x e) ∈ b
  | [] => by simp [assigned]
  | .stmt (.assign y e) :: l => by
    simp only [assigned, List.mem_cons, mem_assigned x l, FStmt.stmt.injEq, Stmt.assign.injEq]
    constructor
    · rintro (rfl | ⟨e', h⟩)
      · exact ⟨e, .inl ⟨rfl, rfl⟩⟩
      · exact ⟨e', .inr h⟩
    · rintro ⟨e', ⟨h, _⟩ | h⟩
      · exact .inl h
      · exact .inr ⟨e', h⟩
  | .stmt (.expr e) :: l => by simp [assigned, mem_assigned x l]
  | .ret e :: l => by simp [assigned, mem_assigned x l]

/-- Execution of the body and running of the statements. -/
theorem exec_runs {locals : List Nat} {g : List (Nat × Val)} : ∀ (b : List FStmt) (env : List (Nat × Val)) (h : Nat → Option Val), Tidy b →
    (∀ x, Needs x (b.map plain) → look locals g env x = h x) → (∀ x ∈ assigned b, x ∈ locals) → ∀ r, exec locals g b env = some r ↔ Runs h (b.map plain) r
  | [], env, h, _, _, _, r => by
    constructor
    · intro hr; cases hr; exact .done h
    · intro hr; cases hr; rfl
  | .ret e :: l, env, h, ht, hl, _, r => by
    cases l with
    | cons s l => exact ht.elim
    | nil =>
      have := eval_has (e := e) (fun x hx => hl x (.inl hx)) r
      simp only [exec, this, List.map_cons, List.map_nil, plain]
      constructor
      · exact .last
      · intro hr
        cases hr with
        | last hr => exact hr
  | .stmt (.expr e) :: l, env, h, ht, hl, ha, r => by
    cases l with
    | nil => exact ht.elim
    | cons s l =>
      have he := eval_has (e := e) (fun x hx => hl x (.inl hx))
      have ih := exec_runs (s :: l) env h ht (fun x hx => hl x (.inr hx)) ha r
      simp only [exec, List.map_cons, plain] at ih ⊢
      constructor
      · intro hr
        split at hr
        · cases hr
        · rename_i v hv
          exact .expr ((he v).1 hv) (ih.1 hr)
      · intro hr
        cases hr with
        | expr h1 h2 =>
          rw [(he _).2 h1]
          exact ih.2 h2
  | .stmt (.assign x e) :: l, env, h, ht, hl, ha, r => by
    have ht' : Tidy l := by cases l <;> exact ht
    have he := eval_has (e := e) (fun y hy => hl y (.inl hy))
    have ih := fun v => exec_runs (locals := locals) (g := g) l (Assoc.set env x v) (fun y => if y = x then some v else h y) ht' (by
      intro y hy
      by_cases hyx : y = x
      · subst hyx
        have : y ∈ locals := ha y (by simp [assigned])
        simp [look, this, Assoc.get_set_self]
      · rw [if_neg hyx, ← hl y (.inr ⟨hyx, hy⟩)]
        simp only [look, Assoc.get_set_ne _ _ hyx]) (fun y hy => ha y (by simp [assigned, hy])) r
    simp only [exec, List.map_cons, plain]
    constructor
    · intro hr
      split at hr
      · cases hr
      · rename_i v hv
        exact .assign ((he v).1 hv) ((ih v).1 hr)
    · intro hr
      cases hr with
      | assign h1 h2 =>
        rw [(he _).2 h1]
        exact (ih _).2 h2

theorem tidy_append : ∀ (l : List Stmt) (b : List FStmt), b ≠ [] → Tidy b → Tidy (l.map .stmt ++ b)
  | [], b, _, h => h
  | s :: l, b, hb, h => by
    have ih := tidy_append l b hb h
    rw [List.map_cons, List.cons_append]
    cases hl : l.map FStmt.stmt ++ b with
    | nil => simp at hl; exact absurd hl.2 hb
    | cons c m =>
      rw [hl] at ih
      cases s <;> exact ih

/-- The body of the function that is made from a neat slice. -/
theorem body_neat {ls : List Line} (h : Neat ls) : ∃ b, body ls = some b ∧ Tidy b ∧ b.map plain = ls.flatMap stmts := by
  have hmap : ∀ l : List Stmt, (l.map FStmt.stmt).map plain = l := fun l => by rw [List.map_map]; exact List.map_id l
  obtain ⟨init, s, rfl | ⟨x, e, rfl, rfl⟩⟩ := h
  · cases s with
    | assign x e =>
      refine ⟨(init.flatMap stmts).map .stmt ++ [.stmt (.assign x e)], by simp [body, lastLine, endsInExpr], tidy_append _ _ (by simp) (by simp [Tidy]), ?_⟩
      rw [List.map_append, hmap]
      simp [plain, stmts]
    | expr e =>
      refine ⟨(init.flatMap stmts).map .stmt ++ [.ret e], by simp [body, lastLine, endsInExpr, prefixed], tidy_append _ _ (by simp) (by simp [Tidy]), ?_⟩
      rw [List.map_append, hmap]
      simp [plain, stmts]
  · refine ⟨(init.flatMap stmts).map .stmt ++ [.stmt (.assign x e)], by simp [body, lastLine], tidy_append _ _ (by simp) (by simp [Tidy]), ?_⟩
    rw [List.map_append, hmap]
    simp [plain, stmts]

/-- The parameters, filled. -/
theorem fill_get {caller kw : List (Nat × Val)} (hkw : ∀ x, Assoc.get kw x ≠ some .none) : ∀ {ps : List Nat} {env : List (Nat × Val)}, fill caller kw ps = some env →
    ∀ x ∈ ps, Assoc.get env x = over caller kw x
  | [], _, _, x, hx => by simp at hx
  | p :: ps, env, h, x, hx => by
    simp only [fill] at h
    split at h
    · rename_i v env' hv he
      cases h
      simp only [Assoc.get]
      by_cases hpx : p = x
      · subst hpx
        rw [if_pos rfl, ← hv, over]
        cases hk : Assoc.get kw p with
        | none => rfl
        | some w =>
          cases w with
          | none => exact absurd hk (hkw p)
          | num z => rfl
      · rw [if_neg hpx]
        exact fill_get hkw he x ((List.mem_cons.1 hx).resolve_left (fun h => hpx h.symm))
    · cases h

theorem fill_none {caller kw : List (Nat × Val)} (hkw : ∀ x, Assoc.get kw x ≠ some .none) : ∀ {ps : List Nat}, fill caller kw ps = none → ∃ x ∈ ps, over caller kw x = none
  | [], h => by simp [fill] at h
  | p :: ps, h => by
    simp only [fill] at h
    split at h
    · cases h
    · rename_i hne
      cases hf : fill caller kw ps with
      | none =>
        obtain ⟨x, hx, hx'⟩ := fill_none hkw hf
        exact ⟨x, by simp [hx], hx'⟩
      | some env =>
        refine ⟨p, by simp, ?_⟩
        cases hk : Assoc.get kw p with
        | none =>
          cases hc : Assoc.get caller p with
          | none => simp [over, hk, hc]
          | some v => exact absurd hf (hne v env (by simp [hk, hc]))
        | some w =>
          cases w with
          | none => exact absurd hk (hkw p)
          | num z => exact absurd hf (hne (.num z) env (by simp [hk]))

/-- Without a value for something that is needed, there is an error. -/
theorem has_in {g : Nat → Option Val} {e : Exp} {v : Val} (h : Has g e v) : ∀ x, In x e → g x ≠ none := by
  induction h with
  | none => intro x hx; exact hx.elim
  | num z => intro x hx; exact hx.elim
  | var h => intro x hx; simp only [In] at hx; subst hx; rw [h]; simp
  | add _ _ i1 i2 =>
    intro x hx
    rcases hx with hx | hx
    · exact i1 x hx
    · exact i2 x hx

theorem runs_needs {g : Nat → Option Val} {l : List Stmt} {r : Val} (h : Runs g l r) : ∀ x, Needs x l → g x ≠ none := by
  induction h with
  | done => intro x hx; exact hx.elim
  | assign h _ ih =>
    intro x hx
    rcases hx with hx | ⟨hx, hx'⟩
    · exact has_in h x hx
    · have := ih x hx'
      simpa [hx] using this
  | last h =>
    intro x hx
    rcases hx with hx | hx
    · exact has_in h x hx
    · exact hx.elim
  | expr h _ ih =>
    intro x hx
    rcases hx with hx | hx
    · exact has_in h x hx
    · exact ih x hx

theorem parts_eq : parts = stmts := by
  funext l; cases l <;> rfl

theorem flatMap_stmts (ls : List Line) : ls.flatMap parts = ls.flatMap stmts := by rw [parts_eq]

/-- A call of the function from the notebook, with names and values other than `None`, gives what running the slice with these values gives, if the last line is one statement and no name that the
slice reads before assigning it is that of a builtin or of a module. What is missing: other last lines (`comment_last`, `two_last`, `assign_and_expr`, `wide_expr`, `continued`), `None` as an
argument (`none_passed`), names of modules (`module_name`), calls from elsewhere (`called_elsewhere`), arguments without names (`positional`). -/
theorem gives_partial (taken : Nat → Bool) (order : List Nat → List Nat) (ho : ∀ l x, x ∈ order l ↔ x ∈ l) (ls : List Line) (hn : Neat ls) (g kw : List (Nat × Val))
    (ht : ∀ x, NeedsAll x ls → Assigns x ls → taken x = false) (hk : ∀ x, Assoc.get kw x ≠ some .none) (hkn : ∀ x ∈ Assoc.keys kw, NeedsAll x ls ∧ taken x = false) :
    ∃ f, toFunction taken order ls = some f ∧ ∀ r, call f g g kw = some r ↔ RunsAll (over g kw) ls r := by
  obtain ⟨b, hb, htidy, hpl⟩ := body_neat hn
  refine ⟨_, by rw [toFunction, hb]; rfl, ?_⟩
  intro r
  have hneed : ∀ x, NeedsAll x ls ↔ Needs x (b.map plain) := by
    intro x; rw [NeedsAll, flatMap_stmts, hpl]
  have hpar : ∀ x, x ∈ order ((live [] b).dedup.filter fun x => !taken x) ↔ NeedsAll x ls ∧ taken x = false := by
    intro x
    rw [ho, List.mem_filter, List.mem_dedup, mem_live, hneed]
    simp
  have hass : ∀ x, x ∈ assigned b ↔ Assigns x ls := by
    intro x
    rw [mem_assigned]
    have h1 : (∃ e, FStmt.stmt (.assign x e) ∈ b) ↔ ∃ e, Stmt.assign x e ∈ b.map plain := by
      constructor
      · rintro ⟨e, he⟩; exact ⟨e, List.mem_map.2 ⟨_, he, rfl⟩⟩
      · rintro ⟨e, he⟩
        obtain ⟨s, hs, hse⟩ := List.mem_map.1 he
        cases s with
        | stmt s => simp only [plain] at hse; subst hse; exact ⟨e, hs⟩
        | ret e' => cases hse
    rw [h1, hpl]
    simp only [List.mem_flatMap, Assigns, parts_eq]
    constructor
    · rintro ⟨e, l, hl, he⟩; exact ⟨l, hl, e, he⟩
    · rintro ⟨l, hl, e, he⟩; exact ⟨e, l, hl, he⟩
  have hall : (Assoc.keys kw).all (· ∈ order ((live [] b).dedup.filter fun x => !taken x)) = true := by
    rw [List.all_eq_true]
    intro x hx
    rw [decide_eq_true_eq, hpar]
    exact hkn x hx
  simp only [call, hall, if_true, RunsAll, flatMap_stmts]
  rw [← hpl]
  cases hf : fill g kw (order ((live [] b).dedup.filter fun x => !taken x)) with
  | none =>
    simp only [Option.bind_none, reduceCtorEq, false_iff]
    intro hr
    obtain ⟨x, hx, hx'⟩ := fill_none hk hf
    exact runs_needs hr x ((hneed x).1 ((hpar x).1 hx).1) hx'
  | some env =>
    rw [Option.bind_some]
    refine exec_runs b env (over g kw) htidy ?_ ?_ r
    · intro x hx
      simp only [look, List.mem_append]
      by_cases hp : x ∈ order ((live [] b).dedup.filter fun x => !taken x)
      · rw [if_pos (.inl hp)]
        exact fill_get hk hf x hp
      · have htk : taken x = true := by
          by_contra hc
          exact hp ((hpar x).2 ⟨(hneed x).2 hx, by simpa using hc⟩)
        have hna : x ∉ assigned b := by
          intro ha
          rw [ht x ((hneed x).2 hx) ((hass x).1 ha)] at htk
          cases htk
        rw [if_neg (by simp [hp, hna]), over]
        have : Assoc.get kw x = none := by
          rw [Assoc.get_eq_none_iff]
          intro hx'
          rw [(hkn x hx').2] at htk
          cases htk
        rw [this]; rfl
    · intro x hx; simp [hx]

/-- `y = x + 1` and `y + z`, where `x` and `z` are needed; names 0, 1, 2. -/
def sample : List Line := [.simple [.assign 1 (.add (.var 0) (.num 1))], .simple [.expr (.add (.var 1) (.var 2))]]

example : ∃ f, toFunction (fun _ => false) id sample = some f ∧ ∀ r, call f [(0, .num 5), (2, .num 7)] [(0, .num 5), (2, .num 7)] [(0, .num 100)] = some r ↔
    RunsAll (over [(0, .num 5), (2, .num 7)] [(0, .num 100)]) sample r :=
  gives_partial _ id (fun _ _ => Iff.rfl) sample ⟨[.simple [.assign 1 (.add (.var 0) (.num 1))]], .expr (.add (.var 1) (.var 2)), .inl rfl⟩ _ _ (fun _ _ _ => rfl)
    (by intro x; simp only [Assoc.get]; split <;> simp) (by intro x hx; simp [Assoc.keys] at hx; subst hx; exact ⟨.inl (.inl rfl), rfl⟩)

example : (toFunction (fun _ => false) id sample).bind (fun f => call f [(0, .num 5), (2, .num 7)] [(0, .num 5), (2, .num 7)] [(0, .num 100)]) = some (.num 108) := by decide

/-- The parameters are the names that the slice reads before it assigns them, without those of builtins and modules. -/
theorem parameters (taken : Nat → Bool) (order : List Nat → List Nat) (ho : ∀ l x, x ∈ order l ↔ x ∈ l) (ls : List Line) (hn : Neat ls) :
    ∃ f, toFunction taken order ls = some f ∧ ∀ x, x ∈ f.params ↔ NeedsAll x ls ∧ taken x = false := by
  obtain ⟨b, hb, _, hpl⟩ := body_neat hn
  refine ⟨_, by rw [toFunction, hb]; rfl, ?_⟩
  intro x
  simp only
  rw [ho, List.mem_filter, List.mem_dedup, mem_live, NeedsAll, flatMap_stmts, hpl]
  simp

example : (toFunction (fun _ => false) id sample).map (·.params) = some [0, 2] := by decide

/-- A name which is not one of the variables needed cannot be given. -/
theorem no_such_name (taken : Nat → Bool) (order : List Nat → List Nat) (ho : ∀ l x, x ∈ order l ↔ x ∈ l) (ls : List Line)
    (hn : Neat ls) {f : Fn} (hf : toFunction taken order ls = some f) {kw : List (Nat × Val)} {x : Nat} {v : Val}
    (hx : (x, v) ∈ kw) (hno : ¬ (NeedsAll x ls ∧ taken x = false)) (caller g : List (Nat × Val)) :
    call f caller g kw = none := by
  obtain ⟨f', hf', h⟩ := parameters taken order ho ls hn
  rw [hf] at hf'
  obtain rfl := Option.some.inj hf'
  unfold call
  rw [if_neg]
  intro hall
  rw [List.all_eq_true] at hall
  have h1 := hall x (List.mem_map.2 ⟨_, hx, rfl⟩)
  rw [decide_eq_true_eq] at h1
  exact hno ((h x).1 h1)

example : (toFunction (fun _ => false) id sample).bind (fun f => call f [] [] [(0, .num 1), (2, .num 2), (7, .num 3)]) = none := by
  decide

end Verif.Funct
