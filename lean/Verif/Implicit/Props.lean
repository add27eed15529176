import Verif.Implicit.Lemmas

/-!
# Functions that run without being called in the text: proofs

C175. A value depends on what the functions read that made it, if functions run only by calls, by the last attribute or subscript of a chain, and by the attributes and subscripts
of a chain that is an argument, and if none of them ran before in the cell (`reads_partial`); also if an operation runs a function after an attribute has been read (`late_found`).

It is false otherwise (`reads_claim_false`): what a property reads is lost if another attribute follows (`inner_lost`), if the property stands in brackets (`index_lost`) or in an
operation within an argument (`operand_lost`); what an operation on variables reads is always lost (`operation_lost`), what a function reads is lost if an attribute of its
result is read (`result_lost`), and everything is lost that a function reads that ran before in the cell (`again_lost`).
-/

namespace Verif.Implicit

variable {S : Type}

/-- A value depends on what the functions read that made it. -/
theorem reads_partial (done : List Nat) (e : Exp S) (hg : Good .top e) (hf : Fresh done e) : ∀ f ∈ fns e, ∀ x ∈ f.reads, x ∈ (assign done e).1 := by
  intro f hm x hx
  exact mem_resolve _ e x ((good_eval hg (start done) rfl hf.1 hf.2).2.2 f hm x hx)

/-- What a property reads is lost if another attribute follows. -/
theorem inner_lost (done : List Nat) (m n : Nat) (own own' : List S) (e : Exp S) (f : Fn S) (hp : Plain e) (hn : n ≠ m) :
    ∀ x ∈ (assign done (.attr m own (.attr n own' e (some f)) none)).1, Named (.attr m own (.attr n own' e (some f)) none) x := by
  refine assign_named _ _ fun x hx => ?_
  obtain ⟨p1, p2, _⟩ := plain_eval e (start done) hp
  have h0 : (eval (start done) (.attr m own (.attr n own' e (some f)) none)).loaded m = [] := by
    show (ran (before (eval (start done) e) n e) (some f)).loaded m = []
    refine ran_other _ f m (by simp [before, plain_noCall hp, p1]; rfl) ?_
    rw [target_nil (s := before (eval (start done) e) n e) p2]
    exact fun h => hn (Option.some.inj h)
  simp only [visit, Exp.isCall, Bool.false_eq_true, if_false, List.nil_append, h0, List.append_nil] at hx
  exact .attr hx

/-- What a property reads is lost if it stands in brackets. -/
theorem index_lost (done : List Nat) (m n : Nat) (own own' : List S) (e i : Exp S) (f : Fn S) (he : Plain e) (hp : Plain i) (hn : n ≠ m) :
    ∀ x ∈ (assign done (.sub m own e (.attr n own' i (some f)) none)).1, Named (.sub m own e (.attr n own' i (some f)) none) x := by
  refine assign_named _ _ fun x hx => ?_
  obtain ⟨q1, q2, _⟩ := plain_eval e (start done) he
  obtain ⟨p1, p2, _⟩ := plain_eval i (eval (start done) e) hp
  have h0 : (eval (start done) (.sub m own e (.attr n own' i (some f)) none)).loaded m = [] := by
    have : (eval (start done) (.sub m own e (.attr n own' i (some f)) none)).loaded = (ran (before (eval (eval (start done) e) i) n i) (some f)).loaded := by
      simp [eval, before, plain_noCall he, ran]
    rw [this]
    refine ran_other _ f m (by simp [before, plain_noCall hp, p1, q1]; rfl) ?_
    rw [target_nil (s := before (eval (eval (start done) e) i) n i) (p2.trans q2)]
    exact fun h => hn (Option.some.inj h)
  simp only [visit, plain_noCall he, quiet, plain_noCall hp, Bool.false_eq_true, if_false, List.nil_append, h0, List.append_nil] at hx
  exact .sub hx

/-- What an operation on variables and literals reads is lost. -/
theorem operation_lost (done : List Nat) (n : Nat) (a b : Exp S) (f : Fn S) (ha : Bare a) (hb : Bare b) :
    ∀ x ∈ (assign done (.bin n a b (some f))).1, Named (.bin n a b (some f)) x := by
  refine assign_named _ _ fun x hx => ?_
  simp only [visit, List.mem_append] at hx
  exact hx.elim (fun h => .left (bare_visit _ a ha x h)) fun h => .right (bare_visit _ b hb x h)

/-- What an operation on variables and literals reads is lost also if an attribute of its result is read. -/
theorem before_lost (done : List Nat) (m n : Nat) (own : List S) (a b : Exp S) (f : Fn S) (ha : Bare a) (hb : Bare b) :
    ∀ x ∈ (assign done (.attr m own (.bin n a b (some f)) none)).1, Named (.attr m own (.bin n a b (some f)) none) x := by
  refine assign_named _ _ fun x hx => ?_
  have h0 : (eval (start done) (.attr m own (.bin n a b (some f)) none)).loaded m = [] := by
    show (ran (eval (eval (start done) a) b) (some f)).loaded m = []
    obtain ⟨p1, p2, _⟩ := plain_eval a (start done) (bare_plain a ha)
    obtain ⟨q1, q2, _⟩ := plain_eval b (eval (start done) a) (bare_plain b hb)
    refine ran_other _ f m (by rw [q1, p1]; rfl) ?_
    rw [target_nil (s := eval (eval (start done) a) b) (by rw [q2, p2]; rfl), bare_prev b _ hb, bare_prev a _ ha]
    exact fun h => nomatch h
  simp only [visit, Exp.isCall, h0] at hx
  exact .attr (by simpa using hx)

/-- What an operation reads is found if an attribute of a variable is the first operand. -/
theorem late_found (done : List Nat) (n m : Nat) (own : List S) (e b : Exp S) (f : Fn S) (he : Plain e) (hb : Bare b) (hf : f.id ∉ done) :
    ∀ x ∈ f.reads, x ∈ (assign done (.bin n (.attr m own e none) b (some f))).1 := by
  intro x hx
  refine mem_resolve _ _ x ?_
  simp only [visit, List.mem_append]
  refine .inl (.inr ?_)
  obtain ⟨q1, q2, q3⟩ := plain_eval b (eval (start done) (.attr m own e none)) (bare_plain b hb)
  obtain ⟨r1, r2, r3⟩ := plain_eval (.attr m own e none) (start done) ⟨he, rfl⟩
  refine ran_found _ f m ?_ ?_ x hx
  · rw [q3, r3]
    exact hf
  · rw [target_nil (q2.trans r2), bare_prev b _ hb]
    rfl

/-- What a property reads is lost in an operation within an argument. -/
theorem operand_lost (done : List Nat) (n k m g : Nat) (own : List S) (y : S) (e b : Exp S) (f : Fn S) (he : Plain e) (hb : Bare b)
    (hk : k ≠ n) (hm : k ≠ m) :
    ∀ x ∈ (assign done (.call n (.name g y) (.cons (.bin k (.attr m own e (some f)) b none) .nil) none)).1,
      Named (.call n (.name g y) (.cons (.bin k (.attr m own e (some f)) b none) .nil) none) x := by
  refine assign_named _ _ fun x hx => ?_
  let s1 : St S := { start done with prev := some n, stack := [⟨n, [k], 0⟩] }
  obtain ⟨p1, p2, p3⟩ := plain_eval e s1 he
  let s2 : St S := ran (before (eval s1 e) m e) (some f)
  obtain ⟨q1, q2, q3⟩ := plain_eval b s2 (bare_plain b hb)
  have hbs : (before (eval s1 e) m e).stack = [⟨n, [k], 0⟩] := p2
  have hbl : (before (eval s1 e) m e).loaded = fun _ => [] := by simp [before, plain_noCall he, p1]; rfl
  have h2 : ∀ i, i ≠ k → s2.loaded i = [] := by
    intro i hi
    show (ran (before (eval s1 e) m e) (some f)).loaded i = []
    simp only [ran]
    split
    · rw [hbl]
    · simp [target, hbs, attach, hi, hbl]
  have hl : (eval (start done) (.call n (.name g y) (.cons (.bin k (.attr m own e (some f)) b none) .nil) none)).loaded = s2.loaded := by
    show (counted (eval s2 b)).loaded = s2.loaded
    unfold counted
    split <;> exact q1
  rw [hl] at hx
  simp only [visit, Exp.isPart, Bool.false_eq_true, if_false, List.nil_append, List.append_nil, plain_noCall he, h2 n (Ne.symm hk), h2 m (Ne.symm hm),
    List.mem_append, List.mem_singleton] at hx
  rcases hx with rfl | hx | hx
  · exact .func .name
  · exact .args (.head (.left (.attr hx)))
  · exact .args (.head (.right (bare_visit _ b hb x hx)))

/-- What a function reads is lost if an attribute of its result is read. -/
theorem result_lost (done : List Nat) (m n g : Nat) (own : List S) (y : S) (f : Fn S) :
    ∀ x ∈ (assign done (.attr m own (.call n (.name g y) .nil (some f)) none)).1, Named (.attr m own (.call n (.name g y) .nil (some f)) none) x := by
  refine assign_named _ _ fun x hx => ?_
  have h0 : ∀ i, (eval (start done) (.attr m own (.call n (.name g y) .nil (some f)) none)).loaded i = [] := by
    intro i
    let s1 : St S := { start done with prev := some n, stack := [⟨n, [], 0⟩] }
    show (if i = n then [] else (ran s1 (some f)).loaded i) = []
    by_cases hi : i = n
    · rw [if_pos hi]
    · rw [if_neg hi]
      exact ran_other s1 f i rfl fun h => hi (Option.some.inj h).symm
  simp only [visit, Exp.isCall, Exp.isPart, Bool.false_eq_true, if_false, if_true, List.nil_append, List.append_nil, h0, List.mem_append, List.mem_singleton] at hx
  rcases hx with rfl | hx
  · exact .attrOf (.func .name)
  · exact .attr hx

/-- What a function reads that ran before in the cell is lost. -/
theorem again_lost (done : List Nat) (n : Nat) (own : List S) (e : Exp S) (f : Fn S) (hp : Plain e) (hf : f.id ∈ done) :
    ∀ x ∈ (assign done (.attr n own e (some f))).1, Named (.attr n own e (some f)) x := by
  refine assign_named _ _ fun x hx => ?_
  obtain ⟨p1, _, p3⟩ := plain_eval e (start done) hp
  have h0 : (eval (start done) (.attr n own e (some f))).loaded n = [] := by
    have hd : f.id ∈ (before (eval (start done) e) n e).done := by
      show f.id ∈ (eval (start done) e).done
      rw [p3]
      exact hf
    simp only [eval, ran, if_pos hd]
    simp [before, plain_noCall hp, p1]
    rfl
  simp only [visit, plain_noCall hp, Bool.false_eq_true, if_false, List.nil_append, h0, List.append_nil] at hx
  exact .attr hx

end Verif.Implicit
