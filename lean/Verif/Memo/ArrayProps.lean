import Verif.Memo.ArraySpec
import Verif.Memo.ValueProps

/-!
# Equal comparables mean equal values, with arrays -/

namespace Verif.Memo

variable {N : Type}

mutual
/-- The comparison function of a value. -/
def eqf : Val N → EqF
  | .list _ xs => seqEq (eqfs xs)
  | .tuple xs => seqEq (eqfs xs)
  | .dict _ _ xs => seqEq (eqfs xs)
  | .arr _ _ => .array
  | _ => .equal
/-- Elementwise. -/
def eqfs : List (Val N) → List EqF
  | [] => []
  | x :: xs => eqf x :: eqfs xs
end

mutual
/-- No array inside a set. -/
def setsFree : Val N → Bool
  | .list _ xs => setsFrees xs
  | .tuple xs => setsFrees xs
  | .set _ _ xs => arrayFrees xs
  | .dict _ _ xs => setsFrees xs
  | _ => true
/-- Elementwise. -/
def setsFrees : List (Val N) → Bool
  | [] => true
  | x :: xs => setsFree x && setsFrees xs
end

theorem seqEq_isEqual {fs : List EqF} (h : (seqEq fs).isEqual = true) : fs.all EqF.isEqual = true := by
  rw [seqEq] at h
  split at h
  · assumption
  · simp [EqF.isEqual] at h

mutual
theorem eqf_equal : ∀ v : Val N, setsFree v = true → (eqf v).isEqual = true → arrayFree v = true
  | .num _ _, _, _ => by simp [arrayFree]
  | .text _ _, _, _ => by simp [arrayFree]
  | .list _ xs, hs, h => by
    rw [eqf] at h; rw [setsFree] at hs; rw [arrayFree]; exact eqfs_equal xs hs (seqEq_isEqual h)
  | .tuple xs, hs, h => by
    rw [eqf] at h; rw [setsFree] at hs; rw [arrayFree]; exact eqfs_equal xs hs (seqEq_isEqual h)
  | .set _ _ xs, hs, _ => by rw [setsFree] at hs; rw [arrayFree]; exact hs
  | .dict _ _ xs, hs, h => by
    rw [eqf] at h; rw [setsFree] at hs; rw [arrayFree]; exact eqfs_equal xs hs (seqEq_isEqual h)
  | .arr _ _, _, h => by simp [eqf, EqF.isEqual] at h
  | .bare _ _, _, _ => by simp [arrayFree]
theorem eqfs_equal : ∀ xs : List (Val N), setsFrees xs = true → (eqfs xs).all EqF.isEqual = true → arrayFrees xs = true
  | [], _, _ => by rw [arrayFrees]
  | x :: xs, hs, h => by
    rw [setsFrees, Bool.and_eq_true] at hs
    rw [eqfs, List.all_cons, Bool.and_eq_true] at h
    rw [arrayFrees, eqf_equal x hs.1 h.1, eqfs_equal xs hs.2 h.2]
    rfl
end

theorem finishSet_all {r : Res (List (Comp N) × List EqF × Nat × List Nat)} {c f n s} (h : finishSet r = .ok (some (c, f, n, s))) :
    ∃ cs fs, r = .ok (some (cs, fs, n, s)) ∧ fs.all EqF.isEqual = true ∧ f = .equal := by
  obtain ⟨cs, fs, rfl, _, hf, _⟩ := finishSet_some h
  refine ⟨cs, fs, rfl, ?_, hf⟩
  simp only [finishSet] at h
  by_cases h1 : fs.all EqF.isEqual = true
  · exact h1
  · rw [if_neg h1] at h
    cases h

mutual
theorem comp_eqf (max : Nat) : ∀ (v : Val N) (seen : List Nat) {c f n s}, comp max v seen = .ok (some (c, f, n, s)) → f = eqf v ∧ setsFree v = true
  | .num _ v, seen, c, f, n, s, h => by
    simp only [comp, Except.ok.injEq, Option.some.injEq, Prod.mk.injEq] at h
    exact ⟨by rw [eqf]; exact h.2.1.symm; all_goals simp, by simp [setsFree]⟩
  | .text b t, seen, c, f, n, s, h => by
    simp only [comp, Except.ok.injEq, Option.some.injEq, Prod.mk.injEq] at h
    exact ⟨by rw [eqf]; exact h.2.1.symm; all_goals simp, by simp [setsFree]⟩
  | .list i xs, seen, c, f, n, s, h => by
    rw [comp] at h
    by_cases hi : i ∈ seen
    · rw [if_pos hi] at h
      cases h
    rw [if_neg hi] at h
    obtain ⟨cs, fs, hr, rfl, rfl⟩ := finishSeq_some h
    obtain ⟨rfl, hs⟩ := comps_eqf max xs 0 _ hr
    exact ⟨by rw [eqf], by rw [setsFree]; exact hs⟩
  | .tuple xs, seen, c, f, n, s, h => by
    rw [comp] at h
    obtain ⟨cs, fs, hr, rfl, rfl⟩ := finishSeq_some h
    obtain ⟨rfl, hs⟩ := comps_eqf max xs 0 _ hr
    exact ⟨by rw [eqf], by rw [setsFree]; exact hs⟩
  | .set i _ xs, seen, c, f, n, s, h => by
    rw [comp] at h
    by_cases hi : i ∈ seen
    · rw [if_pos hi] at h
      cases h
    rw [if_neg hi] at h
    obtain ⟨cs, fs, hr, ha, rfl⟩ := finishSet_all h
    obtain ⟨rfl, hs⟩ := comps_eqf max xs 0 _ hr
    exact ⟨by simp [eqf], by rw [setsFree]; exact eqfs_equal xs hs ha⟩
  | .dict i b xs, seen, c, f, n, s, h => by
    rw [comp] at h
    by_cases hi : i ∈ seen
    · rw [if_pos hi] at h
      cases h
    rw [if_neg hi] at h
    by_cases hb : b = true
    swap
    · rw [if_neg hb] at h
      cases h
    rw [if_pos hb] at h
    obtain ⟨cs, fs, hr, rfl, rfl⟩ := finishSeq_some h
    obtain ⟨rfl, hs⟩ := comps_eqf max xs 0 _ hr
    exact ⟨by rw [eqf], by rw [setsFree]; exact hs⟩
  | .arr i a, seen, c, f, n, s, h => by
    rw [comp] at h
    by_cases hi : i ∈ seen
    · rw [if_pos hi] at h
      cases h
    rw [if_neg hi] at h
    simp only [Except.ok.injEq, Option.some.injEq, Prod.mk.injEq] at h
    exact ⟨by rw [eqf]; exact h.2.1.symm, by simp [setsFree]⟩
  | .bare i a, seen, c, f, n, s, h => by
    rw [comp] at h
    cases h
theorem comps_eqf (max : Nat) : ∀ (xs : List (Val N)) (size : Nat) (seen : List Nat) {cs fs n s},
    comps max xs size seen = .ok (some (cs, fs, n, s)) → fs = eqfs xs ∧ setsFrees xs = true
  | [], size, seen, cs, fs, n, s, h => by
    simp only [comps, Except.ok.injEq, Option.some.injEq, Prod.mk.injEq] at h
    exact ⟨by rw [eqfs]; exact h.2.1.symm, by rw [setsFrees]⟩
  | x :: xs, size, seen, cs, fs, n, s, h => by
    rw [comps] at h
    split at h
    · cases h
    · cases h
    · rename_i c f m seen' hx
      obtain ⟨rfl, hs⟩ := comp_eqf max x seen hx
      by_cases hz : size + m + 1 > max
      · rw [if_pos hz] at h
        cases h
      rw [if_neg hz] at h
      obtain ⟨cs', fs', hr, rfl, rfl⟩ := consRes_some h
      obtain ⟨rfl, hs'⟩ := comps_eqf max xs _ _ hr
      exact ⟨by rw [eqfs], by rw [setsFrees, hs, hs']; rfl⟩
end

theorem comparable_eqf {max : Nat} {v : Val N} {c : Comp N} {f : EqF} (h : comparable max v = .ok (some (c, f))) : f = eqf v ∧ setsFree v = true := by
  unfold comparable at h
  split at h
  · cases h
  · cases h
  · rename_i c' f' size s hc
    by_cases hs : size > max
    · rw [if_pos hs] at h
      cases h
    rw [if_neg hs] at h
    injection h with h
    injection h with h
    injection h with h1 h2
    subst h1 h2
    exact comp_eqf max v [] hc

mutual
theorem eqf_free : ∀ v : Val N, arrayFree v = true → eqf v = .equal
  | .num _ _, _ => by simp [eqf]
  | .text _ _, _ => by simp [eqf]
  | .list _ xs, h => by rw [arrayFree] at h; rw [eqf, seqEq, if_pos (eqfs_free xs h)]
  | .tuple xs, h => by rw [arrayFree] at h; rw [eqf, seqEq, if_pos (eqfs_free xs h)]
  | .set _ _ _, _ => by simp [eqf]
  | .dict _ _ xs, h => by rw [arrayFree] at h; rw [eqf, seqEq, if_pos (eqfs_free xs h)]
  | .arr _ _, h => by simp [arrayFree] at h
  | .bare _ _, _ => by simp [eqf]
theorem eqfs_free : ∀ xs : List (Val N), arrayFrees xs = true → (eqfs xs).all EqF.isEqual = true
  | [], _ => by simp [eqfs]
  | x :: xs, h => by
    rw [arrayFrees, Bool.and_eq_true] at h
    rw [eqfs, List.all_cons, eqf_free x h.1, eqfs_free xs h.2]
    rfl
end

section
variable [DecidableEq N]

mutual
theorem shaped_free (now : Nat → List N) : ∀ v w : Val N, Shaped now v w = true → arrayFree v = true → arrayFree w = true ∧ sameKind v w = true
  | .list i xs, w, h, ha => by
    cases w with
    | list j ys =>
      rw [Shaped, Bool.or_eq_true, Bool.and_eq_true, Bool.and_eq_true] at h
      rw [arrayFree] at ha ⊢
      rcases h with ⟨⟨_, h2⟩, h3⟩ | h
      · exact ⟨h2, h3⟩
      · rw [sameKind]; exact shapes_free now xs ys h ha
    | _ => simp_all [Shaped]
  | .tuple xs, w, h, ha => by
    cases w with
    | tuple ys =>
      rw [Shaped, Bool.or_eq_true, Bool.and_eq_true, Bool.and_eq_true] at h
      rw [arrayFree] at ha ⊢
      rcases h with ⟨⟨_, h2⟩, h3⟩ | h
      · exact ⟨h2, h3⟩
      · rw [sameKind]; exact shapes_free now xs ys h ha
    | _ => simp_all [Shaped]
  | .dict i b xs, w, h, ha => by
    cases w with
    | dict j b' ys =>
      rw [Shaped, Bool.or_eq_true, Bool.and_eq_true, Bool.and_eq_true] at h
      rw [arrayFree] at ha ⊢
      rcases h with ⟨⟨_, h2⟩, h3⟩ | h
      · exact ⟨h2, h3⟩
      · rw [sameKind]; exact shapes_free now xs ys h ha
    | _ => simp_all [Shaped]
  | .arr _ _, _, _, ha => by simp [arrayFree] at ha
  | .num _ _, w, h, _ => by simpa [Shaped, arrayFree] using h
  | .text _ _, w, h, _ => by simpa [Shaped, arrayFree] using h
  | .set _ _ _, w, h, ha => by rw [arrayFree] at ha; simpa [Shaped, arrayFree, ha] using h
  | .bare _ _, w, h, _ => by simpa [Shaped, arrayFree] using h
theorem shapes_free (now : Nat → List N) : ∀ xs ys : List (Val N), Shapes now xs ys = true → arrayFrees xs = true → arrayFrees ys = true ∧ sameKinds xs ys = true
  | [], [], _, _ => by simp [arrayFrees, sameKinds]
  | [], _ :: _, h, _ => by simp [Shapes] at h
  | _ :: _, [], h, _ => by simp [Shapes] at h
  | x :: xs, y :: ys, h, ha => by
    rw [Shapes, Bool.and_eq_true] at h
    rw [arrayFrees, Bool.and_eq_true] at ha
    obtain ⟨h1, h2⟩ := shaped_free now x y h.1 ha.1
    obtain ⟨h3, h4⟩ := shapes_free now xs ys h.2 ha.2
    rw [arrayFrees, sameKinds, h1, h2, h3, h4]
    exact ⟨rfl, rfl⟩
end

/-- Without arrays: `erase_eq`. -/
theorem free_eq (now : Nat → List N) (other : Comp N → Comp N → Bool) {v w : Val N} (gv : good v = true) (gw : good w = true) (hs : Shaped now v w = true)
    (av : arrayFree v = true) (h : applyEq now other (eqf v) (erase v) (erase w) = true) : pyEq v w = true := by
  obtain ⟨aw, hk⟩ := shaped_free now v w hs av
  rw [eqf_free v av, applyEq] at h
  exact erase_eq other v w gv av gw aw hk h

theorem arrayEqual_len {a b : List N} (hl : a.length = b.length) : arrayEqual a b = (a == b) := by
  unfold arrayEqual
  rw [if_pos hl]

mutual
theorem shaped_eq (now : Nat → List N) (other : Comp N → Comp N → Bool) : ∀ v w : Val N, good v = true → setsFree v = true → good w = true → Shaped now v w = true →
    applyEq now other (eqf v) (erase v) (erase w) = true → pyEq v w = true
  | .list i xs, w, gv, sv, gw, hs, h => by
    by_cases av : arrayFree (.list i xs) = true
    · exact free_eq now other gv gw hs av h
    · have hne : ¬ (eqfs xs).all EqF.isEqual = true := fun hx => av (by rw [arrayFree]; rw [setsFree] at sv; exact eqfs_equal xs sv hx)
      cases w with
      | list j ys =>
        rw [Shaped, Bool.or_eq_true, Bool.and_eq_true, Bool.and_eq_true] at hs
        rw [arrayFree] at av
        rw [good] at gv gw
        rw [setsFree] at sv
        rw [eqf, seqEq, if_neg hne, erase, erase, applyEq] at h
        rw [pyEq]
        rcases hs with hs | hs
        · exact absurd hs.1.1 av
        · exact shapes_eq now other xs ys gv sv gw hs h
      | _ => simp_all [Shaped]
  | .tuple xs, w, gv, sv, gw, hs, h => by
    by_cases av : arrayFree (.tuple xs) = true
    · exact free_eq now other gv gw hs av h
    · have hne : ¬ (eqfs xs).all EqF.isEqual = true := fun hx => av (by rw [arrayFree]; rw [setsFree] at sv; exact eqfs_equal xs sv hx)
      cases w with
      | tuple ys =>
        rw [Shaped, Bool.or_eq_true, Bool.and_eq_true, Bool.and_eq_true] at hs
        rw [arrayFree] at av
        rw [good] at gv gw
        rw [setsFree] at sv
        rw [eqf, seqEq, if_neg hne, erase, erase, applyEq] at h
        rw [pyEq]
        rcases hs with hs | hs
        · exact absurd hs.1.1 av
        · exact shapes_eq now other xs ys gv sv gw hs h
      | _ => simp_all [Shaped]
  | .dict i b xs, w, gv, sv, gw, hs, h => by
    by_cases av : arrayFree (.dict i b xs) = true
    · exact free_eq now other gv gw hs av h
    · have hne : ¬ (eqfs xs).all EqF.isEqual = true := fun hx => av (by rw [arrayFree]; rw [setsFree] at sv; exact eqfs_equal xs sv hx)
      cases w with
      | dict j b' ys =>
        rw [Shaped, Bool.or_eq_true, Bool.and_eq_true, Bool.and_eq_true] at hs
        rw [arrayFree] at av
        rw [good] at gv gw
        rw [setsFree] at sv
        rw [eqf, seqEq, if_neg hne, erase, erase, applyEq] at h
        rw [pyEq, Bool.and_eq_true]
        rcases hs with hs | hs
        · exact absurd hs.1.1 av
        · have := shapes_eq now other xs ys gv sv gw hs h
          exact ⟨pySub_of_eqList xs ys ys this (fun _ h => h), pyAny_of_eqList xs ys this⟩
      | _ => simp_all [Shaped]
  | .arr i a, w, gv, sv, gw, hs, h => by
    cases w with
    | arr j b =>
      rw [Shaped, Bool.and_eq_true, Bool.and_eq_true, decide_eq_true_eq, decide_eq_true_eq, decide_eq_true_eq] at hs
      rw [eqf, erase, erase, applyEq, hs.1.2, hs.2, arrayEqual_len hs.1.1] at h
      rw [pyEq]
      exact h
    | _ => simp [Shaped, arrayFree] at hs
  | .num k x, w, gv, _, gw, hs, h => free_eq now other gv gw hs (by simp [arrayFree]) h
  | .text k x, w, gv, _, gw, hs, h => free_eq now other gv gw hs (by simp [arrayFree]) h
  | .set i b xs, w, gv, sv, gw, hs, h => free_eq now other gv gw hs (by rw [setsFree] at sv; rw [arrayFree]; exact sv) h
  | .bare _ _, _, gv, _, _, _, _ => by simp [good] at gv
theorem shapes_eq (now : Nat → List N) (other : Comp N → Comp N → Bool) : ∀ xs ys : List (Val N), goods xs = true → setsFrees xs = true → goods ys = true →
    Shapes now xs ys = true → applyEqs now other (eqfs xs) (erases xs) (erases ys) = true → pyEqList xs ys = true
  | [], [], _, _, _, _, _ => by rw [pyEqList]
  | [], _ :: _, _, _, _, h, _ => by simp [Shapes] at h
  | _ :: _, [], _, _, _, h, _ => by simp [Shapes] at h
  | x :: xs, y :: ys, gx, sx, gy, hs, h => by
    rw [goods, Bool.and_eq_true] at gx gy
    rw [setsFrees, Bool.and_eq_true] at sx
    rw [Shapes, Bool.and_eq_true] at hs
    rw [eqfs, erases, erases, applyEqs, Bool.and_eq_true] at h
    rw [pyEqList, Bool.and_eq_true]
    exact ⟨shaped_eq now other x y gx.1 sx.1 gy.1 hs.1 h.1, shapes_eq now other xs ys gx.2 sx.2 gy.2 hs.2 h.2⟩
end

/-- **C26, with arrays**: take two values whose containers stand against their own kind, where arrays stand against arrays of the same length in containers of the same lengths and still hold
what they held. If both have comparables, and the comparison function of the first says that they are equal, then the values are equal in Python. Missing: see `comparable_violated`. -/
theorem comparable_sound_arrays_partial (max : Nat) (now : Nat → List N) (other : Comp N → Comp N → Bool) (v w : Val N)
    {c d : Comp N} {f g : EqF} (hv : comparable max v = .ok (some (c, f))) (hw : comparable max w = .ok (some (d, g)))
    (hs : Shaped now v w = true) (h : applyEq now other f c d = true) : pyEq v w = true := by
  obtain ⟨rfl, gv, _⟩ := comparable_some hv
  obtain ⟨rfl, gw, _⟩ := comparable_some hw
  obtain ⟨rfl, sv⟩ := comparable_eqf hv
  exact shaped_eq now other v w gv sv gw hs h

end

/-- `[a, {1: b}, (2, {3})]` with arrays `a` and `b`. -/
def vArr : Val Nat := .list 1 [.arr 2 [7, 8], .dict 3 true [.tuple [.num 1 1, .arr 4 [9]]], .tuple [.num 1 2, .set 5 false [.num 1 3]]]

/-- The same with copies of the arrays. -/
def wArr : Val Nat := .list 11 [.arr 12 [7, 8], .dict 13 true [.tuple [.num 1 1, .arr 14 [9]]], .tuple [.num 2 2, .set 15 true [.num 1 3]]]

/-- What the arrays hold. -/
def nowEx (i : Nat) : List Nat := if i = 2 ∨ i = 12 then [7, 8] else [9]

example : ∃ c d f g, comparable 1000000 vArr = .ok (some (c, f)) ∧ comparable 1000000 wArr = .ok (some (d, g)) ∧ Shaped nowEx vArr wArr = true ∧
    applyEq nowEx (fun _ _ => false) f c d = true :=
  ⟨_, _, _, _, rfl, rfl, by decide, by decide⟩

/-- With another number in one of the arrays they are told apart. -/
example : ∃ c d f g, comparable 1000000 vArr = .ok (some (c, f)) ∧ comparable 1000000 wArr = .ok (some (d, g)) ∧
    applyEq (fun i => if i = 14 then [10] else nowEx i) (fun _ _ => false) f c d = false :=
  ⟨_, _, _, _, rfl, rfl, by decide⟩

end Verif.Memo
