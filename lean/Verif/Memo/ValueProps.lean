import Verif.Memo.Value

/-! # Comparables tell different values apart (C26)

`C26` holds for values without arrays whose lists, tuples and dictionaries stand against their own kind
(`comparable_sound_partial`); `comparable_violated` has the excluded points. -/

namespace Verif.Memo
open Verif
variable {N : Type}

mutual
/-- The comparable a value has if it has one. -/
def erase : Val N → Comp N
  | .num _ v => .num v
  | .text b s => .text b s
  | .list _ xs => .list (erases xs)
  | .tuple xs => .list (erases xs)
  | .set _ _ xs => .fset (erases xs)
  | .dict _ _ xs => .list (erases xs)
  | .arr i _ => .arr i
  | .bare i _ => .arr i
/-- Elementwise. -/
def erases : List (Val N) → List (Comp N)
  | [] => []
  | x :: xs => erase x :: erases xs
end

mutual
/-- No bare value inside, and elements of sets are no lists, tuples or dictionaries. -/
def good : Val N → Bool
  | .list _ xs => goods xs
  | .tuple xs => goods xs
  | .set _ _ xs => goods xs && !(erases xs).any Comp.isList
  | .dict _ _ xs => goods xs
  | .bare _ _ => false
  | _ => true
/-- Elementwise. -/
def goods : List (Val N) → Bool
  | [] => true
  | x :: xs => good x && goods xs
end

theorem finishSeq_some {r : Res (List (Comp N) × List EqF × Nat × List Nat)} {c f n s}
    (h : finishSeq r = .ok (some (c, f, n, s))) :
    ∃ cs fs, r = .ok (some (cs, fs, n, s)) ∧ c = .list cs ∧ f = seqEq fs := by
  rcases r with e | _ | ⟨cs, fs, n', s'⟩ <;> simp only [finishSeq] at h
  · cases h
  · cases h
  · injection h with h
    injection h with h
    injection h with h1 h
    injection h with h2 h
    injection h with h3 h4
    exact ⟨cs, fs, by rw [h3, h4], h1.symm, h2.symm⟩

theorem finishSet_some {r : Res (List (Comp N) × List EqF × Nat × List Nat)} {c f n s}
    (h : finishSet r = .ok (some (c, f, n, s))) :
    ∃ cs fs, r = .ok (some (cs, fs, n, s)) ∧ c = .fset cs ∧ f = .equal ∧ cs.any Comp.isList = false := by
  rcases r with e | _ | ⟨cs, fs, n', s'⟩ <;> simp only [finishSet] at h
  · cases h
  · cases h
  · by_cases h1 : fs.all EqF.isEqual = true
    swap
    · rw [if_neg h1] at h
      cases h
    rw [if_pos h1] at h
    by_cases h2 : cs.any Comp.isList = true
    · rw [if_pos h2] at h
      cases h
    have hl := h2
    rw [if_neg h2] at h
    injection h with h
    injection h with h
    injection h with h1 h
    injection h with h2 h
    injection h with h3 h4
    exact ⟨cs, fs, by rw [h3, h4], h1.symm, h2.symm, Bool.eq_false_iff.2 hl⟩

theorem consRes_some {c : Comp N} {f : EqF} {r : Res (List (Comp N) × List EqF × Nat × List Nat)} {cs fs n s}
    (h : consRes c f r = .ok (some (cs, fs, n, s))) :
    ∃ cs' fs', r = .ok (some (cs', fs', n, s)) ∧ cs = c :: cs' ∧ fs = f :: fs' := by
  rcases r with e | _ | ⟨cs', fs', n', s'⟩ <;> simp only [consRes] at h
  · cases h
  · cases h
  · injection h with h
    injection h with h
    injection h with h1 h
    injection h with h2 h
    injection h with h3 h4
    exact ⟨cs', fs', by rw [h3, h4], h1.symm, h2.symm⟩

mutual
theorem comp_some (max : Nat) : ∀ (v : Val N) (seen : List Nat) {c f n s},
    comp max v seen = .ok (some (c, f, n, s)) → c = erase v ∧ good v = true ∧ (arrayFree v = true → f = .equal)
  | .num _ v, seen, c, f, n, s, h => by
    simp only [comp, Except.ok.injEq, Option.some.injEq, Prod.mk.injEq] at h
    exact ⟨by rw [erase]; exact h.1.symm, by simp [good], fun _ => h.2.1.symm⟩
  | .text b t, seen, c, f, n, s, h => by
    simp only [comp, Except.ok.injEq, Option.some.injEq, Prod.mk.injEq] at h
    exact ⟨by rw [erase]; exact h.1.symm, by simp [good], fun _ => h.2.1.symm⟩
  | .list i xs, seen, c, f, n, s, h => by
    rw [comp] at h
    by_cases hi : i ∈ seen
    · rw [if_pos hi] at h
      cases h
    rw [if_neg hi] at h
    obtain ⟨cs, fs, hr, rfl, rfl⟩ := finishSeq_some h
    obtain ⟨rfl, hg, hf⟩ := comps_some max xs 0 _ hr
    exact ⟨by rw [erase], by rw [good]; exact hg, fun ha => by
      rw [arrayFree] at ha
      rw [seqEq, if_pos (hf ha)]⟩
  | .tuple xs, seen, c, f, n, s, h => by
    rw [comp] at h
    obtain ⟨cs, fs, hr, rfl, rfl⟩ := finishSeq_some h
    obtain ⟨rfl, hg, hf⟩ := comps_some max xs 0 _ hr
    exact ⟨by rw [erase], by rw [good]; exact hg, fun ha => by
      rw [arrayFree] at ha
      rw [seqEq, if_pos (hf ha)]⟩
  | .set i _ xs, seen, c, f, n, s, h => by
    rw [comp] at h
    by_cases hi : i ∈ seen
    · rw [if_pos hi] at h
      cases h
    rw [if_neg hi] at h
    obtain ⟨cs, fs, hr, rfl, rfl, hl⟩ := finishSet_some h
    obtain ⟨rfl, hg, hf⟩ := comps_some max xs 0 _ hr
    exact ⟨by rw [erase], by rw [good, hg, hl]; rfl, fun _ => rfl⟩
  | .dict i b xs, seen, c, f, n, s, h => by
    rw [comp] at h
    by_cases hi : i ∈ seen
    · rw [if_pos hi] at h
      cases h
    rw [if_neg hi] at h
    by_cases hb : b = true
    swap
    · rw [if_neg hb] at h
      cases h
    rw [if_pos hb] at h
    obtain ⟨cs, fs, hr, rfl, rfl⟩ := finishSeq_some h
    obtain ⟨rfl, hg, hf⟩ := comps_some max xs 0 _ hr
    exact ⟨by rw [erase], by rw [good]; exact hg, fun ha => by
      rw [arrayFree] at ha
      rw [seqEq, if_pos (hf ha)]⟩
  | .arr i a, seen, c, f, n, s, h => by
    rw [comp] at h
    by_cases hi : i ∈ seen
    · rw [if_pos hi] at h
      cases h
    rw [if_neg hi] at h
    simp only [Except.ok.injEq, Option.some.injEq, Prod.mk.injEq] at h
    exact ⟨by rw [erase]; exact h.1.symm, by simp [good], fun ha => by simp [arrayFree] at ha⟩
  | .bare i a, seen, c, f, n, s, h => by
    rw [comp] at h
    cases h
theorem comps_some (max : Nat) : ∀ (xs : List (Val N)) (size : Nat) (seen : List Nat) {cs fs n s},
    comps max xs size seen = .ok (some (cs, fs, n, s)) →
      cs = erases xs ∧ goods xs = true ∧ (arrayFrees xs = true → fs.all EqF.isEqual = true)
  | [], size, seen, cs, fs, n, s, h => by
    simp only [comps, Except.ok.injEq, Option.some.injEq, Prod.mk.injEq] at h
    exact ⟨by rw [erases]; exact h.1.symm, by rw [goods], fun _ => by rw [← h.2.1]; rfl⟩
  | x :: xs, size, seen, cs, fs, n, s, h => by
    rw [comps] at h
    split at h
    · cases h
    · cases h
    · rename_i c f m seen' hx
      obtain ⟨rfl, hg, hf⟩ := comp_some max x seen hx
      by_cases hs : size + m + 1 > max
      · rw [if_pos hs] at h
        cases h
      rw [if_neg hs] at h
      obtain ⟨cs', fs', hr, rfl, rfl⟩ := consRes_some h
      obtain ⟨rfl, hg', hf'⟩ := comps_some max xs _ _ hr
      refine ⟨by rw [erases], by rw [goods, hg, hg']; rfl, fun ha => ?_⟩
      rw [arrayFrees, Bool.and_eq_true] at ha
      rw [List.all_cons, hf ha.1, hf' ha.2]
      rfl
end

theorem comparable_some {max : Nat} {v : Val N} {c : Comp N} {f : EqF} (h : comparable max v = .ok (some (c, f))) :
    c = erase v ∧ good v = true ∧ (arrayFree v = true → f = .equal) := by
  unfold comparable at h
  split at h
  · cases h
  · cases h
  · rename_i c' f' size s hc
    by_cases hs : size > max
    · rw [if_pos hs] at h
      cases h
    rw [if_neg hs] at h
    injection h with h
    injection h with h
    injection h with h1 h2
    subst h1 h2
    exact comp_some max v [] hc

section
variable [DecidableEq N]

omit [DecidableEq N] in
theorem isList_erase {v : Val N} : (erase v).isList = false →
    (∃ k x, v = .num k x) ∨ (∃ b s, v = .text b s) ∨ (∃ i b xs, v = .set i b xs) ∨ (∃ i a, v = .arr i a) ∨
      ∃ i a, v = .bare i a := by
  intro h
  cases v <;> simp_all [erase, Comp.isList]

/-! Elements of sets: no list among their comparables at any depth, so equal comparables mean equal values. -/

mutual
theorem flat_eq (other : Comp N → Comp N → Bool) : ∀ (v w : Val N), (erase v).isList = false → good v = true →
    arrayFree v = true → (erase w).isList = false → good w = true → arrayFree w = true →
    compEq other (erase v) (erase w) = true → pyEq v w = true
  | .num _ v, w, _, _, _, hw, gw, aw, h => by
    rcases isList_erase hw with ⟨k, x, rfl⟩ | ⟨b, s, rfl⟩ | ⟨i, b, xs, rfl⟩ | ⟨i, a, rfl⟩ | ⟨i, a, rfl⟩
    · simpa [erase, compEq, pyEq] using h
    · simp [erase, compEq] at h
    · simp [erase, compEq] at h
    · simp [arrayFree] at aw
    · simp [good] at gw
  | .text _ v, w, _, _, _, hw, gw, aw, h => by
    rcases isList_erase hw with ⟨k, x, rfl⟩ | ⟨b, s, rfl⟩ | ⟨i, b, xs, rfl⟩ | ⟨i, a, rfl⟩ | ⟨i, a, rfl⟩
    · simp [erase, compEq] at h
    · simpa [erase, compEq, pyEq] using h
    · simp [erase, compEq] at h
    · simp [arrayFree] at aw
    · simp [good] at gw
  | .set i b xs, w, _, gv, av, hw, gw, aw, h => by
    rcases isList_erase hw with ⟨k, x, rfl⟩ | ⟨b, s, rfl⟩ | ⟨i, b, ys, rfl⟩ | ⟨i, a, rfl⟩ | ⟨i, a, rfl⟩
    · simp [erase, compEq] at h
    · simp [erase, compEq] at h
    · rw [erase, erase, compEq, Bool.and_eq_true] at h
      rw [good, Bool.and_eq_true, Bool.not_eq_true'] at gv gw
      rw [arrayFree] at av aw
      rw [pyEq, Bool.and_eq_true]
      exact ⟨flat_sub other xs ys gv.2 gv.1 av gw.2 gw.1 aw h.1, flat_all other xs ys gv.2 gv.1 av gw.2 gw.1 aw h.2⟩
    · simp [arrayFree] at aw
    · simp [good] at gw
  | .list _ _, _, hv, _, _, _, _, _, _ => by simp [erase, Comp.isList] at hv
  | .tuple _, _, hv, _, _, _, _, _, _ => by simp [erase, Comp.isList] at hv
  | .dict _ _ _, _, hv, _, _, _, _, _, _ => by simp [erase, Comp.isList] at hv
  | .arr _ _, _, _, _, av, _, _, _, _ => by simp [arrayFree] at av
  | .bare _ _, _, _, gv, _, _, _, _, _ => by simp [good] at gv
  termination_by v => (sizeOf v, 0, 0)

theorem flat_sub (other : Comp N → Comp N → Bool) : ∀ (xs ys : List (Val N)), (erases xs).any Comp.isList = false →
    goods xs = true → arrayFrees xs = true → (erases ys).any Comp.isList = false → goods ys = true →
    arrayFrees ys = true → compSub other (erases xs) (erases ys) = true → pySub xs ys = true
  | [], _, _, _, _, _, _, _, _ => by rw [pySub]
  | x :: xs, ys, hl, gx, ax, hl', gy, ay, h => by
    rw [erases, List.any_cons, Bool.or_eq_false_iff] at hl
    rw [goods, Bool.and_eq_true] at gx
    rw [arrayFrees, Bool.and_eq_true] at ax
    rw [erases, compSub, Bool.and_eq_true] at h
    rw [pySub, Bool.and_eq_true]
    exact ⟨flat_any other x ys hl.1 gx.1 ax.1 hl' gy ay h.1, flat_sub other xs ys hl.2 gx.2 ax.2 hl' gy ay h.2⟩
  termination_by xs => (sizeOf xs, 0, 0)

theorem flat_any (other : Comp N → Comp N → Bool) : ∀ (x : Val N) (ys : List (Val N)), (erase x).isList = false →
    good x = true → arrayFree x = true → (erases ys).any Comp.isList = false → goods ys = true →
    arrayFrees ys = true → (erases ys).any (fun y => compEq other (erase x) y) = true →
    ys.any (fun y => pyEq x y) = true
  | _, [], _, _, _, _, _, _, h => by simp [erases] at h
  | x, y :: ys, hl, gx, ax, hl', gy, ay, h => by
    rw [erases, List.any_cons, Bool.or_eq_false_iff] at hl'
    rw [goods, Bool.and_eq_true] at gy
    rw [arrayFrees, Bool.and_eq_true] at ay
    rw [erases, List.any_cons, Bool.or_eq_true] at h
    rw [List.any_cons, Bool.or_eq_true]
    rcases h with h | h
    · exact .inl (flat_eq other x y hl gx ax hl'.1 gy.1 ay.1 h)
    · exact .inr (flat_any other x ys hl gx ax hl'.2 gy.2 ay.2 h)
  termination_by x ys => (sizeOf x, 1, sizeOf ys)

theorem flat_all (other : Comp N → Comp N → Bool) : ∀ (xs ys : List (Val N)), (erases xs).any Comp.isList = false →
    goods xs = true → arrayFrees xs = true → (erases ys).any Comp.isList = false → goods ys = true →
    arrayFrees ys = true → (erases ys).all (fun y => compAny other (erases xs) y) = true →
    ys.all (fun y => pyAny xs y) = true
  | _, [], _, _, _, _, _, _, _ => rfl
  | xs, y :: ys, hl, gx, ax, hl', gy, ay, h => by
    rw [erases, List.any_cons, Bool.or_eq_false_iff] at hl'
    rw [goods, Bool.and_eq_true] at gy
    rw [arrayFrees, Bool.and_eq_true] at ay
    rw [erases, List.all_cons, Bool.and_eq_true] at h
    rw [List.all_cons, Bool.and_eq_true]
    exact ⟨flat_some other xs y hl gx ax hl'.1 gy.1 ay.1 h.1, flat_all other xs ys hl gx ax hl'.2 gy.2 ay.2 h.2⟩
  termination_by xs ys => (sizeOf xs, 1, sizeOf ys)

theorem flat_some (other : Comp N → Comp N → Bool) : ∀ (xs : List (Val N)) (y : Val N),
    (erases xs).any Comp.isList = false → goods xs = true → arrayFrees xs = true → (erase y).isList = false →
    good y = true → arrayFree y = true → compAny other (erases xs) (erase y) = true → pyAny xs y = true
  | [], _, _, _, _, _, _, _, h => by simp [erases, compAny] at h
  | x :: xs, y, hl, gx, ax, hl', gy, ay, h => by
    rw [erases, List.any_cons, Bool.or_eq_false_iff] at hl
    rw [goods, Bool.and_eq_true] at gx
    rw [arrayFrees, Bool.and_eq_true] at ax
    rw [erases, compAny, Bool.or_eq_true] at h
    rw [pyAny, Bool.or_eq_true]
    rcases h with h | h
    · exact .inl (flat_eq other x y hl.1 gx.1 ax.1 hl' gy ay h)
    · exact .inr (flat_some other xs y hl.2 gx.2 ax.2 hl' gy ay h)
  termination_by xs => (sizeOf xs, 0, 0)
end

theorem pySub_of_eqList : ∀ (xs ys zs : List (Val N)), pyEqList xs ys = true → (∀ y ∈ ys, y ∈ zs) → pySub xs zs = true
  | [], _, _, _, _ => by rw [pySub]
  | x :: xs, [], _, h, _ => by simp [pyEqList] at h
  | x :: xs, y :: ys, zs, h, hs => by
    rw [pyEqList, Bool.and_eq_true] at h
    rw [pySub, Bool.and_eq_true]
    exact ⟨List.any_eq_true.2 ⟨y, hs y (by simp), h.1⟩,
      pySub_of_eqList xs ys zs h.2 (fun z hz => hs z (List.mem_cons_of_mem _ hz))⟩

theorem pyAny_of_eqList : ∀ (xs ys : List (Val N)), pyEqList xs ys = true → ys.all (fun y => pyAny xs y) = true
  | [], [], _ => rfl
  | [], y :: ys, h => by simp [pyEqList] at h
  | x :: xs, [], h => rfl
  | x :: xs, y :: ys, h => by
    rw [pyEqList, Bool.and_eq_true] at h
    rw [List.all_cons, Bool.and_eq_true]
    refine ⟨by rw [pyAny, h.1]; rfl, ?_⟩
    have := pyAny_of_eqList xs ys h.2
    rw [List.all_eq_true] at this ⊢
    intro z hz
    rw [pyAny, this z hz, Bool.or_true]

mutual
theorem erase_eq (other : Comp N → Comp N → Bool) : ∀ (v w : Val N), good v = true → arrayFree v = true →
    good w = true → arrayFree w = true → sameKind v w = true →
    compEq other (erase v) (erase w) = true → pyEq v w = true
  | .num k x, w, gv, av, gw, aw, _, h => by
    refine flat_eq other (.num k x) w (by simp [erase, Comp.isList]) gv av ?_ gw aw h
    cases w <;> simp_all [erase, compEq, Comp.isList]
  | .text b s, w, gv, av, gw, aw, _, h => by
    refine flat_eq other (.text b s) w (by simp [erase, Comp.isList]) gv av ?_ gw aw h
    cases w <;> simp_all [erase, compEq, Comp.isList]
  | .set i b xs, w, gv, av, gw, aw, _, h => by
    refine flat_eq other (.set i b xs) w (by simp [erase, Comp.isList]) gv av ?_ gw aw h
    cases w <;> simp_all [erase, compEq, Comp.isList]
  | .arr _ _, _, _, av, _, _, _, _ => by simp [arrayFree] at av
  | .bare _ _, _, gv, _, _, _, _, _ => by simp [good] at gv
  | .list i xs, w, gv, av, gw, aw, hk, h => by
    cases w with
    | list j ys =>
      rw [good] at gv gw
      rw [arrayFree] at av aw
      rw [sameKind] at hk
      rw [erase, erase, compEq] at h
      rw [pyEq]
      exact erases_eq other xs ys gv av gw aw hk h
    | arr => simp [arrayFree] at aw
    | bare => simp [good] at gw
    | _ => simp_all [sameKind, erase, compEq]
  | .tuple xs, w, gv, av, gw, aw, hk, h => by
    cases w with
    | tuple ys =>
      rw [good] at gv gw
      rw [arrayFree] at av aw
      rw [sameKind] at hk
      rw [erase, erase, compEq] at h
      rw [pyEq]
      exact erases_eq other xs ys gv av gw aw hk h
    | arr => simp [arrayFree] at aw
    | bare => simp [good] at gw
    | _ => simp_all [sameKind, erase, compEq]
  | .dict i b xs, w, gv, av, gw, aw, hk, h => by
    cases w with
    | dict j b' ys =>
      rw [good] at gv gw
      rw [arrayFree] at av aw
      rw [sameKind] at hk
      rw [erase, erase, compEq] at h
      rw [pyEq, Bool.and_eq_true]
      have := erases_eq other xs ys gv av gw aw hk h
      exact ⟨pySub_of_eqList xs ys ys this (fun _ h => h), pyAny_of_eqList xs ys this⟩
    | arr => simp [arrayFree] at aw
    | bare => simp [good] at gw
    | _ => simp_all [sameKind, erase, compEq]
theorem erases_eq (other : Comp N → Comp N → Bool) : ∀ (xs ys : List (Val N)), goods xs = true →
    arrayFrees xs = true → goods ys = true → arrayFrees ys = true → sameKinds xs ys = true →
    compEqList other (erases xs) (erases ys) = true → pyEqList xs ys = true
  | [], [], _, _, _, _, _, _ => by rw [pyEqList]
  | [], y :: ys, _, _, _, _, _, h => by simp [erases, compEqList] at h
  | x :: xs, [], _, _, _, _, _, h => by simp [erases, compEqList] at h
  | x :: xs, y :: ys, gx, ax, gy, ay, hk, h => by
    rw [goods, Bool.and_eq_true] at gx gy
    rw [arrayFrees, Bool.and_eq_true] at ax ay
    rw [sameKinds, Bool.and_eq_true] at hk
    rw [erases, erases, compEqList, Bool.and_eq_true] at h
    rw [pyEqList, Bool.and_eq_true]
    exact ⟨erase_eq other x y gx.1 ax.1 gy.1 ay.1 hk.1 h.1, erases_eq other xs ys gx.2 ax.2 gy.2 ay.2 hk.2 h.2⟩
end

/-- **C26, proved part**: take two values without arrays whose lists, tuples and dictionaries stand against their own kind.
If both have comparables, and the comparison function of either says the comparables are equal, the values are equal in
Python. Missing: arrays, and a list against a tuple or a dictionary; see `comparable_violated`. -/
theorem comparable_sound_partial (max : Nat) (cur : Nat → List N) (other : Comp N → Comp N → Bool) (v w : Val N)
    {c d : Comp N} {f g : EqF} (hv : comparable max v = .ok (some (c, f))) (hw : comparable max w = .ok (some (d, g)))
    (av : arrayFree v = true) (aw : arrayFree w = true) (hk : sameKind v w = true)
    (h : applyEq cur other f c d = true) : pyEq v w = true := by
  obtain ⟨rfl, gv, fv⟩ := comparable_some hv
  obtain ⟨rfl, gw, _⟩ := comparable_some hw
  rw [fv av, applyEq] at h
  exact erase_eq other v w gv av gw aw hk h

end

/-! ## A concrete case: `{"a": [1, True], "b": {3}}` against the same with `1.0` and a frozen set -/

/-- `{"a": [1, True], "b": {3}}`. -/
def vEx : Val Nat :=
  .dict 1 true [.tuple [.text true [97], .list 2 [.num 1 1, .num 0 1]], .tuple [.text true [98], .set 3 false [.num 1 3]]]

/-- `{"a": [1.0, 1], "b": frozenset({3, 3.0})}` (as the model writes sets, an element may be listed twice). -/
def wEx : Val Nat :=
  .dict 4 true [.tuple [.text true [97], .list 5 [.num 2 1, .num 1 1]],
    .tuple [.text true [98], .set 6 true [.num 1 3, .num 2 3]]]

example : ∃ c d : Comp Nat, comparable 1000000 vEx = .ok (some (c, .equal)) ∧ comparable 1000000 wEx = .ok (some (d, .equal)) ∧
    arrayFree vEx = true ∧ arrayFree wEx = true ∧ sameKind vEx wEx = true ∧
    applyEq (fun _ => []) (fun _ _ => false) .equal c d = true :=
  ⟨_, _, rfl, rfl, by decide, by decide, by decide, by decide⟩

/-- A violation of C26: values that Python tells apart (the two given ones) have comparables that compare equal, where `cur`
gives the present contents of arrays. -/
def Confused (cur : Nat → List Nat) (v w : Val Nat) : Prop :=
  ∃ c d f, comparable 1000000 v = .ok (some (c, f)) ∧ (∃ g, comparable 1000000 w = .ok (some (d, g))) ∧
    applyEq cur (fun _ _ => false) f c d = true ∧ pyEq v w = false

/-- **C26 is violated**, as stated:
* the list `[1]` and the tuple `(1,)` are taken for equal, and so are `{1: 2}` and `[(1, 2)]`;
* `[a]` and `[a, 5]` are taken for equal if `a` is an array, whatever stands after the shorter list;
* the arrays `[1, 1]` and `[1]` are taken for equal, and so are `[]` and `[1]`;
* an array that was changed in place (from `[1]` to `[2]`) is taken for equal to what it was before;
* the set `{(1, 2)}` has no comparable because its computation raises, and neither has `{1: 1, "a": 1}`. -/
theorem comparable_violated :
    Confused (fun _ => []) (.list 1 [.num 1 1]) (.tuple [.num 1 1]) ∧
    Confused (fun _ => []) (.dict 1 true [.tuple [.num 1 1, .num 1 2]]) (.list 2 [.tuple [.num 1 1, .num 1 2]]) ∧
    Confused (fun _ => [7]) (.list 1 [.arr 2 [7]]) (.list 3 [.arr 2 [7], .num 1 5]) ∧
    Confused (fun i => if i = 1 then [1, 1] else [1]) (.arr 1 [1, 1]) (.arr 2 [1]) ∧
    Confused (fun i => if i = 1 then [] else [1]) (.arr 1 []) (.arr 2 [1]) ∧
    Confused (fun _ => [2]) (.arr 1 [2]) (.arr 1 [1]) ∧
    comparable 1000000 (.set 1 false [.tuple [.num 1 1, .num 1 2]] : Val Nat) = .error .crash ∧
    comparable 1000000 (.dict 1 false [.tuple [.num 1 1, .num 1 1], .tuple [.text true [97], .num 1 1]] : Val Nat) =
      .error .crash := by
  refine ⟨?_, ?_, ?_, ?_, ?_, ?_, rfl, rfl⟩ <;>
  exact ⟨_, _, _, rfl, ⟨_, rfl⟩, by decide, by decide⟩

end Verif.Memo
