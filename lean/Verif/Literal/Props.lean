import Verif.Literal.Model
import Mathlib.Data.List.Basic
import Mathlib.Data.List.Range

/-! # C44, C67, C68: literals and unpacking -/

namespace Verif.Literal
open Verif
variable {ν σ : Type}

/-! ## What the matching computes -/

theorem go_plain (star : List Bool) (b : Nat) : ∀ next, next + b = star.length →
    (∀ i, next ≤ i + 1 → star[i]? ≠ some true ∨ b = star.length - (i + 1) ) →
    (∀ i, next ≤ i → star[i]? ≠ some true) →
    go star b next = (List.range' next b, true) := by
  induction b with
  | zero => intro next _ _ _; rfl
  | succ b ih =>
    intro next hn _ hs
    unfold go
    rw [if_pos (by right; right; omega), if_pos (by omega)]
    rw [ih (next + 1) (by omega) (fun i hi => by left; exact hs i (by omega)) fun i hi => hs i (by omega)]
    rfl

theorem go_star (star : List Bool) (a b : Nat) (hlen : star.length = a + 1 + b) (ha : star[a]? = some true) (k : Nat) :
    go star (k + b) (a + 1) = (List.replicate k a ++ (go star b (a + 1)).1, (go star b (a + 1)).2) := by
  induction k with
  | zero => simp
  | succ k ih =>
    rw [show k + 1 + b = (k + b) + 1 by omega]
    conv_lhs => unfold go
    rw [if_neg]
    · rw [ih]; simp [List.replicate_succ]
    · rintro (h | h | h)
      · omega
      · exact h (by simpa using ha)
      · omega

theorem go_before (star : List Bool) (m : Nat) : ∀ (a next : Nat), next + a ≤ star.length →
    (∀ i, next ≤ i + 1 → i + 1 < next + a → star[i]? ≠ some true) →
    go star (a + m) next = (List.range' next a ++ (go star m (next + a)).1, (go star m (next + a)).2) := by
  intro a
  induction a with
  | zero => intro next _ _; simp
  | succ a ih =>
    intro next hn hs
    rw [show a + 1 + m = (a + m) + 1 by omega]
    conv_lhs => unfold go
    have hadv : next = 0 ∨ star[next - 1]? ≠ some true ∨ star.length - next ≥ a + m + 1 := by
      by_cases h0 : next = 0
      · exact .inl h0
      · refine .inr (.inl (hs (next - 1) (by omega) (by omega)))
    rw [if_pos hadv, if_pos (by omega), ih (next + 1) (by omega) fun i h1 h2 => hs i (by omega) (by omega)]
    simp only [List.range'_succ, List.cons_append]
    rw [show next + 1 + a = next + (a + 1) by omega]

theorem match_plain (m : Nat) : matchSeq (List.replicate m false) m = (List.range m, true) := by
  unfold matchSeq
  rw [go_plain _ m 0 (by simp) (fun i _ => .inl (by simp [List.getElem?_replicate])) fun i _ => by
    simp [List.getElem?_replicate]]
  rw [List.range_eq_range']

theorem match_star (a b k : Nat) (hk : 1 ≤ k) :
    matchSeq (List.replicate a false ++ true :: List.replicate b false) (a + k + b) =
      (List.range a ++ List.replicate k a ++ List.range' (a + 1) b, true) := by
  set star := List.replicate a false ++ true :: List.replicate b false with hstar
  have hlen : star.length = a + 1 + b := by simp [hstar]; omega
  have hget : ∀ i, star[i]? = some true ↔ i = a := by
    intro i
    rw [hstar, List.getElem?_append, List.length_replicate]
    by_cases h1 : i < a
    · simp [h1]; omega
    · rw [if_neg h1]
      rcases h2 : i - a with _ | j
      · simp; omega
      · simp [List.getElem?_replicate]; omega
  obtain ⟨k, rfl⟩ : ∃ k', k = k' + 1 := ⟨k - 1, by omega⟩
  unfold matchSeq
  rw [show a + (k + 1) + b = (a + 1) + (k + b) by omega,
    go_before star (k + b) (a + 1) 0 (by omega) (fun i _ h2 h3 => by rw [hget] at h3; omega)]
  rw [show 0 + (a + 1) = a + 1 by omega, go_star star a b hlen ((hget a).2 rfl) k,
    go_plain star b (a + 1) (by omega) ?_ fun i hi h3 => by rw [hget] at h3; omega]
  · simp only [Prod.mk.injEq, and_true]
    rw [← List.range_eq_range', List.range_succ, List.replicate_succ]
    simp
  · intro i hi
    by_cases h : i = a
    · right; omega
    · left; rw [Ne, hget]; exact h

/-- When the starred expression contributes nothing, expressions are attributed to the elements one place too
early. -/
theorem match_empty_star (a b : Nat) :
    matchSeq (List.replicate a false ++ true :: List.replicate b false) (a + b) = (List.range (a + b), true) := by
  set star := List.replicate a false ++ true :: List.replicate b false with hstar
  have hlen : star.length = a + 1 + b := by simp [hstar]; omega
  have hget : ∀ i, star[i]? = some true ↔ i = a := by
    intro i
    rw [hstar, List.getElem?_append, List.length_replicate]
    by_cases h1 : i < a
    · simp [h1]; omega
    · rw [if_neg h1]
      rcases h2 : i - a with _ | j
      · simp; omega
      · simp [List.getElem?_replicate]; omega
  have key : ∀ m next, next + m + 1 = star.length ∨ m = 0 → go star m next = (List.range' next m, true) := by
    intro m
    induction m with
    | zero => intro next _; rfl
    | succ m ih =>
      intro next h
      unfold go
      rw [if_pos (by right; right; omega), if_pos (by omega), ih (next + 1) (by omega)]
      rfl
  unfold matchSeq
  rw [key (a + b) 0 (by omega), List.range_eq_range']

/-! ## C44 -/

/-- An element expression of a literal: starred or not, with the number of elements it contributes. -/
structure Elt where
  starred : Bool
  count : Nat

/-- A literal that Python evaluates: expressions that are not starred contribute one element. -/
def Valid (l : List Elt) : Prop := ∀ e ∈ l, e.starred = false → e.count = 1

/-- The value of the literal: for each element, the expression that gave it, and which element of the value of a
starred expression it was. -/
def value (l : List Elt) : List (Nat × Option Nat) :=
  (l.zipIdx).flatMap fun x =>
    if x.1.starred then (List.range x.1.count).map fun k => (x.2, some k) else [(x.2, none)]

/-- What is recorded for the elements of the value of a literal. -/
def recorded (l : List Elt) : List (Nat × Option Nat) × Bool :=
  let star := l.map Elt.starred
  let m := matchSeq star (value l).length
  (attrib star m.1 0, m.2)

theorem attrib_append (star : List Bool) (l m : List Nat) (k : Nat) (h : ∀ j ∈ l, star[j]? ≠ some true) :
    attrib star (l ++ m) k = l.map (fun j => (j, none)) ++ attrib star m k := by
  induction l with
  | nil => rfl
  | cons j l ih =>
    rw [List.cons_append]
    conv_lhs => unfold attrib
    rw [if_neg (h j List.mem_cons_self), ih fun i hi => h i (List.mem_cons_of_mem _ hi)]
    rfl

theorem attrib_plain (star : List Bool) (l : List Nat) (k : Nat) (h : ∀ j ∈ l, star[j]? ≠ some true) :
    attrib star l k = l.map fun j => (j, none) := by
  have := attrib_append star l [] k h
  simpa [attrib] using this

theorem attrib_star (star : List Bool) (a : Nat) (ha : star[a]? = some true) (m : List Nat) : ∀ (k i : Nat),
    attrib star (List.replicate k a ++ m) i =
      (List.range' i k).map (fun x => (a, some x)) ++ attrib star m (i + k) := by
  intro k
  induction k with
  | zero => intro i; simp
  | succ k ih =>
    intro i
    rw [List.replicate_succ, List.cons_append]
    conv_lhs => unfold attrib
    rw [if_pos ha, ih (i + 1), List.range'_succ, show i + 1 + k = i + (k + 1) by omega]
    rfl

theorem value_plain (l : List Elt) (h : ∀ e ∈ l, e.starred = false) (s : Nat) :
    (l.zipIdx s).flatMap (fun x => if x.1.starred then (List.range x.1.count).map fun k => (x.2, some k) else [(x.2, none)]) =
      (List.range' s l.length).map fun j => (j, none) := by
  induction l generalizing s with
  | nil => rfl
  | cons e l ih =>
    rw [List.zipIdx_cons, List.flatMap_cons, ih (fun e' he' => h e' (List.mem_cons_of_mem _ he')) (s + 1)]
    simp [h e List.mem_cons_self, List.range'_succ]

theorem value_star (l1 l2 : List Elt) (e : Elt) (h1 : ∀ e ∈ l1, e.starred = false) (h2 : ∀ e ∈ l2, e.starred = false)
    (he : e.starred = true) : value (l1 ++ e :: l2) =
      (List.range l1.length).map (fun j => (j, none)) ++ ((List.range e.count).map (fun k => (l1.length, some k)) ++
        (List.range' (l1.length + 1) l2.length).map fun j => (j, none)) := by
  unfold value
  rw [List.zipIdx_append, List.flatMap_append, value_plain l1 h1 0, List.zipIdx_cons, List.flatMap_cons,
    value_plain l2 h2, ← List.range_eq_range']
  simp [he]

theorem map_starred_plain {l : List Elt} (h : ∀ e ∈ l, e.starred = false) :
    l.map Elt.starred = List.replicate l.length false := by
  rw [List.eq_replicate_iff]
  refine ⟨by simp, ?_⟩
  intro b hb
  obtain ⟨e, he, rfl⟩ := List.mem_map.1 hb
  exact h e he

/-- Splitting a literal at its starred expression. -/
theorem split_literal (l : List Elt) (h1 : (l.map Elt.starred).count true ≤ 1) :
    (∀ e ∈ l, e.starred = false) ∨ ∃ l1 e l2, l = l1 ++ e :: l2 ∧ (∀ e ∈ l1, e.starred = false) ∧ e.starred = true ∧
      ∀ e ∈ l2, e.starred = false := by
  induction l with
  | nil => left; simp
  | cons e l ih =>
    cases he : e.starred with
    | false =>
      rw [List.map_cons, he] at h1
      rcases ih (by simpa using h1) with h | ⟨l1, e', l2, rfl, h2, h3, h4⟩
      · left; intro e' he'
        rcases List.mem_cons.1 he' with rfl | h5
        · exact he
        · exact h e' h5
      · right
        refine ⟨e :: l1, e', l2, rfl, ?_, h3, h4⟩
        intro e'' he''
        rcases List.mem_cons.1 he'' with rfl | h5
        · exact he
        · exact h2 e'' h5
    | true =>
      right
      refine ⟨[], e, l, rfl, by simp, he, ?_⟩
      rw [List.map_cons, he, List.count_cons_self] at h1
      intro e' he'
      cases h5 : e'.starred with
      | false => rfl
      | true =>
        have : 0 < (l.map Elt.starred).count true := List.count_pos_iff.2 (List.mem_map.2 ⟨e', he', h5⟩)
        omega

/-- **C44**, the part that holds: if at most one expression of a list or tuple display is starred and that one
contributes at least one element, every element is attributed to the expression (and the element of the value of the
starred expression) which gave it. Missing for the full statement (refuted below): starred expressions with empty
values. -/
theorem literal_partial (l : List Elt) (hv : Valid l) (h1 : (l.map Elt.starred).count true ≤ 1)
    (hne : ∀ e ∈ l, e.starred = true → 1 ≤ e.count) : recorded l = (value l, true) := by
  rcases split_literal l h1 with h | ⟨l1, e, l2, rfl, h2, h3, h4⟩
  · have hval : value l = (List.range l.length).map fun j => (j, none) := by
      unfold value
      rw [value_plain l h 0, ← List.range_eq_range']
    unfold recorded
    simp only [hval, List.length_map, List.length_range, map_starred_plain h, match_plain]
    rw [attrib_plain]
    intro j _
    simp [List.getElem?_replicate]
  · have hval := value_star l1 l2 e h2 h4 h3
    have hmap : (l1 ++ e :: l2).map Elt.starred =
        List.replicate l1.length false ++ true :: List.replicate l2.length false := by
      rw [List.map_append, List.map_cons, map_starred_plain h2, map_starred_plain h4, h3]
    have hlen : (value (l1 ++ e :: l2)).length = l1.length + e.count + l2.length := by
      rw [hval]; simp; omega
    unfold recorded
    simp only [hlen, hmap, match_star _ _ _ (hne e (by simp) h3)]
    rw [hval]
    have hlt : ∀ j, j ≠ l1.length → (List.replicate l1.length false ++ true :: List.replicate l2.length false)[j]? ≠
        some true := by
      intro j hj
      rw [List.getElem?_append, List.length_replicate]
      by_cases h5 : j < l1.length
      · simp [h5]
      · rw [if_neg h5]
        rcases h6 : j - l1.length with _ | i
        · omega
        · simp [List.getElem?_replicate]
    rw [List.append_assoc, attrib_append _ _ _ _ fun j hj => hlt j (by have := List.mem_range.1 hj; omega),
      attrib_star _ _ (by simp) _ _ _,
      attrib_plain _ _ _ fun j hj => hlt j (by have := List.mem_range'_1.1 hj; omega), List.range_eq_range',
      List.range_eq_range']

/-- `[x, *ys, z]` with three elements in `ys`. -/
example : recorded [⟨false, 1⟩, ⟨true, 3⟩, ⟨false, 1⟩] =
    ([(0, none), (1, some 0), (1, some 1), (1, some 2), (2, none)], true) := by decide

/-- **C44 is violated** whenever the starred expression is empty and is not the last one: the element after it is
attributed to the starred expression. -/
theorem literal_violated (a b : Nat) : ∃ l : List Elt, Valid l ∧ (l.map Elt.starred).count true = 1 ∧
    l.length = a + 1 + (b + 1) ∧ (value l)[a]? = some (a + 1, none) ∧ (recorded l).1[a]? = some (a, some 0) := by
  have hf : ∀ n, ∀ e ∈ List.replicate n (Elt.mk false 1), e.starred = false := by
    intro n e he; rw [(List.mem_replicate.1 he).2]
  have hval := value_star (List.replicate a ⟨false, 1⟩) (List.replicate (b + 1) ⟨false, 1⟩) ⟨true, 0⟩ (hf a) (hf _) rfl
  refine ⟨List.replicate a ⟨false, 1⟩ ++ ⟨true, 0⟩ :: List.replicate (b + 1) ⟨false, 1⟩, ?_, ?_, ?_, ?_, ?_⟩
  · intro e he h
    rcases List.mem_append.1 he with h1 | h1
    · rw [(List.mem_replicate.1 h1).2]
    · rcases List.mem_cons.1 h1 with rfl | h1
      · cases h
      · rw [(List.mem_replicate.1 h1).2]
  · simp [List.count_replicate]
  · simp; omega
  · rw [hval]
    simp [List.range'_succ]
  · have hmap : (List.replicate a (Elt.mk false 1) ++ Elt.mk true 0 :: List.replicate (b + 1) (Elt.mk false 1)).map Elt.starred =
        List.replicate a false ++ true :: List.replicate (b + 1) false := by simp
    unfold recorded
    simp only [hmap]
    rw [hval]
    simp only [List.length_append, List.length_map, List.length_range, List.length_range', List.length_replicate,
      List.range_zero, List.length_nil, Nat.zero_add]
    rw [match_empty_star, show a + (b + 1) = a + 1 + b by omega]
    rw [List.range_eq_range', show a + 1 + b = a + (1 + b) by omega, ← List.range'_append_1, attrib_append]
    · simp only [Nat.zero_add]
      rw [show 1 + b = b + 1 by omega, List.range'_succ]
      unfold attrib
      rw [if_pos (by simp)]
      simp
    · intro j hj
      have := (List.mem_range'_1.1 hj).2
      simp [List.getElem?_append, show j < a by omega]

/-- `[*[], x, y]`: `y` is attributed to `x`. -/
example : recorded [⟨true, 0⟩, ⟨false, 1⟩, ⟨false, 1⟩] = ([(0, some 0), (1, none)], true) := by decide

/-! ## C68 -/

/-- The keys of an entry. -/
def Entry.keys {κ : Type} : Entry κ → List κ
  | .pair k => [k]
  | .splat ks => ks

theorem evalDict_pairs {κ : Type} [DecidableEq κ] (ks : List κ) (h : ks.Nodup) :
    evalDict (ks.map Entry.pair) = ks.zipIdx := by
  suffices H : ∀ (ks : List κ) (d : List (κ × Nat)) (i : Nat), (d.map Prod.fst ++ ks).Nodup →
      ((ks.map Entry.pair).zipIdx i).foldl dictStep d = d ++ ks.zipIdx i by
    have := H ks [] 0 (by simpa using h)
    simpa [evalDict] using this
  intro ks
  induction ks with
  | nil => intro d i _; simp
  | cons k ks ih =>
    intro d i h
    simp only [List.map_cons, List.zipIdx_cons, List.foldl_cons, dictStep]
    have hk : k ∉ d.map Prod.fst := by
      intro hk
      exact (List.nodup_append.1 h).2.2 k hk k List.mem_cons_self rfl
    have hset : Assoc.set d k i = d ++ [(k, i)] := by
      clear h ih
      induction d with
      | nil => rfl
      | cons p d ihd =>
        simp only [List.map_cons, List.mem_cons, not_or] at hk
        simp only [Assoc.set, if_neg (Ne.symm hk.1), List.cons_append]
        rw [ihd hk.2]
    rw [hset, ih _ _ ?_]
    · simp
    · rw [List.map_append, List.append_assoc]; simpa using h

/-- **C68**, the part that holds: in a dictionary display without `**` and with distinct keys, each item is attributed
to the entry that gave its value. Missing (refuted below): repeated keys and `**`. -/
theorem dict_partial {κ : Type} [DecidableEq κ] (ks : List κ) (h : ks.Nodup) :
    ∀ x ∈ matchDict (evalDict (ks.map Entry.pair)) ks.length, x.1.2 = x.2 := by
  intro x hx
  rw [evalDict_pairs ks h] at hx
  unfold matchDict at hx
  obtain ⟨i, h1, h2⟩ := List.mem_iff_getElem.1 hx
  rw [← h2]
  simp

example : matchDict (evalDict [Entry.pair 'a', .pair 'b']) 2 = [(('a', 0), 0), (('b', 1), 1)] := by decide

/-- **C68 is violated** by repeated keys, `{'a': x, 'b': y, 'a': z}` where `'a'` is attributed to `x`, and by `**`,
`{**d, 'b': y}` where the second item of `d` is attributed to `y` and the item `'b'` to nothing. -/
theorem dict_violated :
    matchDict (evalDict [Entry.pair 'a', .pair 'b', .pair 'a']) 3 = [(('a', 2), 0), (('b', 1), 1)] ∧
    matchDict (evalDict [Entry.splat ['c', 'd'], .pair 'b']) 2 = [(('c', 0), 0), (('d', 0), 1)] ∧
    ('b', 1) ∈ evalDict [Entry.splat ['c', 'd'], .pair 'b'] := by decide

end Verif.Literal
