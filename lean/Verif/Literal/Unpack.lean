import Verif.Literal.Props

/-! # C67: unpacking assignments -/

namespace Verif.Literal
variable {ν σ : Type}

/-! ## Specification -/

/-- Python's rule for `t₀, t₁, ..., *s, ... = v`: with `n` elements on the right-hand side, target `j` receives element
`i`; counted from the front up to the starred target, from the back after it. -/
def Receives (ts : List (Target ν)) (n j i : Nat) : Prop :=
  (j = i ∧ ∀ j' ≤ j, ∀ x, ts[j']? ≠ some (.star x)) ∨
  (n + j = ts.length + i ∧ ∀ j' ≥ j, ∀ x, ts[j']? ≠ some (.star x))

/-- The name occurs in the targets. -/
inductive NameIn (x : ν) : List (Target ν) → Prop where
  | name {ts} : .name x ∈ ts → NameIn x ts
  | star {ts} : .star x ∈ ts → NameIn x ts
  | tup {us ts} : .tup us ∈ ts → NameIn x us → NameIn x ts

mutual
/-- What should be recorded when a target that is not starred receives an element: a name depends on the symbol of the
element, and on what was called (`extra`; `sx` for starred names); the targets of a nested pattern receive the elements of the element, or depend on the
element if its elements are not known. -/
inductive One (env : σ → Option (List (Option σ))) (extra sx : List σ) : Target ν → Option σ → Asg ν σ → Prop where
  | name {x d} : One env extra sx (.name x) d (.name x (d.toList ++ extra))
  | tup {us s fs a} : env s = some fs → Gets env extra sx us fs a → One env extra sx (.tup us) (some s) a
  | deps {us s x} : env s = none → NameIn x us → One env extra sx (.tup us) (some s) (.name x (s :: extra))
/-- What should be recorded for an unpacking assignment. -/
inductive Gets (env : σ → Option (List (Option σ))) (extra sx : List σ) :
    List (Target ν) → List (Option σ) → Asg ν σ → Prop where
  | one {ts es j i t d a} : ts[j]? = some t → Receives ts es.length j i → es[i]? = some d → One env extra sx t d a →
      Gets env extra sx ts es a
  | star {ts es j x} : ts[j]? = some (.star x) →
      Gets env extra sx ts es (.star x sx ((es.drop j).take (es.length + 1 - ts.length)))
end

/-- The assignment succeeds in Python, every starred target receives at least one element, and the symbols of elements that
meet a nested pattern are known. -/
inductive Fits (env : σ → Option (List (Option σ))) : List (Target ν) → List (Option σ) → Prop where
  | mk {ts es} : (ts.map Target.isStar).count true ≤ 1 →
      ((∀ x, .star x ∉ ts) → es.length = ts.length) →
      ((∃ x, .star x ∈ ts) → ts.length ≤ es.length) →
      (∀ j i us, ts[j]? = some (.tup us) → Receives ts es.length j i → es[i]? ≠ some none) →
      (∀ j i us s fs, ts[j]? = some (.tup us) → Receives ts es.length j i → es[i]? = some (some s) →
        env s = some fs → Fits env us fs) →
      Fits env ts es

/-! ## Lemmas -/

/-- How a target is handled. -/
def toH (env : σ → Option (List (Option σ))) (extra : List σ) : Target ν → ν ⊕ (Option σ → Out ν σ)
  | .star x => .inl x
  | t => .inr (handler env extra t)

theorem handlers_eq (env : σ → Option (List (Option σ))) (extra : List σ) (ts : List (Target ν)) :
    handlers env extra ts = ts.map (toH env extra) := by
  induction ts with
  | nil => rfl
  | cons t ts ih =>
    cases t with
    | name x =>
      rw [handlers, List.map_cons, ih]
      congr 1
    | star x => rw [handlers, List.map_cons, ih]; rfl
    | tup us => rw [handlers, List.map_cons, ih]; rfl

/-- What the loop adds for a pair of element and target. -/
def outs (hs : List (ν ⊕ (Option σ → Out ν σ))) (p : Option σ × Nat) : List (Asg ν σ) :=
  match hs[p.2]? with
  | some (.inr h) => (h p.1).1
  | _ => []

theorem loop_plain (hs : List (ν ⊕ (Option σ → Out ν σ))) (ps rest : List (Option σ × Nat))
    (saved : Option (ν × List (Option σ))) (ok : Bool)
    (h : ∀ p ∈ ps, ∃ g, hs[p.2]? = some (.inr g) ∧ (g p.1).2 = true) :
    loop hs (ps ++ rest) saved ok = (ps.flatMap (outs hs) ++ (loop hs rest saved ok).1, (loop hs rest saved ok).2) := by
  induction ps with
  | nil => simp
  | cons p ps ih =>
    obtain ⟨g, h1, h2⟩ := h p List.mem_cons_self
    obtain ⟨d, j⟩ := p
    rw [List.cons_append]
    conv_lhs => unfold loop
    simp only at h1 h2
    simp only [h1]
    have h3 : g d = ((g d).1, true) := by rw [← h2]
    rw [h3]
    simp only
    rw [ih fun q hq => h q (List.mem_cons_of_mem _ hq)]
    simp [List.flatMap_cons, outs, h1]

theorem loop_star (hs : List (ν ⊕ (Option σ → Out ν σ))) (x : ν) (a : Nat) (ha : hs[a]? = some (.inl x))
    (ds : List (Option σ)) (rest : List (Option σ × Nat)) (acc : List (Option σ)) (ok : Bool) :
    loop hs (ds.map (·, a) ++ rest) (some (x, acc)) ok = loop hs rest (some (x, acc ++ ds)) ok := by
  induction ds generalizing acc with
  | nil => simp
  | cons d ds ih =>
    rw [List.map_cons, List.cons_append]
    conv_lhs => unfold loop
    simp only [ha]
    rw [ih]
    simp

theorem loop_star_first (hs : List (ν ⊕ (Option σ → Out ν σ))) (x : ν) (a : Nat) (ha : hs[a]? = some (.inl x))
    (ds : List (Option σ)) (hds : ds ≠ []) (rest : List (Option σ × Nat)) (ok : Bool) :
    loop hs (ds.map (·, a) ++ rest) none ok = loop hs rest (some (x, ds)) ok := by
  cases ds with
  | nil => exact absurd rfl hds
  | cons d ds =>
    rw [List.map_cons, List.cons_append]
    conv_lhs => unfold loop
    simp only [ha]
    rw [loop_star hs x a ha]
    simp

theorem mem_zip_range' {α : Type} (es : List α) (s b : Nat) (h : es.length = b) (d : α) (j : Nat) :
    (d, j) ∈ es.zip (List.range' s b) ↔ s ≤ j ∧ es[j - s]? = some d := by
  rw [List.mem_iff_getElem?]
  constructor
  · rintro ⟨i, hi⟩
    rw [List.getElem?_zip_eq_some] at hi
    obtain ⟨h1, h2⟩ := hi
    rw [List.getElem?_eq_some_iff] at h2
    obtain ⟨h3, h4⟩ := h2
    rw [List.getElem_range'] at h4
    exact ⟨by omega, by rw [← h1]; congr 1; omega⟩
  · rintro ⟨h1, h2⟩
    refine ⟨j - s, ?_⟩
    rw [List.getElem?_zip_eq_some]
    refine ⟨h2, ?_⟩
    have h3 : j - s < es.length := (List.getElem?_eq_some_iff.1 h2).1
    rw [List.getElem?_eq_some_iff]
    refine ⟨by simp; omega, ?_⟩
    rw [List.getElem_range']; omega

theorem mem_fromDepsList (deps : List σ) (a : Asg ν σ) :
    ∀ (ts : List (Target ν)), a ∈ fromDepsList deps ts ↔ ∃ x, NameIn x ts ∧ a = .name x deps := by
  suffices H : ∀ n, ∀ ts : List (Target ν), sizeOf ts ≤ n →
      (a ∈ fromDepsList deps ts ↔ ∃ x, NameIn x ts ∧ a = .name x deps) from fun ts => H _ ts le_rfl
  intro n
  induction n with
  | zero => intro ts h; cases ts <;> simp at h
  | succ n ih =>
    intro ts hn
    cases ts with
    | nil =>
      rw [fromDepsList]
      simp only [List.not_mem_nil, false_iff]
      rintro ⟨x, h, -⟩
      cases h with
      | name h => cases h
      | star h => cases h
      | tup h _ => cases h
    | cons t ts =>
      rw [fromDepsList, List.mem_append, ih ts (by simp at hn; omega)]
      have step : ∀ x, NameIn x ts → NameIn x (t :: ts) := by
        intro x h
        cases h with
        | name h => exact .name (List.mem_cons_of_mem _ h)
        | star h => exact .star (List.mem_cons_of_mem _ h)
        | tup h h' => exact .tup (List.mem_cons_of_mem _ h) h'
      constructor
      · rintro (h | ⟨x, h, rfl⟩)
        · cases t with
          | name x =>
            rw [fromDeps, List.mem_singleton] at h
            exact ⟨x, .name List.mem_cons_self, h⟩
          | star x =>
            rw [fromDeps, List.mem_singleton] at h
            exact ⟨x, .star List.mem_cons_self, h⟩
          | tup us =>
            rw [fromDeps, ih us (by simp at hn; omega)] at h
            obtain ⟨x, h1, h2⟩ := h
            exact ⟨x, .tup List.mem_cons_self h1, h2⟩
        · exact ⟨x, step x h, rfl⟩
      · rintro ⟨x, h, rfl⟩
        cases h with
        | name h =>
          rcases List.mem_cons.1 h with rfl | h
          · left; rw [fromDeps]; simp
          · exact .inr ⟨x, .name h, rfl⟩
        | star h =>
          rcases List.mem_cons.1 h with rfl | h
          · left; rw [fromDeps]; simp
          · exact .inr ⟨x, .star h, rfl⟩
        | @tup us _ h h' =>
          rcases List.mem_cons.1 h with rfl | h
          · left; rw [fromDeps, ih us (by simp at hn; omega)]; exact ⟨x, h', rfl⟩
          · exact .inr ⟨x, .tup h h', rfl⟩

theorem split_targets (ts : List (Target ν)) (h1 : (ts.map Target.isStar).count true ≤ 1) :
    (∀ x, .star x ∉ ts) ∨ ∃ l1 x l2, ts = l1 ++ .star x :: l2 ∧ (∀ y, .star y ∉ l1) ∧ ∀ y, .star y ∉ l2 := by
  induction ts with
  | nil => left; simp
  | cons t l ih =>
    by_cases he : ∃ x, t = .star x
    · obtain ⟨x, rfl⟩ := he
      right
      refine ⟨[], x, l, rfl, by simp, ?_⟩
      intro y hy
      have h2 : 0 < (l.map Target.isStar).count true := List.count_pos_iff.2 (List.mem_map.2 ⟨_, hy, rfl⟩)
      rw [List.map_cons, show Target.isStar (.star x) = true from rfl, List.count_cons_self] at h1
      omega
    · have hs : t.isStar = false := by
        cases t with
        | name x => rfl
        | star x => exact absurd ⟨x, rfl⟩ he
        | tup us => rfl
      rw [List.map_cons, hs] at h1
      have hne : ∀ y, .star y ≠ t := fun y h => he ⟨y, h.symm⟩
      rcases ih (by simpa using h1) with h | ⟨l1, x, l2, rfl, h2, h4⟩
      · left; intro y hy
        rcases List.mem_cons.1 hy with h5 | h5
        · exact hne y h5
        · exact h y h5
      · right
        refine ⟨t :: l1, x, l2, rfl, ?_, h4⟩
        intro y hy
        rcases List.mem_cons.1 hy with h5 | h5
        · exact hne y h5
        · exact h2 y h5

theorem map_isStar_plain {l : List (Target ν)} (h : ∀ x, .star x ∉ l) :
    l.map Target.isStar = List.replicate l.length false := by
  rw [List.eq_replicate_iff]
  refine ⟨by simp, ?_⟩
  intro b hb
  obtain ⟨t, ht, rfl⟩ := List.mem_map.1 hb
  cases t with
  | name x => rfl
  | star x => exact absurd ht (h x)
  | tup us => rfl

/-! ## C67 -/

theorem unpack_exact_aux (env : σ → Option (List (Option σ))) (extra : List σ) {ts : List (Target ν)}
    {es : List (Option σ)} (h : Fits env ts es) :
    (unpack env extra ts es).2 = true ∧ ∀ a, a ∈ (unpack env extra ts es).1 ↔ Gets env extra [] ts es a := by
  induction h with
  | @mk ts es h1 h2 h3 h4 h5 ih =>
  -- one target
  have hone : ∀ j i t d, ts[j]? = some t → (∀ x, t ≠ Target.star x) → Receives ts es.length j i → es[i]? = some d →
      (handler env extra t d).2 = true ∧ ∀ a, a ∈ (handler env extra t d).1 ↔ One env extra [] t d a := by
    intro j i t d ht hns hr hd
    cases t with
    | name x =>
      rw [handler]
      refine ⟨rfl, fun a => ?_⟩
      rw [List.mem_singleton]
      constructor
      · rintro rfl; exact .name
      · intro h; cases h; rfl
    | star x => exact absurd rfl (hns x)
    | tup us =>
      cases d with
      | none => exact absurd hd (h4 j i us ht hr)
      | some s =>
        rw [handler]
        cases he : env s with
        | none =>
          refine ⟨rfl, fun a => ?_⟩
          simp only
          rw [mem_fromDepsList]
          constructor
          · rintro ⟨x, h6, rfl⟩; exact .deps he h6
          · intro h
            cases h with
            | tup h7 h8 => rw [he] at h7; cases h7
            | deps h7 h8 => exact ⟨_, h8, rfl⟩
        | some fs =>
          have h6 := ih j i us s fs ht hr hd he
          unfold unpack at h6
          refine ⟨h6.1, fun a => ?_⟩
          rw [h6.2 a]
          constructor
          · intro h; exact .tup he h
          · intro h
            cases h with
            | tup h7 h8 => rw [he] at h7; cases h7; exact h8
            | deps h7 h8 => rw [he] at h7; cases h7
  have hget : ∀ (j : Nat) (t : Target ν), ts[j]? = some t → (∀ x, t ≠ Target.star x) →
      (handlers env extra ts)[j]? = some (Sum.inr (handler env extra t)) := by
    intro j t ht hns
    rw [handlers_eq, List.getElem?_map, ht]
    cases t with
    | name x => rfl
    | star x => exact absurd rfl (hns x)
    | tup us => rfl
  -- pairs that follow Python's rule
  have hpairs : ∀ ps : List (Option σ × Nat),
      (∀ d j, (d, j) ∈ ps → ∃ i t, ts[j]? = some t ∧ (∀ x, t ≠ Target.star x) ∧ Receives ts es.length j i ∧ es[i]? = some d) →
      (∀ p ∈ ps, ∃ g, (handlers env extra ts)[p.2]? = some (.inr g) ∧ (g p.1).2 = true) ∧
      ∀ a, a ∈ ps.flatMap (outs (handlers env extra ts)) ↔ ∃ d j t, (d, j) ∈ ps ∧ ts[j]? = some t ∧ One env extra [] t d a := by
    intro ps hps
    constructor
    · rintro ⟨d, j⟩ hp
      obtain ⟨i, t, h6, h7, h8, h9⟩ := hps d j hp
      exact ⟨_, hget j t h6 h7, (hone j i t d h6 h7 h8 h9).1⟩
    · intro a
      rw [List.mem_flatMap]
      constructor
      · rintro ⟨⟨d, j⟩, hp, ha⟩
        obtain ⟨i, t, h6, h7, h8, h9⟩ := hps d j hp
        unfold outs at ha
        simp only [hget j t h6 h7] at ha
        exact ⟨d, j, t, hp, h6, ((hone j i t d h6 h7 h8 h9).2 a).1 ha⟩
      · rintro ⟨d, j, t', hp, h6', ha⟩
        obtain ⟨i, t, h6, h7, h8, h9⟩ := hps d j hp
        have h10 : t' = t := by rw [h6] at h6'; exact (Option.some.inj h6').symm
        subst h10
        refine ⟨(d, j), hp, ?_⟩
        unfold outs
        simp only [hget j t' h6 h7]
        exact ((hone j i t' d h6 h7 h8 h9).2 a).2 ha
  rcases split_targets ts h1 with hns | ⟨l1, x, l2, hts, hn1, hn2⟩
  · have hlen := h2 hns
    have hm : ∀ (j : Nat) (y : ν), ts[j]? ≠ some (Target.star y) := fun j y h => hns y (List.mem_of_getElem? h)
    have hmatch : matchSeq (ts.map Target.isStar) es.length = (List.range ts.length, true) := by
      rw [map_isStar_plain hns, hlen, match_plain]
    have hz : ∀ d j, (d, j) ∈ es.zip (List.range ts.length) ↔ es[j]? = some d := by
      intro d j
      rw [List.range_eq_range', mem_zip_range' es 0 ts.length hlen]; simp
    obtain ⟨q1, q2⟩ := hpairs (es.zip (List.range ts.length)) (by
      intro d j hp
      rw [hz] at hp
      have hj : j < ts.length := by rw [← hlen]; exact (List.getElem?_eq_some_iff.1 hp).1
      refine ⟨j, ts[j], List.getElem?_eq_getElem hj, ?_, .inl ⟨rfl, fun j' _ y => hm j' y⟩, hp⟩
      intro y hy
      exact hm j y (by rw [List.getElem?_eq_getElem hj, hy]))
    unfold unpack
    simp only [hmatch]
    have hl := loop_plain (handlers env extra ts) (es.zip (List.range ts.length)) [] none true q1
    rw [List.append_nil] at hl
    rw [hl]
    refine ⟨rfl, fun a => ?_⟩
    simp only [loop, Option.map_none, Option.toList_none, if_true, List.append_nil]
    rw [q2 a]
    constructor
    · rintro ⟨d, j, t, hp, ht, ha⟩
      exact .one ht (.inl ⟨rfl, fun j' _ y => hm j' y⟩) ((hz d j).1 hp) ha
    · intro hg
      cases hg with
      | @one _ _ j i t d _ ht hr hd ha =>
        have hij : i = j := by
          rcases hr with ⟨h6, -⟩ | ⟨h6, -⟩
          · exact h6.symm
          · omega
        subst hij
        exact ⟨d, i, t, (hz d i).2 hd, ht, ha⟩
      | star ht => exact absurd ht (hm _ _)
  · have hle : ts.length ≤ es.length := h3 ⟨x, by rw [hts]; simp⟩
    set a := l1.length with ha
    set b := l2.length with hb
    have htl : ts.length = a + 1 + b := by rw [hts]; simp [ha, hb]; omega
    obtain ⟨k, hk⟩ : ∃ k, es.length = a + k + b := ⟨es.length - a - b, by omega⟩
    have hk1 : 1 ≤ k := by omega
    have hg1 : ∀ j, j < a → ts[j]? = l1[j]? := by
      intro j hj; rw [hts, List.getElem?_append_left hj]
    have hga : ts[a]? = some (.star x) := by rw [hts]; simp [ha]
    have hg2 : ∀ j, a + 1 ≤ j → ts[j]? = l2[j - (a + 1)]? := by
      intro j hj
      rw [hts, List.getElem?_append_right (by omega), show j - l1.length = (j - (a + 1)) + 1 by omega,
        List.getElem?_cons_succ]
    have hstar : ∀ (j : Nat) (y : ν), ts[j]? = some (Target.star y) → j = a := by
      intro j y h
      rcases Nat.lt_trichotomy j a with h6 | h6 | h6
      · rw [hg1 j h6] at h; exact absurd (List.mem_of_getElem? h) (hn1 y)
      · exact h6
      · rw [hg2 j h6] at h; exact absurd (List.mem_of_getElem? h) (hn2 y)
    have hmatch : matchSeq (ts.map Target.isStar) es.length =
        (List.range a ++ List.replicate k a ++ List.range' (a + 1) b, true) := by
      rw [hk, hts, List.map_append, List.map_cons, map_isStar_plain hn1, map_isStar_plain hn2]
      exact match_star a b k hk1
    set e1 := es.take a with he1
    set e2 := (es.drop a).take k with he2
    set e3 := es.drop (a + k) with he3
    have hes : es = e1 ++ (e2 ++ e3) := by
      rw [he1, he2, he3, ← List.drop_drop, List.take_append_drop, List.take_append_drop]
    have hl1 : e1.length = a := by rw [he1, List.length_take]; omega
    have hl2 : e2.length = k := by rw [he2, List.length_take, List.length_drop]; omega
    have hl3 : e3.length = b := by rw [he3, List.length_drop]; omega
    have hzip : es.zip (List.range a ++ List.replicate k a ++ List.range' (a + 1) b) =
        e1.zip (List.range a) ++ (e2.map (·, a) ++ e3.zip (List.range' (a + 1) b)) := by
      conv_lhs => rw [hes]
      rw [List.append_assoc, List.zip_append (by simp [hl1]), List.zip_append (by simp [hl2])]
      congr 2
      rw [← hl2]
      clear_value e2
      clear * -
      induction e2 with
      | nil => rfl
      | cons d l ih => simp [List.replicate_succ, ih]
    have hz1 : ∀ d j, (d, j) ∈ e1.zip (List.range a) ↔ j < a ∧ es[j]? = some d := by
      intro d j
      rw [List.range_eq_range', mem_zip_range' e1 0 a hl1]
      simp only [Nat.zero_le, true_and, Nat.sub_zero]
      rw [he1, List.getElem?_take]
      by_cases h6 : j < a <;> simp [h6]
    have hz3 : ∀ d j, (d, j) ∈ e3.zip (List.range' (a + 1) b) ↔ a + 1 ≤ j ∧ es[j - (a + 1) + (a + k)]? = some d := by
      intro d j
      rw [mem_zip_range' e3 (a + 1) b hl3, he3, List.getElem?_drop, Nat.add_comm (a + k)]
    have hp1 : ∀ d j, (d, j) ∈ e1.zip (List.range a) → ∃ i t, ts[j]? = some t ∧ (∀ x, t ≠ Target.star x) ∧
        Receives ts es.length j i ∧ es[i]? = some d := by
      intro d j hp
      obtain ⟨h6, h7⟩ := (hz1 d j).1 hp
      have hj : j < ts.length := by omega
      refine ⟨j, ts[j], List.getElem?_eq_getElem hj, ?_, .inl ⟨rfl, ?_⟩, h7⟩
      · intro y hy
        have := hstar j y (by rw [List.getElem?_eq_getElem hj, hy])
        omega
      · intro j' hj' y hy
        have := hstar j' y hy
        omega
    have hp3 : ∀ d j, (d, j) ∈ e3.zip (List.range' (a + 1) b) → ∃ i t, ts[j]? = some t ∧ (∀ x, t ≠ Target.star x) ∧
        Receives ts es.length j i ∧ es[i]? = some d := by
      intro d j hp
      obtain ⟨h6, h7⟩ := (hz3 d j).1 hp
      have hj : j < ts.length := by
        have := (List.getElem?_eq_some_iff.1 h7).1
        omega
      refine ⟨_, ts[j], List.getElem?_eq_getElem hj, ?_, .inr ⟨by omega, ?_⟩, h7⟩
      · intro y hy
        have := hstar j y (by rw [List.getElem?_eq_getElem hj, hy])
        omega
      · intro j' hj' y hy
        have := hstar j' y hy
        omega
    obtain ⟨q1, q2⟩ := hpairs _ hp1
    obtain ⟨r1, r2⟩ := hpairs _ hp3
    have hha : (handlers env extra ts)[a]? = some (.inl x) := by
      rw [handlers_eq, List.getElem?_map, hga]; rfl
    unfold unpack
    simp only [hmatch, hzip]
    rw [loop_plain _ _ _ _ _ q1, loop_star_first _ x a hha e2 (by intro h; rw [h] at hl2; simp at hl2; omega)]
    have hl := loop_plain (handlers env extra ts) (e3.zip (List.range' (a + 1) b)) [] (some (x, e2)) true r1
    rw [List.append_nil] at hl
    rw [hl]
    refine ⟨rfl, fun c => ?_⟩
    simp only [loop, Option.map_some, Option.toList_some, if_true]
    rw [List.mem_append, List.mem_append, q2 c, r2 c, List.mem_singleton]
    have hk' : es.length + 1 - ts.length = k := by omega
    constructor
    · rintro (⟨d, j, t, hp, ht, hc⟩ | ⟨d, j, t, hp, ht, hc⟩ | rfl)
      · obtain ⟨i, t', h6, h7, h8, h9⟩ := hp1 d j hp
        exact .one ht h8 h9 hc
      · obtain ⟨i, t', h6, h7, h8, h9⟩ := hp3 d j hp
        exact .one ht h8 h9 hc
      · have := Gets.star (env := env) (extra := extra) (sx := []) (es := es) hga
        rwa [hk'] at this
    · intro hg
      cases hg with
      | @one _ _ j i t d _ ht hr hd hc =>
        rcases hr with ⟨rfl, h6⟩ | ⟨h6, h7⟩
        · left
          refine ⟨d, j, t, (hz1 d j).2 ⟨?_, hd⟩, ht, hc⟩
          by_contra h8
          exact h6 a (by omega) x hga
        · right; left
          have h9 : a + 1 ≤ j := by
            by_contra h8
            exact h7 a (by omega) x hga
          refine ⟨d, j, t, (hz3 d j).2 ⟨h9, ?_⟩, ht, hc⟩
          rw [← hd]; congr 1; omega
      | @star _ _ j y ht =>
        right; right
        have := hstar j y ht
        subst this
        rw [hga] at ht; cases ht
        rw [hk']

mutual
theorem One.indep {env : σ → Option (List (Option σ))} {extra sx : List σ} (sx' : List σ) {t : Target ν} {d : Option σ}
    {a : Asg ν σ} : One env extra sx t d a → (∃ x l, a = .name x l) → One env extra sx' t d a
  | .name, _ => .name
  | .tup h1 h2, h => .tup h1 (Gets.indep sx' h2 h)
  | .deps h1 h2, _ => .deps h1 h2
theorem Gets.indep {env : σ → Option (List (Option σ))} {extra sx : List σ} (sx' : List σ) {ts : List (Target ν)}
    {es : List (Option σ)} {a : Asg ν σ} :
    Gets env extra sx ts es a → (∃ x l, a = .name x l) → Gets env extra sx' ts es a
  | .one h1 h2 h3 h4, h => .one h1 h2 h3 (One.indep sx' h4 h)
  | .star _, h => by obtain ⟨x, l, h⟩ := h; cases h
end

/-- **C67**, the part that holds: if the assignment succeeds, every starred target receives at least one element, and the
elements which meet nested patterns have symbols, then what is recorded for targets that are not starred is exactly
what should be, and so is what is recorded for starred targets if the right-hand side is no call. Missing (refuted
below): starred targets which receive nothing, starred targets when the right-hand side is a call, and unknown
elements. -/
theorem unpack_partial (env : σ → Option (List (Option σ))) (extra : List σ) {ts : List (Target ν)}
    {es : List (Option σ)} (h : Fits env ts es) :
    (unpack env extra ts es).2 = true ∧
    (∀ x l, .name x l ∈ (unpack env extra ts es).1 ↔ Gets env extra extra ts es (.name x l)) ∧
    (extra = [] → ∀ a, a ∈ (unpack env extra ts es).1 ↔ Gets env extra extra ts es a) := by
  obtain ⟨h1, h2⟩ := unpack_exact_aux env extra h
  refine ⟨h1, fun x l => ?_, ?_⟩
  · rw [h2]
    exact ⟨fun h => h.indep _ ⟨x, l, rfl⟩, fun h => h.indep _ ⟨x, l, rfl⟩⟩
  · rintro rfl; exact h2

/-- The second element of the right-hand side is a pair with known elements. -/
def env0 : Nat → Option (List (Option Nat))
  | 2 => some [some 20, none]
  | _ => none

/-- `a, (b, c), *r, z = v` where `v` has five elements. -/
def targets0 : List (Target Char) := [.name 'a', .tup [.name 'b', .name 'c'], .star 'r', .name 'z']
def elts0 : List (Option Nat) := [some 1, some 2, some 3, none, some 5]

example : Fits env0 targets0 elts0 := by
  have hj : ∀ j us, targets0[j]? = some (.tup us) → j = 1 ∧ us = [.name 'b', .name 'c'] := by
    intro j us h
    match j with
    | 0 => simp [targets0] at h
    | 1 => simp [targets0] at h; exact ⟨rfl, h.symm⟩
    | 2 => simp [targets0] at h
    | 3 => simp [targets0] at h
    | j + 4 => simp [targets0] at h
  have hi : ∀ i, Receives targets0 elts0.length 1 i → i = 1 := by
    rintro i (⟨h, -⟩ | ⟨-, h⟩)
    · exact h.symm
    · exact absurd rfl (h 2 (by omega) 'r')
  refine .mk (by decide) (fun h => absurd (by simp [targets0]) (h 'r')) (fun _ => by decide) ?_ ?_
  · intro j i us h1 h2
    obtain ⟨rfl, -⟩ := hj j us h1
    rw [hi i h2]; decide
  · intro j i us s fs h1 h2 h3 h4
    obtain ⟨rfl, rfl⟩ := hj j us h1
    rw [hi i h2] at h3
    simp only [elts0, List.getElem?_cons_succ, List.getElem?_cons_zero, Option.some.injEq] at h3
    subst h3
    simp only [env0, Option.some.injEq] at h4
    subst h4
    refine .mk (by decide) (fun _ => rfl) (fun ⟨x, hx⟩ => by simp at hx) ?_ ?_
    · intro j i us h
      match j with
      | 0 => simp at h
      | 1 => simp at h
      | j + 2 => simp at h
    · intro j i us s fs h
      match j with
      | 0 => simp at h
      | 1 => simp at h
      | j + 2 => simp at h

example : unpack env0 [9] targets0 elts0 = ([.name 'a' [1, 9], .name 'b' [20, 9], .name 'c' [9], .name 'z' [5, 9],
    .star 'r' [] [some 3, none]], true) := by decide

/-- **C67 is violated** if the starred target receives nothing: in `*r, z = (x,)` nothing is recorded for `z`, and `r`
is recorded as a list of `x`; and in `a, *r, y, z = (1, 2, 3)` the name `y` gets the dependencies of `z`'s element. -/
theorem unpack_violated :
    unpack env0 [] [.star 'r', .name 'z'] [some 1] = ([.star 'r' [] [some 1]], true) ∧
    unpack env0 [] [.name 'a', .star 'r', .name 'y', .name 'z'] [some 1, some 4, some 3] =
      ([.name 'a' [1], .name 'y' [3], .star 'r' [] [some 4]], true) := by decide

/-- **C67 is violated** for starred targets if the right-hand side is a call, `a, *r = f()`: `a` depends on `f`, `r`
does not. -/
theorem unpack_violated_call : unpack env0 [9] [.name 'a', .star 'r'] [some 1, some 3] =
      ([.name 'a' [1, 9], .star 'r' [] [some 3]], true) ∧
    Gets env0 [9] [9] [.name 'a', .star 'r'] [some 1, some 3] (.star 'r' [9] [some 3]) :=
  ⟨by decide, .star (j := 1) rfl⟩

/-- **C67 is violated** by a nested pattern that meets an element without a symbol: `AttributeError`, and nothing is
recorded for the remaining targets. -/
theorem unpack_violated_unknown : unpack env0 [] [.name 'a', .tup [.name 'b', .name 'c'], .name 'd']
    [some 1, none, some 3] = ([.name 'a' [1]], false) := by decide

end Verif.Literal
