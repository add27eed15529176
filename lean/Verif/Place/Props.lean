import Verif.Place.Lemmas

/-!
# Assignments to parts of objects: what is recorded

`n` is the depth of calls that Python allows, `off` says whether tracing has been switched off, `rhs` is the value on the
right side, `over` is false for `+=`.
-/

namespace Verif.Place
open Verif Verif.Chain Verif.Place.Spec

set_option linter.unusedSectionVars false

variable {O : Type} [DecidableEq O]

theorem record_eq {w : World O} {n : Nat} {off : Bool} {rhs : O} {over : Bool} {s s' : St O} {l : Leaf O}
    (h : record w n off rhs over s l = .ok s') : ∃ v r, value w off rhs l.o l.k = .ok v ∧ place w s n l.o l.k v = .ok r ∧
      upsert w s n r l.k v (l.deps.filter fun d => d ∉ l.idx) over = .ok s' := by
  unfold record at h
  cases hv : value w off rhs l.o l.k with
  | error e => rw [hv] at h; exact nomatch h
  | ok v =>
    rw [hv] at h
    simp only at h
    cases hp : place w s n l.o l.k v with
    | error e => rw [hp] at h; exact nomatch h
    | ok r => rw [hp] at h; exact ⟨v, r, rfl, hp, h⟩

theorem record_here {w : World O} {n : Nat} {off : Bool} {rhs : O} {over : Bool} {s s' : St O} {l : Leaf O}
    (ha : Announced w off rhs l) (hl : ∀ v, w.get l.o l.k = some v → v = w.nil ∨ Lone s l.o l.k v)
    (h : record w n off rhs over s l = .ok s') : ∃ v, w.get l.o l.k = some v ∧
      upsert w s n l.o l.k v (l.deps.filter fun d => d ∉ l.idx) over = .ok s' := by
  obtain ⟨v, r, hv, hp, hu⟩ := record_eq h
  have hg := value_eq ha hv
  have hr := place_lone (hl v hg) hp
  subst hr
  exact ⟨v, hg, hu⟩

/-- The invariant while the targets are dealt with. -/
structure Good (w : World O) (s : St O) (ls : List (Leaf O)) : Prop where
  wf : Wf s
  acc : ∀ o k a, (k, a) ∈ s.tab o → (∃ l ∈ ls, l.o = o ∧ l.k = k) ∨ w.get o k = some (s.obj a)
  made : ∀ l ∈ ls, s.made l.o = true
  lone : ∀ l ∈ ls, ∀ v, w.get l.o l.k = some v → v = w.nil ∨ Lone s l.o l.k v
  apart : ls.Pairwise (Apart w s)

theorem good_step {w : World O} {n : Nat} {off : Bool} {rhs : O} {over : Bool} {s s' : St O} {l : Leaf O} {ls : List (Leaf O)}
    (hg : Good w s (l :: ls)) (ha : Announced w off rhs l) (h : record w n off rhs over s l = .ok s') : Good w s' ls := by
  obtain ⟨v, hv, hu⟩ := record_here ha (hg.lone l (by simp)) h
  have he := upsert_entered hg.wf (hg.made l (by simp)) hu
  have hap := List.pairwise_cons.1 hg.apart
  refine ⟨he.wf, ?_, fun l' hl' => he.frame.made _ (hg.made l' (by simp [hl'])), ?_, ?_⟩
  · intro o k a hm
    rcases he.acc o k a hm with ⟨h1, h2, h3⟩ | h1 | ⟨h1, h2⟩
    · subst h1 h2; right; rw [hv, h3]
    · exact .inr h1
    · rcases hg.acc o k a h1 with ⟨l', hl', e1, e2⟩ | h3
      · rcases List.mem_cons.1 hl' with rfl | hl'
        · subst e1 e2
          -- the part just recorded
          obtain ⟨a', h4, h5⟩ := he.here
          have h6 := Assoc.get_eq_some_iff (he.wf.keys l'.o) |>.2 h4
          have h7 := Assoc.get_eq_some_iff (he.wf.keys l'.o) |>.2 hm
          rw [h6] at h7
          cases h7
          right; rw [hv, h5]
        · exact .inl ⟨l', hl', e1, e2⟩
      · right; rw [h3, h2]
  · intro l' hl' u hu'
    rcases hg.lone l' (by simp [hl']) u hu' with h1 | h1
    · exact .inl h1
    · have := hap.1 l' hl'
      have h2 := this.2 v hv
      exact .inr (he.frame.lone h1 h2.1 h2.2 this.1)
  · refine hap.2.imp_of_mem ?_
    intro l1 l2 _ hm2 h12
    have := hap.1 l2 hm2
    have h2 := this.2 v hv
    exact ⟨fun hh => h12.1 (he.frame.seen hh h2.1 h2.2), fun u hu' => ⟨(h12.2 u hu').1, fun hh => (h12.2 u hu').2 (he.frame.seen hh h2.1 h2.2)⟩⟩

theorem good_all {w : World O} {n : Nat} {off : Bool} {rhs : O} {over : Bool} : ∀ {ls : List (Leaf O)} {s s' : St O},
    Good w s ls → (∀ l ∈ ls, Announced w off rhs l) → statement w n off rhs over s ls = .ok s' → Good w s' []
  | [], s, s', hg, _, h => by cases h; exact hg
  | l :: ls, s, s', hg, ha, h => by
    unfold statement at h
    cases hr : record w n off rhs over s l with
    | error e => rw [hr] at h; exact nomatch h
    | ok s1 =>
      rw [hr] at h
      exact good_all (good_step hg (ha l (by simp)) hr) (fun l' hl' => ha l' (by simp [hl'])) h

/-- After an assignment to parts of objects everything that is recorded about parts is so, if it was before.

Missing from the full claim: that no object around a target already has the value (`ancestor_confused`), that the targets do
not matter to each other (`chained_confused`), that lists and dictionaries get the value on the right side
(`unpacked_confused`, `augmented_confused`), and that what is recorded about a target is so under the same index
(`negative_confused`). -/
theorem accurate_partial {w : World O} {n : Nat} {off : Bool} {rhs : O} {over : Bool} {s s' : St O} {ls : List (Leaf O)}
    {h : O → Key → Option O} (hwf : Wf s) (hacc : Accurate h s) (hmade : ∀ l ∈ ls, s.made l.o = true) (honly : OnlyAt w h ls)
    (hidx : ∀ l ∈ ls, ∀ k a, (k, a) ∈ s.tab l.o → Same w l.o l.k k → k = l.k)
    (hann : ∀ l ∈ ls, Announced w off rhs l) (hlone : ∀ l ∈ ls, ∀ v, w.get l.o l.k = some v → v = w.nil ∨ Lone s l.o l.k v)
    (hap : ls.Pairwise (Apart w s)) (hs : statement w n off rhs over s ls = .ok s') : Accurate w.get s' := by
  have hg : Good w s ls := by
    refine ⟨hwf, ?_, hmade, hlone, hap⟩
    intro o k a hm
    by_cases hc : ∃ l ∈ ls, l.o = o ∧ Same w o l.k k
    · obtain ⟨l, hl, rfl, h2⟩ := hc
      exact .inl ⟨l, hl, rfl, (hidx l hl k a hm h2).symm⟩
    · right
      rw [honly o k fun l hl h1 h2 => hc ⟨l, hl, h1, h2⟩]
      exact hacc o k a hm
  intro o k a hm
  rcases (good_all hg hann hs).acc o k a hm with ⟨l, hl, _⟩ | h1
  · exact nomatch hl
  · exact h1

/-- The part that is assigned to is recorded, with the object it now is.

Missing: as for `accurate_partial`. -/
theorem recorded_partial {w : World O} {n : Nat} {off : Bool} {rhs : O} {over : Bool} {s s' : St O} {l : Leaf O}
    (hwf : Wf s) (hmade : s.made l.o = true) (hann : Announced w off rhs l)
    (hlone : ∀ v, w.get l.o l.k = some v → v = w.nil ∨ Lone s l.o l.k v) (hs : record w n off rhs over s l = .ok s') :
    ∃ a, At s' l.o l.k a ∧ w.get l.o l.k = some (s'.obj a) := by
  obtain ⟨v, hv, hu⟩ := record_here hann hlone hs
  obtain ⟨a, h1, h2⟩ := (upsert_entered hwf hmade hu).here
  exact ⟨a, h1, by rw [hv, h2]⟩

/-- Nothing else that is recorded changes, but for the parts of the object that was there before.

Missing: those parts can go over to the new object (see `Rebind`). -/
theorem others_kept_partial {w : World O} {n : Nat} {off : Bool} {rhs : O} {over : Bool} {s s' : St O} {l : Leaf O}
    (hwf : Wf s) (hmade : s.made l.o = true) (hann : Announced w off rhs l)
    (hlone : ∀ v, w.get l.o l.k = some v → v = w.nil ∨ Lone s l.o l.k v) (hs : record w n off rhs over s l = .ok s')
    {o : O} {k : Key} {a : Nat} (ha : At s o k a) (hne : o ≠ l.o ∨ k ≠ l.k) (hold : ∀ b, At s l.o l.k b → s.obj b ≠ o) :
    At s' o k a ∧ s'.obj a = s.obj a ∧ s'.deps a = s.deps a := by
  obtain ⟨v, _, hu⟩ := record_here hann hlone hs
  exact (upsert_entered hwf hmade hu).kept o k a ha hne hold

/-- Where something is recorded when it is recorded elsewhere: if an object around the target has the value, the outermost
one gets a part with the name of the target, and what is recorded about the target itself stays as it was. -/
theorem misplaced {w : World O} {n : Nat} {off : Bool} {rhs : O} {over : Bool} {s s' : St O} {l : Leaf O} {v r : O}
    (hwf : Wf s) (hmade : s.made r = true) (hann : Announced w off rhs l) (hv : w.get l.o l.k = some v) (hnil : v ≠ w.nil)
    (hr : Outermost s l.o l.k v r) (hs : record w n off rhs over s l = .ok s') :
    (∃ a, At s' r l.k a ∧ s'.obj a = v) ∧
    (r ≠ l.o → ∀ a, At s l.o l.k a → (∀ b, At s r l.k b → s.obj b ≠ l.o) → At s' l.o l.k a ∧ s'.obj a = s.obj a) := by
  obtain ⟨v', r', hv', hp, hu⟩ := record_eq hs
  have := value_eq hann hv'
  rw [hv] at this
  cases this
  have := place_outermost hnil hr hp
  subst this
  have he := upsert_entered hwf hmade hu
  refine ⟨he.here, fun hne a ha hold => ?_⟩
  have := he.kept l.o l.k a ha (.inl (Ne.symm hne)) hold
  exact ⟨this.1, this.2.1⟩

/-! ## What it is computed from -/

theorem upsert_deps {w : World O} {n : Nat} {s s' : St O} {o : O} {k : Key} {v : O} {ds : List Nat} {over : Bool} {a : Nat}
    (hwf : Wf s) (hmade : s.made o = true) (h : upsert w s n o k v ds over = .ok s') (ha : At s' o k a) :
    (∀ d ∈ ds, d ≠ a → d ∈ s'.deps a) ∧
    (∀ d ∈ s'.deps a, d ∈ ds ∨ (∃ k', other w o k = some k' ∧ At s o k' d) ∨ (∃ c, s.base o = some c ∧ At s c k d) ∨
      (At s o k a ∧ d ∈ s.deps a ∧ (over = false ∨ a ∈ ds ∨ ∃ e ∈ ds, a ∈ s.deps e))) ∧
    (over = false → At s o k a → ∀ d ∈ s.deps a, d ≠ a → d ∈ s'.deps a) := by
  have he := upsert_entered hwf hmade h
  unfold upsert at h
  cases hg : Assoc.get (s.tab o) k with
  | none =>
    rw [hg] at h
    cases h
    have h1 : Assoc.get ((create w s o k v ds).tab o) k = some s.next := by
      simp only [create, put_same]; exact Assoc.get_set_self _ _ _
    have h2 := (Assoc.get_eq_some_iff (he.wf.keys o)).2 ha
    rw [h1] at h2
    cases h2
    have hno : ∀ a, ¬ At s o k a := by
      intro a h
      exact Assoc.get_eq_none_iff.1 hg (List.mem_map.2 ⟨_, h, rfl⟩)
    have hd : (create w s o k v ds).deps s.next = ds ++ twin w s o k ++ classSym s o k := put_same _ _ _
    refine ⟨?_, ?_, fun _ h => absurd h (hno _)⟩
    · intro d hd' _
      rw [hd]
      simp [hd']
    · intro d hd'
      rw [hd] at hd'
      rcases List.mem_append.1 hd' with hd' | hd'
      · rcases List.mem_append.1 hd' with hd' | hd'
        · exact .inl hd'
        · right; left
          unfold twin at hd'
          cases ho : other w o k with
          | none => rw [ho] at hd'; exact nomatch hd'
          | some k' =>
            rw [ho] at hd'
            exact ⟨k', rfl, Assoc.mem_of_get (by simpa using hd')⟩
      · right; right; left
        unfold classSym at hd'
        cases k with
        | sub i => exact nomatch hd'
        | attr x =>
          cases hb : s.base o with
          | none => rw [hb] at hd'; exact nomatch hd'
          | some c =>
            rw [hb] at hd'
            exact ⟨c, rfl, Assoc.mem_of_get (by simpa using hd')⟩
  | some b =>
    rw [hg] at h
    simp only at h
    have hb := Assoc.mem_of_get hg
    cases hr : rebind w s n b o k v with
    | error e => rw [hr] at h; exact nomatch h
    | ok s1 =>
      rw [hr] at h
      cases h
      have hdeps : s1.deps = s.deps := by
        rcases rebind_cases hr with rfl | ⟨_, _, _, rfl⟩
        · rfl
        · unfold renew
          split <;> rfl
      have hab : a = b := by
        have hb' : At s1 o k b := by
          rcases rebind_cases hr with h1 | ⟨h1, _, h3, h4⟩
          · rw [h1]; exact hb
          · rw [h4]
            unfold renew
            split
            · exact hb
            · rename_i hm
              have hov : o ≠ v := by
                rintro rfl
                exact hm hmade
              show (k, b) ∈ put _ _ _ o
              rw [put_ne _ _ hov, put_ne _ _ (Ne.symm h3)]
              exact hb
        have h1 := (Assoc.get_eq_some_iff (he.wf.keys o)).2 ha
        have h2 := (Assoc.get_eq_some_iff (he.wf.keys o)).2 hb'
        rw [h1] at h2
        exact Option.some.inj h2
      subst hab
      have hd : (redep s1 a ds over).deps a = ((if forgets s1 a ds over then [] else s.deps a) ++ ds).filter fun d => d ≠ a := by
        simp only [redep, put_same, hdeps]
      have hfor : forgets s1 a ds over = forgets s a ds over := by unfold forgets; rw [hdeps]
      rw [hd, hfor]
      refine ⟨?_, ?_, ?_⟩
      · intro d hd' hne
        simp [hd', hne]
      · intro d hd'
        have hd' := (List.mem_filter.1 hd').1
        rcases List.mem_append.1 hd' with hd' | hd'
        · right; right; right
          refine ⟨hb, ?_⟩
          split at hd'
          · exact nomatch hd'
          · rename_i hf
            refine ⟨hd', ?_⟩
            cases over with
            | false => exact .inl rfl
            | true =>
              right
              by_cases h1 : a ∈ ds
              · exact .inl h1
              · right
                have : ¬ (ds.all fun d => decide (a ∉ s.deps d)) = true := by
                  intro h2
                  exact hf (by simp only [forgets, Bool.true_and, Bool.and_eq_true]; exact ⟨decide_eq_true h1, h2⟩)
                rw [List.all_eq_true] at this
                simp only [not_forall] at this
                obtain ⟨e, he1, he2⟩ := this
                exact ⟨e, he1, by simpa using he2⟩
        · exact .inl hd'
      · intro ho _ d hd' hne
        subst ho
        simp [forgets, hd', hne]

/-- The part depends on everything its value was computed from.

Missing: the variables in the index (`index_dependency_lost`), and where it is recorded (as for `accurate_partial`). -/
theorem dependencies_partial {w : World O} {n : Nat} {off : Bool} {rhs : O} {over : Bool} {s s' : St O} {l : Leaf O}
    (hwf : Wf s) (hmade : s.made l.o = true) (hann : Announced w off rhs l)
    (hlone : ∀ v, w.get l.o l.k = some v → v = w.nil ∨ Lone s l.o l.k v) (hs : record w n off rhs over s l = .ok s')
    {a : Nat} (ha : At s' l.o l.k a) :
    (∀ d ∈ l.deps, d ∉ l.idx → d ≠ a → d ∈ s'.deps a) ∧
    (over = false → At s l.o l.k a → ∀ d ∈ s.deps a, d ≠ a → d ∈ s'.deps a) := by
  obtain ⟨v, _, hu⟩ := record_here hann hlone hs
  have := upsert_deps hwf hmade hu ha
  refine ⟨fun d hd hi hne => this.1 d ?_ hne, this.2.2⟩
  simp [hd, hi]

/-- With `=` it depends on nothing else than what its value was computed from, and for a new symbol on what is recorded about
the same attribute of the class, or the same element under its other index.

Missing: if the value was computed from the part itself, or from something that was computed from it, what it depended on
before is kept. -/
theorem dependencies_only_partial {w : World O} {n : Nat} {off : Bool} {rhs : O} {s s' : St O} {l : Leaf O}
    (hwf : Wf s) (hmade : s.made l.o = true) (hann : Announced w off rhs l)
    (hlone : ∀ v, w.get l.o l.k = some v → v = w.nil ∨ Lone s l.o l.k v) (hs : record w n off rhs true s l = .ok s')
    {a : Nat} (ha : At s' l.o l.k a) (h1 : a ∉ l.deps) (h2 : ∀ d ∈ l.deps, a ∉ s.deps d) {d : Nat} (hd : d ∈ s'.deps a) :
    d ∈ l.deps ∨ (∃ k, Same w l.o l.k k ∧ At s l.o k d) ∨ (∃ c, s.base l.o = some c ∧ At s c l.k d) := by
  obtain ⟨v, _, hu⟩ := record_here hann hlone hs
  rcases (upsert_deps hwf hmade hu ha).2.1 d hd with h | ⟨k', h, h'⟩ | h | ⟨_, _, h⟩
  · exact .inl (List.mem_filter.1 h).1
  · right; left
    refine ⟨k', ?_, h'⟩
    · unfold other at h
      split at h
      · rename_i i hk
        split at h
        · rename_i hi
          cases hl : w.len l.o with
          | none => rw [hl] at h; exact nomatch h
          | some m =>
            rw [hl] at h
            cases h
            rw [hk]
            exact .neg hl hi
        · exact nomatch h
      · exact nomatch h
  · exact .inr (.inr h)
  · rcases h with h | h | ⟨e, he, h⟩
    · exact nomatch h
    · exact absurd (List.mem_filter.1 h).1 h1
    · exact absurd h (h2 e (List.mem_filter.1 he).1)

/-! ## Parents -/

theorem value_ok {w : World O} {off : Bool} {rhs : O} {l : Leaf O} {v : O} (ha : Announced w off rhs l)
    (h : w.get l.o l.k = some v) : value w off rhs l.o l.k = .ok v := by
  unfold value
  split
  · rename_i hc
    rcases ha hc.1 with ⟨h1, h2⟩ | h1
    · rcases hc.2 with h | h
      · rw [h1] at h; exact nomatch h
      · exact absurd h2 h
    · rw [h] at h1; cases h1; rfl
  · rw [h]

theorem rebind_ok {w : World O} {s : St O} {n a : Nat} {o : O} {k : Key} {v : O} (h1 : Ends s.parent o n)
    (h2 : Ends s.parent (s.obj a) n) : ∃ s', rebind w s n a o k v = .ok s' := by
  obtain ⟨p, hp⟩ := path_ok (s := s) h2
  obtain ⟨q, hq⟩ := path_ok (s := s) h1
  unfold rebind
  simp only [hp, hq]
  split
  · exact ⟨_, rfl⟩
  · split <;> exact ⟨_, rfl⟩

/-- The assignment is dealt with if the chains of parents of the target and of the object that was there before end soon
enough.

Missing: chains can be longer than Python allows calls to nest, or not end at all (`cycle_made`, `never_ends`). -/
theorem dealt_with_partial {w : World O} {n : Nat} {off : Bool} {rhs : O} {over : Bool} {s : St O} {l : Leaf O} {v : O}
    (hann : Announced w off rhs l) (hv : w.get l.o l.k = some v) (hlone : v = w.nil ∨ Lone s l.o l.k v)
    (hend : Ends s.parent l.o n) (hold : ∀ a, At s l.o l.k a → Ends s.parent (s.obj a) n) :
    ∃ s', record w n off rhs over s l = .ok s' := by
  unfold record
  rw [value_ok hann hv]
  simp only
  have hp : ∃ r, place w s n l.o l.k v = .ok r := by
    unfold place
    split
    · exact ⟨_, rfl⟩
    · obtain ⟨r, hr⟩ := earliest_ok (s := s) (b := isSub l.k) (v := v) hend
      rw [hr]
      exact ⟨_, rfl⟩
  obtain ⟨r, hr⟩ := hp
  have := place_lone hlone hr
  subst this
  rw [hr]
  simp only
  unfold upsert
  cases hg : Assoc.get (s.tab l.o) l.k with
  | none => exact ⟨_, rfl⟩
  | some a =>
    obtain ⟨s', hs'⟩ := rebind_ok (w := w) (k := l.k) (v := v) hend (hold a (Assoc.mem_of_get hg))
    simp only [hs']
    exact ⟨_, rfl⟩

/-- Once an object counts as a part of itself, no assignment to a part of it, or to a part of its parts, is dealt with. -/
theorem never_ends {w : World O} {off : Bool} {rhs : O} {over : Bool} {s : St O} {l : Leaf O} {v p : O}
    (hann : Announced w off rhs l) (hv : w.get l.o l.k = some v) (hnil : v ≠ w.nil) (habove : Above s.parent l.o p)
    (hcyc : Outside s.parent p p) (n : Nat) : record w n off rhs over s l = .error .fuel := by
  unfold record
  rw [value_ok hann hv]
  simp only
  unfold place
  rw [if_neg hnil, earliest_cycle n l.o ⟨p, habove, hcyc⟩]

theorem ends_put {par : O → Option O} {v c : O} (hend : ∀ o, ∃ m, Ends par o m) (hc : ¬ Outside par c v) :
    ∀ o, ∃ m, Ends (put par v (par c)) o m := by
  have off : ∀ {q m}, Ends par q m → ¬ Above par q v → Ends (put par v (par c)) q m := by
    intro q m h
    induction h with
    | @last q m h =>
      intro hn
      have hqv : q ≠ v := by rintro rfl; exact hn (.refl _)
      exact .last (by rw [put_ne _ _ hqv]; exact h)
    | @up q q' m h _ ih =>
      intro hn
      have hqv : q ≠ v := by rintro rfl; exact hn (.refl _)
      exact .up (by rw [put_ne _ _ hqv]; exact h) (ih fun h' => hn (.up h h'))
  have hvends : ∃ m, Ends (put par v (par c)) v m := by
    cases hpc : par c with
    | none => exact ⟨1, .last (put_same _ _ _)⟩
    | some q =>
      obtain ⟨m, hm⟩ := hend q
      refine ⟨m + 1, .up (put_same _ _ _) ?_⟩
      rw [← hpc]
      exact off hm fun h => hc ⟨q, hpc, h⟩
  intro o
  obtain ⟨m, hm⟩ := hend o
  induction hm with
  | @last o m h =>
    by_cases ho : o = v
    · rw [ho]; exact hvends
    · exact ⟨1, .last (by rw [put_ne _ _ ho]; exact h)⟩
  | @up o q m h _ ih =>
    by_cases ho : o = v
    · rw [ho]; exact hvends
    · obtain ⟨m', hm'⟩ := ih
      exact ⟨m' + 1, .up (by rw [put_ne _ _ ho]; exact h) hm'⟩

/-- If no object counts as a part of itself, then none does afterwards.

Missing: when the object that was there before counts as a part of the new one (`cycle_made`). -/
theorem ends_kept_partial {w : World O} {n : Nat} {off : Bool} {rhs : O} {over : Bool} {s s' : St O} {l : Leaf O} {v : O}
    (hann : Announced w off rhs l) (hv : w.get l.o l.k = some v) (hlone : v = w.nil ∨ Lone s l.o l.k v)
    (hend : ∀ o, ∃ m, Ends s.parent o m) (hold : ∀ a, At s l.o l.k a → ¬ Outside s.parent (s.obj a) v)
    (hs : record w n off rhs over s l = .ok s') : ∀ o, ∃ m, Ends s'.parent o m := by
  obtain ⟨v', hv', hu⟩ := record_here hann (fun u hu => by rw [hv] at hu; cases hu; exact hlone) hs
  rw [hv] at hv'
  cases hv'
  unfold upsert at hu
  cases hg : Assoc.get (s.tab l.o) l.k with
  | none => rw [hg] at hu; cases hu; exact hend
  | some a =>
    rw [hg] at hu
    simp only at hu
    cases hr : rebind w s n a l.o l.k v with
    | error e => rw [hr] at hu; exact nomatch hu
    | ok s1 =>
      rw [hr] at hu
      cases hu
      show ∀ o, ∃ m, Ends s1.parent o m
      rcases rebind_cases hr with rfl | ⟨_, _, _, rfl⟩
      · exact hend
      · have := ends_put hend (hold a (Assoc.mem_of_get hg))
        unfold renew
        split <;> exact this

end Verif.Place
