import Verif.Tagged.Spec

/-!
# The tables agree with the session
-/

namespace Verif.Tagged

theorem seen_ran (h : List Ev) (d : Nat) : seen h d = some true ↔ (latest h d).isSome := by
  induction h generalizing d with
  | nil => simp [seen, latest]
  | cons e h ih =>
    cases e with
    | run c ts =>
      by_cases hd : d = c
      · simp [seen, latest, hd]
      · simp [seen, latest, hd, ih]
    | slice n t b => simpa [seen, latest] using ih d
    | tag n t => simpa [seen, latest] using ih d
    | untag n t => simpa [seen, latest] using ih d
    | mention c =>
      have e : latest (.mention c :: h) d = latest h d := rfl
      rw [seen, e, ← ih]
      by_cases hd : d = c ∧ seen h d = none
      · rw [if_pos hd, hd.2]; simp
      · rw [if_neg hd]
    | rename a b =>
      rw [seen, latest]
      by_cases hr : Renames h a b
      · have hr' := hr
        unfold Renames at hr'
        rw [if_pos hr', if_pos hr]
        by_cases hb : d = b
        · rw [if_pos hb, if_pos hb, ← ih]; simp [hr'.1]
        · rw [if_neg hb, if_neg hb]
          by_cases ha : d = a
          · simp [ha]
          · rw [if_neg ha, if_neg ha]; exact ih d
      · have hr' := hr
        unfold Renames at hr'
        rw [if_neg hr', if_neg hr]; exact ih d

/-- What holds of the tables after a session. -/
structure Inv (h : List Ev) (s : St) : Prop where
  ctr : s.ctr = count h
  cur : ∀ d, s.cur d = latest h d
  unrun : ∀ d, d ∈ s.unrun ↔ seen h d = some false
  obj : ∀ d k, latest h d = some k → ∃ o, s.obj k = some o ∧ o.id = d ∧
    (∀ t, t ∈ o.tags ↔ Had h d t ∨ PutOn h d t) ∧ (∀ t, t ∈ o.reacts ↔ Shows h d t)
  react : ∀ d t, d ∈ s.react t ↔ Shows h d t
  range : ∀ k o, s.obj k = some o → k ≤ s.ctr
  top : ∀ o, s.obj s.ctr = some o → latest h o.id = some s.ctr
  shows : ∀ d t, Shows h d t → (latest h d).isSome
  had : ∀ d t, Had h d t → (latest h d).isSome
  puton : ∀ d t, PutOn h d t → (latest h d).isSome
  last : s.last = lastRun h

theorem Inv.inj {h : List Ev} {s : St} (I : Inv h s) {d e k : Nat} (hd : latest h d = some k)
    (he : latest h e = some k) : d = e := by
  obtain ⟨o, ho, hi, _⟩ := I.obj d k hd
  obtain ⟨o', ho', hi', _⟩ := I.obj e k he
  rw [ho] at ho'
  cases ho'
  exact hi.symm.trans hi'

theorem Inv.le {h : List Ev} {s : St} (I : Inv h s) {d k : Nat} (hd : latest h d = some k) :
    k ≤ count h := by
  obtain ⟨o, ho, _⟩ := I.obj d k hd
  rw [← I.ctr]
  exact I.range k o ho

theorem Inv.prev {h : List Ev} {s : St} (I : Inv h s) {d k : Nat} (hd : latest h d = some k) :
    ∃ o, prevOf s d = some o ∧ o.id = d ∧
    (∀ t, t ∈ o.tags ↔ Had h d t ∨ PutOn h d t) ∧ (∀ t, t ∈ o.reacts ↔ Shows h d t) := by
  obtain ⟨o, ho, hi⟩ := I.obj d k hd
  refine ⟨o, ?_, hi⟩
  unfold prevOf
  rw [I.cur, hd]
  exact ho

theorem Inv.prevD {h : List Ev} {s : St} (I : Inv h s) (d : Nat) :
    (∀ t, t ∈ ((prevOf s d).getD ⟨d, [], []⟩).tags ↔ Had h d t ∨ PutOn h d t) ∧
    (∀ t, t ∈ ((prevOf s d).getD ⟨d, [], []⟩).reacts ↔ Shows h d t) := by
  cases hl : latest h d with
  | none =>
    have hp : prevOf s d = none := by unfold prevOf; rw [I.cur, hl]
    rw [hp]
    have n1 : ∀ t, ¬ Had h d t := fun t q => by have := I.had d t q; simp [hl] at this
    have n2 : ∀ t, ¬ PutOn h d t := fun t q => by have := I.puton d t q; simp [hl] at this
    have n3 : ∀ t, ¬ Shows h d t := fun t q => by have := I.shows d t q; simp [hl] at this
    simp [n1, n2, n3]
  | some k =>
    obtain ⟨o, ho, _, h1, h2⟩ := I.prev hl
    rw [ho]
    exact ⟨h1, h2⟩

theorem inv_run {h : List Ev} {s : St} (I : Inv h s) (c : Nat) (ts : List Nat) :
    Inv (.run c ts :: h) (run s c ts) := by
  obtain ⟨p1, p2⟩ := I.prevD c
  refine ⟨?_, ?_, ?_, ?_, ?_, ?_, ?_, ?_, ?_, ?_, ?_⟩
  · simp [run, count, I.ctr]
  · intro d
    by_cases hd : d = c
    · simp [run, latest, hd, I.ctr]
    · simp [run, latest, hd, I.cur]
  · intro d
    by_cases hd : d = c
    · simp [run, seen, hd]
    · simp [run, seen, hd, I.unrun]
  · intro d k hl
    by_cases hd : d = c
    · subst hd
      simp only [latest, if_true, Option.some.injEq] at hl
      refine ⟨⟨d, ts ++ ((prevOf s d).getD ⟨d, [], []⟩).tags, []⟩, ?_, rfl, ?_, ?_⟩
      · simp [run, ← hl, I.ctr]
      · intro t
        rw [List.mem_append, p1]
        simp [Had, PutOn, or_assoc]
      · intro t; simp [Shows]
    · rw [latest, if_neg hd] at hl
      obtain ⟨o, ho, hi, h1, h2⟩ := I.obj d k hl
      have hk : k ≠ s.ctr + 1 := by have := I.range k o ho; omega
      refine ⟨o, ?_, hi, ?_, ?_⟩
      · simp only [run, if_neg hk]; exact ho
      · intro t; rw [h1]; simp [Had, PutOn, hd]
      · intro t; rw [h2]; simp [Shows, hd]
  · intro d t
    have hreact : d ∈ (run s c ts).react t ↔ Shows h d t ∧ d ≠ c := by
      by_cases ht : t ∈ ((prevOf s c).getD ⟨c, [], []⟩).reacts
      · simp [run, ht, I.react]
      · simp only [run, if_neg ht, I.react]
        rw [p2] at ht
        constructor
        · intro q
          exact ⟨q, fun hd => ht (hd ▸ q)⟩
        · exact fun q => q.1
    rw [hreact]
    simp [Shows, and_comm]
  · intro k o ho
    simp only [run] at ho ⊢
    by_cases hk : k = s.ctr + 1
    · omega
    · rw [if_neg hk] at ho
      have := I.range k o ho
      omega
  · intro o ho
    simp only [run, if_true, Option.some.injEq] at ho
    simp [latest, ← ho, run, I.ctr]
  · intro d t q
    obtain ⟨q1, q2⟩ := q
    rw [latest, if_neg q1]
    exact I.shows d t q2
  · intro d t q
    by_cases hd : d = c
    · simp [latest, hd]
    · rw [latest, if_neg hd]
      rcases q with q | q
      · exact absurd q.1 hd
      · exact I.had d t q
  · intro d t q
    by_cases hd : d = c
    · simp [latest, hd]
    · rw [latest, if_neg hd]
      exact I.puton d t q
  · rfl

/-- The object a command is about. -/
theorem Inv.named_of {h : List Ev} {s : St} (I : Inv h s) {num : Option Nat} {d : Nat}
    (ha : About h num d) : ∃ o, named s num = some (num.getD (count h), o) ∧ o.id = d ∧
    (∀ t, t ∈ o.tags ↔ Had h d t ∨ PutOn h d t) ∧ (∀ t, t ∈ o.reacts ↔ Shows h d t) := by
  obtain ⟨o, ho, hi⟩ := I.obj d _ ha
  refine ⟨o, ?_, hi⟩
  unfold named
  dsimp only
  rw [I.ctr, ho]

theorem named_some {s : St} {num : Option Nat} {k : Nat} {o : Obj} (hn : named s num = some (k, o)) :
    k = num.getD s.ctr ∧ s.obj k = some o := by
  unfold named at hn
  dsimp only at hn
  cases ho : s.obj (num.getD s.ctr) with
  | none => rw [ho] at hn; cases hn
  | some o' =>
    rw [ho] at hn
    simp only [Option.some.injEq, Prod.mk.injEq] at hn
    obtain ⟨rfl, rfl⟩ := hn
    exact ⟨rfl, ho⟩

/-- Events that change neither the numbering nor the ids. -/
theorem Inv.same {h : List Ev} {s s' : St} {e : Ev} (I : Inv h s)
    (hc : count (e :: h) = count h) (hl : ∀ d, latest (e :: h) d = latest h d)
    (hs : ∀ d, seen (e :: h) d = seen h d) (hr : lastRun (e :: h) = lastRun h)
    (h1 : s'.ctr = s.ctr) (h2 : s'.cur = s.cur) (h3 : s'.unrun = s.unrun) (h4 : s'.last = s.last)
    (hobj : ∀ k, (s'.obj k).map Obj.id = (s.obj k).map Obj.id)
    (hin : ∀ d k, latest h d = some k → ∃ o, s'.obj k = some o ∧
      (∀ t, t ∈ o.tags ↔ Had (e :: h) d t ∨ PutOn (e :: h) d t) ∧
      (∀ t, t ∈ o.reacts ↔ Shows (e :: h) d t))
    (hreact : ∀ d t, d ∈ s'.react t ↔ Shows (e :: h) d t)
    (q1 : ∀ d t, Shows (e :: h) d t → (latest h d).isSome)
    (q2 : ∀ d t, Had (e :: h) d t → (latest h d).isSome)
    (q3 : ∀ d t, PutOn (e :: h) d t → (latest h d).isSome) : Inv (e :: h) s' := by
  have key : ∀ k o, s'.obj k = some o → ∃ o', s.obj k = some o' ∧ o'.id = o.id := by
    intro k o ho
    have := hobj k
    rw [ho] at this
    cases hk : s.obj k with
    | none => rw [hk] at this; cases this
    | some o' =>
      rw [hk] at this
      simp only [Option.map_some, Option.some.injEq] at this
      exact ⟨o', rfl, this.symm⟩
  refine ⟨?_, ?_, ?_, ?_, hreact, ?_, ?_, ?_, ?_, ?_, ?_⟩
  · rw [h1, hc, I.ctr]
  · intro d; rw [h2, hl, I.cur]
  · intro d; rw [h3, hs, I.unrun]
  · intro d k hd
    rw [hl] at hd
    obtain ⟨o, ho, r1, r2⟩ := hin d k hd
    refine ⟨o, ho, ?_, r1, r2⟩
    obtain ⟨o', ho', hi⟩ := key k o ho
    obtain ⟨o'', ho'', hi', _⟩ := I.obj d k hd
    rw [ho'] at ho''
    cases ho''
    rw [← hi, hi']
  · intro k o ho
    obtain ⟨o', ho', _⟩ := key k o ho
    rw [h1]
    exact I.range k o' ho'
  · intro o ho
    rw [h1] at ho
    obtain ⟨o', ho', hi⟩ := key _ o ho
    rw [hl, h1, ← hi]
    exact I.top o' ho'
  · intro d t q; rw [hl]; exact q1 d t q
  · intro d t q; rw [hl]; exact q2 d t q
  · intro d t q; rw [hl]; exact q3 d t q
  · rw [h4, hr, I.last]

theorem map_id_set {s : St} {k : Nat} {o o' : Obj} (ho : s.obj k = some o) (hi : o'.id = o.id)
    (j : Nat) : ((setObj s k o').obj j).map Obj.id = (s.obj j).map Obj.id := by
  by_cases hj : j = k
  · subst hj
    simp [setObj, ho, hi]
  · simp [setObj, hj]

/-- A command is about the cell with the object at hand. -/
theorem Inv.about_iff {h : List Ev} {s : St} (I : Inv h s) {num : Option Nat} {d k : Nat}
    (hd : latest h d = some k) : About h num d ↔ k = num.getD s.ctr := by
  unfold About
  rw [hd, I.ctr]
  simp

theorem inv_tag {h : List Ev} {s : St} (I : Inv h s) (num : Option Nat) (u : Nat) :
    Inv (.tag num u :: h) (tag s num u) := by
  have q3 : ∀ d t, PutOn (.tag num u :: h) d t → (latest h d).isSome := by
    intro d t q
    rcases q with q | q
    · rw [q.2]; rfl
    · exact I.puton d t q
  cases hn : named s num with
  | none =>
    have hno : ∀ d, ¬ About h num d := by
      intro d ha
      obtain ⟨o, ho, _⟩ := I.named_of ha
      rw [hn] at ho; cases ho
    have hs : tag s num u = s := by unfold tag; rw [hn]
    rw [hs]
    refine I.same rfl (fun _ => rfl) (fun _ => rfl) rfl rfl rfl rfl rfl (fun _ => rfl) ?_ ?_
      I.shows I.had q3
    · intro d k hd
      obtain ⟨o, ho, _, r1, r2⟩ := I.obj d k hd
      refine ⟨o, ho, ?_, r2⟩
      intro t; rw [r1]; simp [Had, PutOn, hno]
    · exact I.react
  | some p =>
    obtain ⟨k, o⟩ := p
    obtain ⟨hk, ho⟩ := named_some hn
    have hs : tag s num u = setObj s k { o with tags := u :: o.tags } := by unfold tag; rw [hn]
    rw [hs]
    refine I.same rfl (fun _ => rfl) (fun _ => rfl) rfl rfl rfl rfl rfl (map_id_set ho rfl) ?_ ?_
      I.shows I.had q3
    · intro d j hd
      obtain ⟨o', ho', _, r1, r2⟩ := I.obj d j hd
      have ha := I.about_iff (num := num) hd
      by_cases hj : j = k
      · subst hj
        rw [ho] at ho'; cases ho'
        refine ⟨{ o with tags := u :: o.tags }, by simp only [setObj, if_true], ?_, r2⟩
        intro t
        simp only [List.mem_cons, r1, Had, PutOn, ha, hk]
        constructor
        · rintro (q | q | q)
          · exact .inr (.inl ⟨q.symm, trivial⟩)
          · exact .inl q
          · exact .inr (.inr q)
        · rintro (q | q | q)
          · exact .inr (.inl q)
          · exact .inl q.1.symm
          · exact .inr (.inr q)
      · refine ⟨o', ?_, ?_, r2⟩
        · simp only [setObj, if_neg hj]; exact ho'
        · intro t; rw [r1]; simp [Had, PutOn, ha, ← hk, hj]
    · exact I.react

theorem inv_untag {h : List Ev} {s : St} (I : Inv h s) (num : Option Nat) (u : Nat) :
    Inv (.untag num u :: h) (untag s num u) := by
  have q2 : ∀ d t, Had (.untag num u :: h) d t → (latest h d).isSome := fun d t q => I.had d t q.1
  have q3 : ∀ d t, PutOn (.untag num u :: h) d t → (latest h d).isSome :=
    fun d t q => I.puton d t q.1
  cases hn : named s num with
  | none =>
    have hno : ∀ d, ¬ About h num d := by
      intro d ha
      obtain ⟨o, ho, _⟩ := I.named_of ha
      rw [hn] at ho; cases ho
    have hs : untag s num u = s := by unfold untag; rw [hn]
    rw [hs]
    refine I.same rfl (fun _ => rfl) (fun _ => rfl) rfl rfl rfl rfl rfl (fun _ => rfl) ?_ ?_
      I.shows q2 q3
    · intro d k hd
      obtain ⟨o, ho, _, r1, r2⟩ := I.obj d k hd
      refine ⟨o, ho, ?_, r2⟩
      intro t; rw [r1]; simp [Had, PutOn, hno]
    · exact I.react
  | some p =>
    obtain ⟨k, o⟩ := p
    obtain ⟨hk, ho⟩ := named_some hn
    have hs : untag s num u = setObj s k { o with tags := o.tags.filter (· ≠ u) } := by
      unfold untag; rw [hn]
    rw [hs]
    refine I.same rfl (fun _ => rfl) (fun _ => rfl) rfl rfl rfl rfl rfl (map_id_set ho rfl) ?_ ?_
      I.shows q2 q3
    · intro d j hd
      obtain ⟨o', ho', _, r1, r2⟩ := I.obj d j hd
      have ha := I.about_iff (num := num) hd
      by_cases hj : j = k
      · subst hj
        rw [ho] at ho'; cases ho'
        refine ⟨{ o with tags := o.tags.filter (· ≠ u) },
          by simp only [setObj, if_true], ?_, r2⟩
        intro t
        simp only [List.mem_filter, r1, Had, PutOn, ha, hk, decide_eq_true_eq, and_true]
        constructor
        · rintro ⟨q | q, hne⟩
          · exact .inl ⟨q, fun e => hne e.symm⟩
          · exact .inr ⟨q, fun e => hne e.symm⟩
        · rintro (⟨q, hne⟩ | ⟨q, hne⟩)
          · exact ⟨.inl q, fun e => hne e.symm⟩
          · exact ⟨.inr q, fun e => hne e.symm⟩
      · refine ⟨o', ?_, ?_, r2⟩
        · simp only [setObj, if_neg hj]; exact ho'
        · intro t; rw [r1]; simp [Had, PutOn, ha, ← hk, hj]
    · exact I.react

theorem inv_slice {h : List Ev} {s : St} (I : Inv h s) (num : Option Nat) (u : Nat) (b : Bool) :
    Inv (.slice num u b :: h) (slice s num u b) := by
  have q1 : ∀ d t, Shows (.slice num u b :: h) d t → (latest h d).isSome := by
    intro d t q
    rcases q with q | q
    · rw [q.2.2.2]; rfl
    · exact I.shows d t q
  have idle : (∀ d t, ¬ (num = none ∧ b = true ∧ u = t ∧ About h none d)) → slice s num u b = s →
      Inv (.slice num u b :: h) (slice s num u b) := by
    intro hno hs
    rw [hs]
    refine I.same rfl (fun _ => rfl) (fun _ => rfl) rfl rfl rfl rfl rfl (fun _ => rfl) ?_ ?_
      q1 I.had I.puton
    · intro d k hd
      obtain ⟨o, ho, _, r1, r2⟩ := I.obj d k hd
      refine ⟨o, ho, r1, ?_⟩
      intro t; rw [r2]
      exact ⟨.inr, fun q => q.elim (fun q => absurd q (hno d t)) id⟩
    · intro d t; rw [I.react]
      exact ⟨.inr, fun q => q.elim (fun q => absurd q (hno d t)) id⟩
  cases num with
  | some n => exact idle (fun d t q => by cases q.1) rfl
  | none =>
    cases b with
    | false => exact idle (fun d t q => by cases q.2.1) rfl
    | true =>
      cases hn : named s none with
      | none =>
        refine idle (fun d t q => ?_) ?_
        · obtain ⟨o, ho, _⟩ := I.named_of q.2.2.2
          rw [hn] at ho; cases ho
        · simp only [slice, hn, if_true]
      | some p =>
        obtain ⟨k, o⟩ := p
        obtain ⟨hk, ho⟩ := named_some hn
        have hs : slice s none u true = mark s k o u := by simp only [slice, hn, if_true]
        have hk' : k = s.ctr := hk
        have htop : latest h o.id = some k := by
          rw [hk'] at ho ⊢
          exact I.top o ho
        rw [hs]
        refine I.same rfl (fun _ => rfl) (fun _ => rfl) rfl rfl rfl rfl rfl ?_ ?_ ?_
          q1 I.had I.puton
        · exact map_id_set ho rfl
        · intro d j hd
          obtain ⟨o', ho', _, r1, r2⟩ := I.obj d j hd
          have ha := I.about_iff (num := none) hd
          by_cases hj : j = k
          · subst hj
            rw [ho] at ho'; cases ho'
            refine ⟨{ o with reacts := u :: o.reacts },
              by simp only [mark, setObj, if_true], r1, ?_⟩
            intro t
            simp only [List.mem_cons, r2, Shows, ha, hk, true_and, and_true]
            exact ⟨fun q => q.imp Eq.symm id, fun q => q.imp Eq.symm id⟩
          · refine ⟨o', ?_, r1, ?_⟩
            · simp only [mark, setObj, if_neg hj]; exact ho'
            · intro t; rw [r2]; simp [Shows, ha, ← hk', hj]
        · intro d t
          have ha : About h none d ↔ d = o.id := by
            constructor
            · intro q
              have : latest h d = some k := by rw [hk', I.ctr]; exact q
              exact I.inj this htop
            · rintro rfl
              rw [I.about_iff htop]; exact hk
          by_cases ht : t = u
          · subst ht
            simp [mark, Shows, ha, I.react]
          · simp [mark, Shows, I.react, ht, Ne.symm ht]

theorem known_iff {h : List Ev} {s : St} (I : Inv h s) (d : Nat) :
    known s d = false ↔ seen h d = none := by
  have h1 := seen_ran h d
  have h2 := I.unrun d
  have h3 := I.cur d
  unfold known
  rw [h3, Bool.or_eq_false_iff]
  cases hs : seen h d with
  | none =>
    rw [hs] at h1 h2
    have : latest h d = none := by
      cases hl : latest h d with
      | none => rfl
      | some k => rw [hl] at h1; simp at h1
    simp [this, h2]
  | some b =>
    rw [hs] at h1 h2
    cases b with
    | true => simp at h1; simp [h1]
    | false => simp at h2; simp [h2]

theorem inv_mention {h : List Ev} {s : St} (I : Inv h s) (c : Nat) :
    Inv (.mention c :: h) (mention s c) := by
  have hk := known_iff I c
  have hm : mention s c = { s with unrun := if seen h c = none then c :: s.unrun else s.unrun } := by
    unfold mention
    cases hb : known s c with
    | true =>
      rw [hb] at hk
      have : seen h c ≠ none := fun q => by simpa using hk.2 q
      simp [this]
    | false =>
      have := hk.1 hb
      simp [this]
  rw [hm]
  refine ⟨I.ctr, I.cur, ?_, I.obj, I.react, I.range, I.top, I.shows, I.had, I.puton, I.last⟩
  intro d
  rw [seen]
  by_cases hc : seen h c = none
  · by_cases hd : d = c
    · subst hd; simp [hc]
    · simp [hc, hd, I.unrun]
  · by_cases hd : d = c
    · subst hd; simp [hc, I.unrun]
    · simp [hc, hd, I.unrun]

theorem inv_rename {h : List Ev} {s : St} (I : Inv h s) (a b : Nat) :
    Inv (.rename a b :: h) (rename s a b) := by
  by_cases hr : Renames h a b
  · have hr' := hr
    obtain ⟨ha, hb⟩ := hr'
    have hla := (seen_ran h a).1 ha
    obtain ⟨k, hk⟩ := Option.isSome_iff_exists.1 hla
    have hkb := (known_iff I b).2 hb
    have hlb : latest h b = none := by
      cases hl : latest h b with
      | none => rfl
      | some j =>
        have := (seen_ran h b).2 (by simp [hl])
        rw [hb] at this; cases this
    have hab : a ≠ b := fun q => by rw [q, hlb] at hk; cases hk
    have hs : rename s a b = { s with
        obj := fun j => (s.obj j).map fun o => if o.id = a then { o with id := b } else o
        cur := fun i => if i = b then some k else if i = a then none else s.cur i
        react := fun t =>
          if a ∈ s.react t then b :: (s.react t).filter (· ≠ a) else s.react t } := by
      unfold rename
      rw [I.cur, hk]
      simp only [hkb]
      rfl
    rw [hs]
    have nb : ∀ t, ¬ Shows h b t := fun t q => by have := I.shows b t q; simp [hlb] at this
    have hlat : ∀ d, latest (.rename a b :: h) d =
        if d = b then latest h a else if d = a then none else latest h d := by
      intro d; rw [latest, if_pos hr]
    refine ⟨I.ctr, ?_, ?_, ?_, ?_, ?_, ?_, ?_, ?_, ?_, I.last⟩
    · intro d
      rw [hlat, hk]
      by_cases hd : d = b
      · simp [hd]
      · simp [hd, I.cur]
    · intro d
      have hr2 : seen h a = some true ∧ seen h b = none := hr
      rw [seen, if_pos hr2]
      show d ∈ s.unrun ↔ _
      rw [I.unrun]
      by_cases hd : d = b
      · simp [hd, hb]
      · by_cases hd' : d = a
        · simp [hd', ha, hab]
        · simp [hd, hd']
    · intro d j hd
      rw [hlat] at hd
      by_cases hdb : d = b
      · rw [if_pos hdb] at hd
        obtain ⟨o, ho, hi, r1, r2⟩ := I.obj a j hd
        refine ⟨{ o with id := b }, ?_, hdb.symm, ?_, ?_⟩
        · simp [ho, hi]
        · intro t; rw [r1]; simp [Had, PutOn, hr, hdb]
        · intro t; rw [r2]; simp [Shows, hr, hdb]
      · rw [if_neg hdb] at hd
        by_cases hda : d = a
        · rw [if_pos hda] at hd; cases hd
        · rw [if_neg hda] at hd
          obtain ⟨o, ho, hi, r1, r2⟩ := I.obj d j hd
          refine ⟨o, ?_, hi, ?_, ?_⟩
          · have : o.id ≠ a := by rw [hi]; exact hda
            simp [ho, this]
          · intro t; rw [r1]; simp [Had, PutOn, hr, hdb, hda]
          · intro t; rw [r2]; simp [Shows, hr, hdb, hda]
    · intro d t
      rw [Shows, if_pos hr]
      show d ∈ (if a ∈ s.react t then b :: (s.react t).filter (· ≠ a) else s.react t) ↔ _
      by_cases hat : a ∈ s.react t
      · rw [if_pos hat]
        have hsa := (I.react a t).1 hat
        simp only [List.mem_cons, List.mem_filter, I.react, decide_eq_true_eq]
        constructor
        · rintro (q | ⟨q, q'⟩)
          · exact .inl ⟨q, hsa⟩
          · exact .inr ⟨fun e => nb t (e ▸ q), q', q⟩
        · rintro (q | ⟨_, q, q'⟩)
          · exact .inl q.1
          · exact .inr ⟨q', q⟩
      · rw [if_neg hat]
        have hsa : ¬ Shows h a t := fun q => hat ((I.react a t).2 q)
        rw [I.react]
        constructor
        · intro q
          exact .inr ⟨fun e => nb t (e ▸ q), fun e => hsa (e ▸ q), q⟩
        · rintro (q | ⟨_, _, q⟩)
          · exact absurd q.2 hsa
          · exact q
    · intro j o ho
      simp only [Option.map_eq_some_iff] at ho
      obtain ⟨o', ho', _⟩ := ho
      exact I.range j o' ho'
    · intro o ho
      simp only [Option.map_eq_some_iff] at ho
      obtain ⟨o', ho', hoo⟩ := ho
      have ht := I.top o' ho'
      rw [hlat]
      show _ = some s.ctr
      by_cases hi : o'.id = a
      · rw [if_pos hi] at hoo
        rw [← hoo]
        simp only [if_true]
        rw [← hi]; exact ht
      · rw [if_neg hi] at hoo
        subst hoo
        have : o'.id ≠ b := fun q => by rw [q, hlb] at ht; cases ht
        rw [if_neg this, if_neg hi]; exact ht
    · intro d t q
      rw [Shows, if_pos hr] at q
      rw [hlat]
      rcases q with ⟨q, _⟩ | ⟨q, q', q''⟩
      · rw [if_pos q]; exact hla
      · rw [if_neg q, if_neg q']; exact I.shows d t q''
    · intro d t q
      rw [Had, if_pos hr] at q
      rw [hlat]
      rcases q with ⟨q, _⟩ | ⟨q, q', q''⟩
      · rw [if_pos q]; exact hla
      · rw [if_neg q, if_neg q']; exact I.had d t q''
    · intro d t q
      rw [PutOn, if_pos hr] at q
      rw [hlat]
      rcases q with ⟨q, _⟩ | ⟨q, q', q''⟩
      · rw [if_pos q]; exact hla
      · rw [if_neg q, if_neg q']; exact I.puton d t q''
  · have hs : rename s a b = s := by
      unfold rename
      cases hc : s.cur a with
      | none => rfl
      | some k =>
        dsimp only
        cases hkb : known s b with
        | true => rfl
        | false =>
          exfalso
          refine hr ⟨(seen_ran h a).2 ?_, (known_iff I b).1 hkb⟩
          rw [← I.cur, hc]; rfl
    rw [hs]
    refine I.same rfl (fun d => ?_) (fun d => ?_) rfl rfl rfl rfl rfl (fun _ => rfl) ?_ ?_ ?_ ?_ ?_
    · rw [latest, if_neg hr]
    · have hr2 : ¬ (seen h a = some true ∧ seen h b = none) := hr
      rw [seen, if_neg hr2]
    · intro d k hd
      obtain ⟨o, ho, _, r1, r2⟩ := I.obj d k hd
      refine ⟨o, ho, ?_, ?_⟩
      · intro t; rw [r1]; simp [Had, PutOn, hr]
      · intro t; rw [r2]; simp [Shows, hr]
    · intro d t; rw [I.react]; simp [Shows, hr]
    · intro d t q; rw [Shows, if_neg hr] at q; exact I.shows d t q
    · intro d t q; rw [Had, if_neg hr] at q; exact I.had d t q
    · intro d t q; rw [PutOn, if_neg hr] at q; exact I.puton d t q

theorem inv_state (h : List Ev) : Inv h (state h) := by
  induction h with
  | nil =>
    refine ⟨rfl, fun _ => rfl, ?_, ?_, ?_, ?_, ?_, ?_, ?_, ?_, rfl⟩ <;>
      simp [state, fresh, seen, latest, Shows, Had, PutOn]
  | cons e h ih =>
    cases e with
    | run c ts => exact inv_run ih c ts
    | slice n t b => exact inv_slice ih n t b
    | tag n t => exact inv_tag ih n t
    | untag n t => exact inv_untag ih n t
    | mention c => exact inv_mention ih c
    | rename a b => exact inv_rename ih a b

end Verif.Tagged
