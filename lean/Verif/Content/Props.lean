import Verif.Content.Lemmas

/-! C127: the kernel works with the code that is on the screen. -/

namespace Verif.Content
open Spec

variable {S : Type} [DecidableEq S]

theorem content_heard {check : String → Outcome S} (ht : Tame check) {k : Kernel S} {s : Screen}
    (hn : (s.map (·.id)).Nodup) (id : Nat) (c : String) :
    Has (notify check k s false) id c ↔
      (Shows s id c ∧ (Parses check c ∨ ¬ ∃ d, Has k id d)) ∨
      (Has k id c ∧ ¬ ∃ d, Shows s id d ∧ Parses check d) := by
  cases hg : Assoc.get k.cells id with
  | none =>
    have h0 : ∀ d, ¬ Has k id d := by
      rintro d ⟨cell, h, _⟩
      rw [hg] at h
      exact absurd h (by simp)
    constructor
    · rintro ⟨cell, h, rfl⟩
      rw [notify_none ht hg, Option.map_eq_some_iff] at h
      obtain ⟨d, hd, rfl⟩ := h
      exact Or.inl ⟨(codeIn_iff hn).1 hd, Or.inr (fun ⟨d', hd'⟩ => h0 d' hd')⟩
    · rintro (⟨h, _⟩ | ⟨h, _⟩)
      · exact ⟨_, by rw [notify_none ht hg, (codeIn_iff hn).2 h]; rfl, rfl⟩
      · exact absurd h (h0 c)
  | some cell =>
    have hk : ∀ d, Has k id d ↔ cell.content = d := by
      intro d
      constructor
      · rintro ⟨x, hx, rfl⟩
        rw [hg] at hx
        rw [Option.some.inj hx]
      · intro hd
        exact ⟨cell, hg, hd⟩
    have hex : ∃ d, Has k id d := ⟨cell.content, (hk _).2 rfl⟩
    have hHas : ∀ cell', Assoc.get (notify check k s false).cells id = some cell' →
        (Has (notify check k s false) id c ↔ cell'.content = c) := by
      intro cell' h'
      constructor
      · rintro ⟨x, hx, rfl⟩
        rw [h'] at hx
        rw [Option.some.inj hx]
      · intro hd
        exact ⟨cell', h', hd⟩
    by_cases hsh : ∃ d, Shows s id d
    · obtain ⟨d, hd⟩ := hsh
      have huniq : ∀ d', Shows s id d' → d' = d := by
        intro d' h'
        have h1 := (codeIn_iff hn).2 h'
        rw [(codeIn_iff hn).2 hd] at h1
        exact (Option.some.inj h1).symm
      by_cases hen : Entered k s false
      · have h1 := notify_entered ht hn hg hd hen
        rw [hHas _ h1, hk]
        unfold Checked
        cases hc : check d with
        | ok l m =>
          have hp : Parses check d := ⟨l, m, hc⟩
          show d = c ↔ _
          constructor
          · rintro rfl
            exact Or.inl ⟨hd, Or.inl hp⟩
          · rintro (⟨h, _⟩ | ⟨_, h⟩)
            · exact (huniq c h).symm
            · exact absurd ⟨d, hd, hp⟩ h
        | syntaxError =>
          have hp : ∀ d', Shows s id d' → ¬ Parses check d' := by
            rintro d' h' ⟨l, m, hh⟩
            rw [huniq d' h', hc] at hh
            cases hh
          show cell.content = c ↔ _
          constructor
          · intro h
            exact Or.inr ⟨h, fun ⟨d', h1, h2⟩ => hp d' h1 h2⟩
          · rintro (⟨h, h'⟩ | ⟨h, _⟩)
            · rcases h' with h' | h'
              · exact absurd h' (hp c h)
              · exact absurd hex h'
            · exact h
        | crash => exact absurd hc (ht d)
      · have h1 := notify_skipped (check := check) hg hen
        rw [hHas _ h1, hk]
        have h2 := (not_outdated hg hd hen).1
        constructor
        · intro h
          rw [h2] at h
          subst h
          by_cases hp : Parses check d
          · exact Or.inl ⟨hd, Or.inl hp⟩
          · exact Or.inr ⟨h2, fun ⟨d', h1, h2⟩ => hp (huniq d' h1 ▸ h2)⟩
        · rintro (⟨h, _⟩ | ⟨h, _⟩)
          · rw [h2, huniq c h]
          · exact h
    · rw [hHas _ (notify_absent hg (fun d h => hsh ⟨d, h⟩)), hk]
      constructor
      · intro h
        exact Or.inr ⟨h, fun ⟨d, h1, _⟩ => hsh ⟨d, h1⟩⟩
      · rintro (⟨h, _⟩ | ⟨h, _⟩)
        · exact absurd ⟨c, h⟩ hsh
        · exact h

/-- What the kernel works with after it was told what is on the screen: code that can be parsed is taken over, and
so is any code of a cell that it did not know; otherwise it keeps what it had. -/
theorem heard_iff {check : String → Outcome S} (ht : Tame check) {past : List (Event S)} (hd : Distinct past)
    {e : Event S} (he : Heard past e) (id : Nat) (c : String) :
    Has (after check (e :: past)).kernel id c ↔
      (Shows (screen past) id c ∧ (Parses check c ∨ ¬ ∃ d, Has (after check past).kernel id d)) ∨
      (Has (after check past).kernel id c ∧ ¬ ∃ d, Shows (screen past) id d ∧ Parses check d) := by
  rw [kernel_heard he]
  exact content_heard ht (screen_nodup hd) id c

/-- Once the kernel was told, it works with the code on the screen. -/
theorem heard {check : String → Outcome S} (ht : Tame check) {past : List (Event S)} (hd : Distinct past)
    {e : Event S} (he : Heard past e) : Agrees check (after check (e :: past)) := by
  intro id c hs hp
  rw [screen_after, screen_heard he] at hs
  exact (heard_iff ht hd he id c).2 (Or.inl ⟨hs, Or.inl hp⟩)

/-- Only editing can make the kernel work with other code than the one on the screen. -/
theorem kept {check : String → Outcome S} (ht : Tame check) {past : List (Event S)} (hd : Distinct past)
    (h : Agrees check (after check past)) {e : Event S} (he : ∀ s, e ≠ .edit s) :
    Agrees check (after check (e :: past)) := by
  by_cases hh : Heard past e
  · exact heard ht hd hh
  intro id c hs hp
  have hold : ∀ c, Shows (screen past) id c → Parses check c → Has (after check past).kernel id c := by
    intro c
    have := h id c
    rwa [screen_after] at this
  cases e with
  | edit s => exact absurd rfl (he s)
  | settle =>
    have hr : rested past = some (screen past) := by
      by_contra hr
      exact hh (Or.inr ⟨rfl, hr⟩)
    have hk : after check (Event.settle :: past) = after check past := by
      show settle check (after check past) = _
      unfold settle
      rw [if_pos (by rw [last_after, screen_after, hr])]
    rw [hk] at hs ⊢
    exact h id c hs hp
  | ask r d =>
    rw [screen_after] at hs
    have hs' : Shows (screen past) id c := hs
    obtain ⟨cell, hg, hc⟩ := hold c hs' hp
    cases d with
    | true => exact ⟨cell, hg, hc⟩
    | false =>
      cases r with
      | false => exact absurd (Or.inl rfl) hh
      | true =>
        refine ⟨cell, ?_, hc⟩
        show Assoc.get (notify check (after check past).kernel (after check past).screen true).cells id = _
        exact notify_skipped hg (fun hx => absurd hx.1 (by simp))
  | run i w =>
    rw [screen_after] at hs
    have hs' : Shows (screen past) id c := hs
    obtain ⟨cell, hg, hc⟩ := hold c hs' hp
    show Has (execute (after check past).kernel (after check past).screen i w) id c
    unfold execute
    rw [screen_after]
    by_cases hi : id = i
    · subst hi
      rw [(codeIn_iff (screen_nodup hd)).2 hs']
      exact ⟨_, Assoc.get_set_self _ _ _, rfl⟩
    · cases hci : codeIn (screen past) i with
      | none => exact ⟨cell, hg, hc⟩
      | some d => exact ⟨cell, by dsimp only; rw [Assoc.get_set_ne _ _ hi, hg], hc⟩

/-- Once the notebook has come to rest the kernel works with the code on the screen, if the notebook is not the one
with which it came to rest the time before, or the kernel already did. What is missing is the case in which the
same notebook is back after the kernel has been told about another one. -/
theorem settled_partial {check : String → Outcome S} (ht : Tame check) {past : List (Event S)} (hd : Distinct past)
    (h : rested past ≠ some (screen past) ∨ Agrees check (after check past)) :
    Agrees check (after check (.settle :: past)) := by
  rcases h with h | h
  · exact heard ht hd (Or.inr ⟨rfl, h⟩)
  · exact kept ht hd h (by simp)

theorem settle_same {check : String → Outcome S} {past : List (Event S)} (h : rested past = some (screen past)) :
    after check (.settle :: past) = after check past := by
  show settle check (after check past) = _
  unfold settle
  rw [if_pos (by rw [last_after, screen_after, h])]

/-- The missing case is always wrong: a cell is changed, the kernel hears of it with a request for a schedule, the
change is taken back, and the notebook comes to rest. The kernel goes on with the code which is no longer there. -/
theorem taken_back {check : String → Outcome S} (ht : Tame check) {past : List (Event S)} (hd : Distinct past)
    {A B : Screen} (hA : (A.map (·.id)).Nodup) (hB : (B.map (·.id)).Nodup) {id : Nat} {a b : String}
    (ha : Shows A id a) (hb : Shows B id b) (hne : a ≠ b) (pa : Parses check a) (pb : Parses check b) :
    let es := Event.settle :: .edit A :: .ask false false :: .edit B :: .settle :: .edit A :: past
    Has (after check es).kernel id b ∧ ¬ Agrees check (after check es) := by
  intro es
  have hdB : Distinct (Event.edit B :: .settle :: .edit A :: past) := by
    intro s hs
    simp only [List.mem_cons, Event.edit.injEq, reduceCtorEq, false_or] at hs
    rcases hs with rfl | rfl | hs
    · exact hB
    · exact hA
    · exact hd s hs
  have h1 := (heard_iff ht hdB (e := .ask false false) (Or.inl rfl) id b).2 (Or.inl ⟨hb, Or.inl pb⟩)
  have h2 : Has (after check es).kernel id b := by
    have : after check es = after check (.edit A :: .ask false false :: .edit B :: .settle :: .edit A :: past) :=
      settle_same rfl
    rw [this]
    exact h1
  refine ⟨h2, fun h => ?_⟩
  obtain ⟨x, hx, hxa⟩ := h id a (by rw [screen_after]; exact ha) pa
  obtain ⟨y, hy, hyb⟩ := h2
  rw [hx] at hy
  exact hne (by rw [← hxa, ← hyb, Option.some.inj hy])

/-- The same if the kernel has heard of the change because the cell was run. -/
theorem run_and_taken_back {check : String → Outcome S} {past : List (Event S)}
    {A B : Screen} (hB : (B.map (·.id)).Nodup) {id : Nat} {a b : String}
    (ha : Shows A id a) (hb : Shows B id b) (hne : a ≠ b) (pa : Parses check a) (w : List S) :
    let es := Event.settle :: .edit A :: .run id w :: .edit B :: .settle :: .edit A :: past
    Has (after check es).kernel id b ∧ ¬ Agrees check (after check es) := by
  intro es
  have h2 : Has (after check es).kernel id b := by
    have : after check es = after check (.edit A :: .run id w :: .edit B :: .settle :: .edit A :: past) :=
      settle_same rfl
    rw [this]
    show Has (execute (after check (Event.settle :: .edit A :: past)).kernel B id w) id b
    unfold execute
    rw [(codeIn_iff hB).2 hb]
    exact ⟨_, Assoc.get_set_self _ _ _, rfl⟩
  refine ⟨h2, fun h => ?_⟩
  obtain ⟨x, hx, hxa⟩ := h id a (by rw [screen_after]; exact ha) pa
  obtain ⟨y, hy, hyb⟩ := h2
  rw [hx] at hy
  exact hne (by rw [← hxa, ← hyb, Option.some.inj hy])

/-- A code cell that was turned into text is still looked at, with the code it had. -/
theorem turned_into_text {check : String → Outcome S} (ht : Tame check) {past : List (Event S)} (hd : Distinct past)
    {e : Event S} (he : Heard past e) {id : Nat} {c t : String} (hc : Has (after check past).kernel id c)
    (hx : (⟨id, .text, t⟩ : Item) ∈ screen past) :
    Has (after check (e :: past)).kernel id c ∧ id ∈ toCheck (after check (e :: past)).kernel (screen past) := by
  have hno : ∀ d, ¬ Shows (screen past) id d := by
    intro d hs
    have := List.inj_on_of_nodup_map (screen_nodup hd) hs hx rfl
    simp at this
  have h1 := (heard_iff ht hd he id c).2 (Or.inr ⟨hc, fun ⟨d, h, _⟩ => hno d h⟩)
  refine ⟨h1, ?_⟩
  obtain ⟨cell, hg, _⟩ := h1
  unfold toCheck
  rw [List.mem_filter]
  exact ⟨List.mem_map.2 ⟨_, hx, rfl⟩, by rw [hg]; rfl⟩

/-- A cell that was deleted is not looked at. -/
theorem deleted (k : Kernel S) {s : Screen} {id : Nat} (h : ∀ i ∈ s, i.id ≠ id) : id ∉ toCheck k s := by
  unfold toCheck
  intro hh
  obtain ⟨i, hi, he⟩ := List.mem_map.1 (List.mem_filter.1 hh).1
  exact h i hi he

theorem checkAll_stops {check : String → Outcome S} (pre post : List (Nat × String)) (cells : List (Nat × Cell S))
    {x : Nat} {cx : String} (hx : (Assoc.get cells x).isSome) (hcx : check cx = .crash) {y : Nat}
    (hy : y ∉ Assoc.keys pre) (hne : y ≠ x) :
    Assoc.get (checkAll check (pre ++ (x, cx) :: post) cells).1 y = Assoc.get cells y ∧
    (Assoc.get (checkAll check (pre ++ (x, cx) :: post) cells).1 x).isSome := by
  induction pre generalizing cells with
  | nil =>
    obtain ⟨cell, hg⟩ := Option.isSome_iff_exists.1 hx
    simp only [List.nil_append, checkAll, hg, hcx]
    exact ⟨Assoc.get_set_ne _ _ hne, by rw [Assoc.get_set_self]; rfl⟩
  | cons p rest ih =>
    obtain ⟨i, c⟩ := p
    have hi : y ≠ i := fun hh => hy (by simp [Assoc.keys, hh])
    have hr : y ∉ Assoc.keys rest := fun hh => hy (by
      simp only [Assoc.keys, List.map_cons, List.mem_cons] at hh ⊢
      exact Or.inr hh)
    have hset : ∀ v : Cell S, (Assoc.get (Assoc.set cells i v) x).isSome := by
      intro v
      rw [Assoc.get_set]
      split
      · rfl
      · exact hx
    simp only [List.cons_append, checkAll]
    cases hg : Assoc.get cells i with
    | none => exact ih cells hx hr
    | some cell =>
      cases hc : check c with
      | ok l md =>
        have := ih (Assoc.set cells i (recorded cell c l md)) (hset _) hr
        rw [Assoc.get_set_ne _ _ hi] at this
        exact this
      | syntaxError => exact ih cells hx hr
      | crash => exact ⟨Assoc.get_set_ne _ _ hi, hset _⟩

/-- If looking at the code of one cell fails in another way than with a syntax error, the kernel never hears of
changes in the cells below it, however often it is told. -/
theorem blocked {check : String → Outcome S} {past : List (Event S)} {pre post : List Item} {x y : Nat}
    {cx cy d : String} (hs : screen past = pre ++ ⟨x, .code, cx⟩ :: post) (hn : ((screen past).map (·.id)).Nodup)
    (hcx : check cx = .crash) (hx : ∃ c, Has (after check past).kernel x c)
    (hy : Shows post y cy) (hd : Has (after check past).kernel y d)
    {more : List (Event S)} (hm : ∀ e ∈ more, e = .settle ∨ ∃ r dr, e = .ask r dr) :
    Has (after check (more ++ past)).kernel y d := by
  have hy' : y ∈ post.map (·.id) := List.mem_map.2 ⟨_, hy, rfl⟩
  rw [hs, List.map_append, List.map_cons] at hn
  have hn2 := (List.nodup_append.1 hn).2
  have hyp : y ∉ pre.map (·.id) := fun h => hn2.2 y h y (List.mem_cons_of_mem _ hy') rfl
  have hyx : y ≠ x := by
    rintro rfl
    exact (List.nodup_cons.1 hn2.1).1 hy'
  have key : ∀ more : List (Event S), (∀ e ∈ more, e = .settle ∨ ∃ r dr, e = .ask r dr) →
      screen (more ++ past) = screen past ∧
      Assoc.get (after check (more ++ past)).kernel.cells y = Assoc.get (after check past).kernel.cells y ∧
      (Assoc.get (after check (more ++ past)).kernel.cells x).isSome := by
    intro more
    induction more with
    | nil =>
      intro _
      obtain ⟨c, cell, hg, _⟩ := hx
      exact ⟨rfl, rfl, by rw [List.nil_append, hg]; rfl⟩
    | cons e more ih =>
      intro hm
      obtain ⟨h1, h2, h3⟩ := ih (fun e he => hm e (List.mem_cons_of_mem _ he))
      have hnot : ∀ r, Assoc.get (notify check (after check (more ++ past)).kernel (screen past) r).cells y
            = Assoc.get (after check past).kernel.cells y ∧
          (Assoc.get (notify check (after check (more ++ past)).kernel (screen past) r).cells x).isSome := by
        intro r
        obtain ⟨cell, hg, _⟩ := hd
        by_cases hen : Entered (after check (more ++ past)).kernel (screen past) r
        · have hcs : contents (screen past) = contents pre ++ (x, cx) :: contents post := by
            rw [hs]
            unfold contents
            rw [List.filter_append, List.map_append, List.filter_cons_of_pos (by simp), List.map_cons]
          have hyk : y ∉ Assoc.keys (contents pre) := by
            intro hh
            obtain ⟨⟨i, c⟩, hm, rfl⟩ := List.mem_map.1 hh
            exact hyp (List.mem_map.2 ⟨_, mem_contents.1 hm, rfl⟩)
          have h4 := checkAll_stops (check := check) (contents pre) (contents post)
            (after check (more ++ past)).kernel.cells h3 hcx hyk hyx
          rw [← hcs] at h4
          unfold notify
          dsimp only
          rw [checkedCells_entered hen]
          split
          · exact ⟨by rw [h4.1, h2], h4.2⟩
          · obtain ⟨xc, hxc⟩ := Option.isSome_iff_exists.1 h4.2
            exact ⟨by rw [hg]; exact createAll_some _ _ (by rw [h4.1, h2, hg]),
              by rw [createAll_some _ _ hxc]; rfl⟩
        · obtain ⟨xc, hxc⟩ := Option.isSome_iff_exists.1 h3
          rw [hg]
          exact ⟨notify_skipped (by rw [h2, hg]) hen, by rw [notify_skipped hxc hen]; rfl⟩
      rcases hm e (List.mem_cons_self ..) with rfl | ⟨r, dr, rfl⟩
      · refine ⟨h1, ?_⟩
        show Assoc.get (settle check (after check (more ++ past))).kernel.cells y = _ ∧
          (Assoc.get (settle check (after check (more ++ past))).kernel.cells x).isSome
        unfold settle
        split
        · exact ⟨h2, h3⟩
        · have := hnot false
          dsimp only
          rw [screen_after, h1]
          exact this
      · refine ⟨h1, ?_⟩
        show Assoc.get (step check (after check (more ++ past)) (.ask r dr)).kernel.cells y = _ ∧
          (Assoc.get (step check (after check (more ++ past)) (.ask r dr)).kernel.cells x).isSome
        simp only [step]
        split
        · exact ⟨h2, h3⟩
        · have := hnot r
          dsimp only
          rw [screen_after, h1]
          exact this
  obtain ⟨_, h2, _⟩ := key more hm
  obtain ⟨cell, hg, hc⟩ := hd
  exact ⟨cell, by rw [h2, hg], hc⟩

end Verif.Content
