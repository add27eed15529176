import Verif.Waiters.Spec

/-!
# The command that lists waiting variables: theorems

C199. Where all symbols can be judged, the command names exactly the global variables that wait (`global_partial`), or with `all` exactly the symbols with a name that wait
(`all_partial`), each once; a line that begins with another word is refused (`refused`). Violated in that words after the first are passed over (`rest_ignored`) and in that one
symbol that cannot be judged, even one without a name, makes the whole command fail (`one_fails`). -/

namespace Verif.Waiters
open Verif
variable {S : Type} [DecidableEq S]

theorem dropWhile_pre (f : Char → Bool) : ∀ (pre r : List Char), (∀ c ∈ pre, f c = true) → (pre ++ r).dropWhile f = r.dropWhile f
  | [], _, _ => rfl
  | c :: pre, r, h => by
    rw [List.cons_append, List.dropWhile_cons_of_pos (h c (List.mem_cons_self ..))]
    exact dropWhile_pre f pre r (fun x hx => h x (List.mem_cons_of_mem _ hx))

theorem takeWhile_pre (f : Char → Bool) : ∀ (u r : List Char), (∀ c ∈ u, f c = true) → (u ++ r).takeWhile f = u ++ r.takeWhile f
  | [], _, _ => rfl
  | c :: u, r, h => by
    rw [List.cons_append, List.takeWhile_cons_of_pos (h c (List.mem_cons_self ..)), List.cons_append, takeWhile_pre f u r (fun x hx => h x (List.mem_cons_of_mem _ hx))]

theorem firstWord_begins {word c : List Char} (h : Begins word c) : firstWord c = word := by
  obtain ⟨hne, hw, pre, rest, rfl, hp, hr⟩ := h
  unfold firstWord
  rw [List.append_assoc, dropWhile_pre isSpace pre _ hp]
  have h1 : (word ++ rest).dropWhile isSpace = word ++ rest := by
    cases word with
    | nil => exact absurd rfl hne
    | cons a l => rw [List.cons_append, List.dropWhile_cons_of_neg (by rw [hw a (List.mem_cons_self ..)]; decide)]
  rw [h1, takeWhile_pre _ word rest (fun c hc => by rw [hw c hc]; rfl)]
  rcases hr with rfl | ⟨d, r, rfl, hd⟩
  · simp
  · rw [List.takeWhile_cons_of_neg (by rw [hd]; decide), List.append_nil]

theorem firstWord_blank {c : List Char} (h : ∀ x ∈ c, isSpace x = true) : firstWord c = [] := by
  have := dropWhile_pre isSpace c [] h
  rw [List.append_nil] at this
  unfold firstWord
  rw [this]
  rfl

theorem nsAnonymous_iff : ∀ l : List Bool, nsAnonymous l = false ↔ true ∉ l
  | [] => by simp [nsAnonymous]
  | true :: l => by simp [nsAnonymous]
  | false :: l => by simp [nsAnonymous, nsAnonymous_iff l]

omit [DecidableEq S] in
theorem isAnonymous_iff (w : World S) (s : S) : isAnonymous w s = false ↔ HasName w s := by
  unfold isAnonymous HasName
  cases w.anonKind s with
  | true => simp
  | false =>
    rw [if_neg (by decide), ← nsAnonymous_iff]
    cases w.around s with
    | nil => simp [nsAnonymous]
    | cons b l => simp

theorem mem_add {s t : S} {l : List S} : t ∈ add s l ↔ t = s ∨ t ∈ l := by
  unfold add
  split
  · exact ⟨Or.inr, fun h => h.elim (fun h => h ▸ ‹_›) id⟩
  · simp [or_comm]

theorem nodup_add {s : S} {l : List S} (h : l.Nodup) : (add s l).Nodup := by
  unfold add
  split
  · exact h
  · rename_i hs
    rw [List.nodup_append]
    exact ⟨h, by simp, by intro a ha b hb; rw [List.mem_singleton] at hb; subst hb; intro hab; exact hs (hab ▸ ha)⟩

theorem collect_ok {w : World S} {waits : S → Prop} : ∀ {l acc : List S}, (∀ s ∈ l, ∃ b, w.judge s = .ok b ∧ (b = true ↔ waits s)) → acc.Nodup →
    ∃ r, collect w l acc = .ok r ∧ r.Nodup ∧ ∀ s, s ∈ r ↔ s ∈ acc ∨ (s ∈ l ∧ waits s ∧ HasName w s)
  | [], acc, _, hn => ⟨acc, rfl, hn, fun s => by simp⟩
  | t :: l, acc, h, hn => by
    obtain ⟨b, hb, hw⟩ := h t (List.mem_cons_self ..)
    have hstep : ∃ acc', collect w (t :: l) acc = collect w l acc' ∧ acc'.Nodup ∧ ∀ s, s ∈ acc' ↔ s ∈ acc ∨ (s = t ∧ waits s ∧ HasName w s) := by
      by_cases hc : waits t ∧ HasName w t
      · refine ⟨add t acc, ?_, nodup_add hn, ?_⟩
        · rw [collect, hb]
          dsimp only
          rw [hw.mpr hc.1, (isAnonymous_iff w t).mpr hc.2]
          rfl
        · intro s
          rw [mem_add]
          constructor
          · rintro (rfl | h)
            · exact Or.inr ⟨rfl, hc⟩
            · exact Or.inl h
          · rintro (h | ⟨h, -⟩)
            · exact Or.inr h
            · exact Or.inl h
      · refine ⟨acc, ?_, hn, ?_⟩
        · rw [collect, hb]
          dsimp only
          rw [if_neg]
          intro hcond
          rw [Bool.and_eq_true, Bool.not_eq_true'] at hcond
          exact hc ⟨hw.mp hcond.1, (isAnonymous_iff w t).mp hcond.2⟩
        · intro s
          refine ⟨Or.inl, ?_⟩
          rintro (h1 | ⟨rfl, h1⟩)
          · exact h1
          · exact absurd h1 hc
    obtain ⟨acc', h1, h2, h3⟩ := hstep
    obtain ⟨r, hr, hrn, hrm⟩ := collect_ok (fun s hs => h s (List.mem_cons_of_mem _ hs)) h2
    refine ⟨r, h1.trans hr, hrn, fun s => ?_⟩
    rw [hrm, h3, List.mem_cons]
    constructor
    · rintro ((h | ⟨h, h'⟩) | ⟨h, h'⟩)
      · exact Or.inl h
      · exact Or.inr ⟨Or.inl h, h'⟩
      · exact Or.inr ⟨Or.inr h, h'⟩
    · rintro (h | ⟨h | h, h'⟩)
      · exact Or.inl (Or.inl h)
      · exact Or.inl (Or.inr ⟨h, h'⟩)
      · exact Or.inr ⟨h, h'⟩

theorem collectAll_ok {w : World S} {waits : S → Prop} : ∀ {ls : List (List S)} {acc : List S}, (∀ l ∈ ls, ∀ s ∈ l, ∃ b, w.judge s = .ok b ∧ (b = true ↔ waits s)) → acc.Nodup →
    ∃ r, collectAll w ls acc = .ok r ∧ r.Nodup ∧ ∀ s, s ∈ r ↔ s ∈ acc ∨ ((∃ l ∈ ls, s ∈ l) ∧ waits s ∧ HasName w s)
  | [], acc, _, hn => ⟨acc, rfl, hn, fun s => by simp⟩
  | l :: ls, acc, h, hn => by
    obtain ⟨r1, h1, h2, h3⟩ := collect_ok (h l (List.mem_cons_self ..)) hn
    obtain ⟨r, h4, h5, h6⟩ := collectAll_ok (ls := ls) (fun k hk => h k (List.mem_cons_of_mem _ hk)) h2
    refine ⟨r, ?_, h5, fun s => ?_⟩
    · rw [collectAll, h1]; exact h4
    · rw [h6, h3]
      constructor
      · rintro ((h | ⟨h, h'⟩) | ⟨⟨k, hk, h⟩, h'⟩)
        · exact Or.inl h
        · exact Or.inr ⟨⟨l, List.mem_cons_self .., h⟩, h'⟩
        · exact Or.inr ⟨⟨k, List.mem_cons_of_mem _ hk, h⟩, h'⟩
      · rintro (g | ⟨⟨k, hk, g⟩, g'⟩)
        · exact Or.inl (Or.inl g)
        · rcases List.mem_cons.mp hk with rfl | hk
          · exact Or.inl (Or.inr ⟨g, g'⟩)
          · exact Or.inr ⟨⟨k, hk, g⟩, g'⟩

theorem answer_says {w : World S} {waits : S → Prop} {line : List Char} {ss : List (List S)} (hs : sets w line = some ss)
    (h : ∀ l ∈ ss, ∀ s ∈ l, ∃ b, w.judge s = .ok b ∧ (b = true ↔ waits s)) : ∃ a, showWaiting w line = .ok a ∧ Says a (fun s => (∃ l ∈ ss, s ∈ l) ∧ waits s ∧ HasName w s) := by
  obtain ⟨r, h1, h2, h3⟩ := collectAll_ok h List.nodup_nil
  unfold showWaiting
  rw [hs]
  dsimp only
  rw [h1]
  cases r with
  | nil => exact ⟨.nothing, rfl, fun s hp => by cases (h3 s).mpr (Or.inr hp)⟩
  | cons t r =>
    refine ⟨.waiting (t :: r), rfl, List.cons_ne_nil _ _, h2, fun s => ?_⟩
    rw [h3]
    exact ⟨fun h => h.elim (fun h => by cases h) id, Or.inr⟩

/-- **C199, in part.** Without words, and with `global`, the command names exactly the variables of the notebook that wait and have a name, each once, or says that there are none,
if all global variables can be judged. -/
theorem global_partial {w : World S} {waits : S → Prop} {c : List Char} (hc : (∀ x ∈ c, isSpace x = true) ∨ Begins "global".toList c)
    (h : ∀ s ∈ w.globals, ∃ b, w.judge s = .ok b ∧ (b = true ↔ waits s)) : ∃ a, showWaiting w c = .ok a ∧ Says a (fun s => s ∈ w.globals ∧ waits s ∧ HasName w s) := by
  have hs : sets w c = some [w.globals] := by
    unfold sets
    dsimp only
    rcases hc with hc | hc
    · rw [firstWord_blank hc, if_pos (Or.inl rfl)]
    · rw [firstWord_begins hc, if_pos (Or.inr rfl)]
  obtain ⟨a, h1, h2⟩ := answer_says hs (by intro l hl; rw [List.mem_singleton] at hl; subst hl; exact h)
  refine ⟨a, h1, ?_⟩
  have he : (fun s => (∃ l ∈ [w.globals], s ∈ l) ∧ waits s ∧ HasName w s) = (fun s => s ∈ w.globals ∧ waits s ∧ HasName w s) := by
    funext s; simp
  rw [← he]
  exact h2

/-- **C199, in part.** With `all`, the command names exactly the symbols that wait and have a name, each once (also those known under several objects), if all can be judged. -/
theorem all_partial {w : World S} {waits : S → Prop} {c : List Char} (hc : Begins "all".toList c)
    (h : ∀ l ∈ w.aliases, ∀ s ∈ l, ∃ b, w.judge s = .ok b ∧ (b = true ↔ waits s)) :
    ∃ a, showWaiting w c = .ok a ∧ Says a (fun s => (∃ l ∈ w.aliases, s ∈ l) ∧ waits s ∧ HasName w s) := by
  refine answer_says ?_ h
  unfold sets
  dsimp only
  rw [firstWord_begins hc, if_neg (by decide), if_pos rfl]

/-- **C199.** A line that begins with any other word is refused. -/
theorem refused {w : World S} {word c : List Char} (hc : Begins word c) (h1 : word ≠ "global".toList) (h2 : word ≠ "all".toList) : showWaiting w c = .ok .usage := by
  have hs : sets w c = none := by
    unfold sets
    dsimp only
    rw [firstWord_begins hc, if_neg (fun h => h.elim hc.1 h1), if_neg h2]
  unfold showWaiting
  rw [hs]

/-- **C199, violated.** What follows the first word is passed over: the command answers as if it were not there. -/
theorem rest_ignored {w : World S} {word c : List Char} (hc : Begins word c) : showWaiting w c = showWaiting w word := by
  have h : Begins word word := ⟨hc.1, hc.2.1, [], [], by simp, fun _ h => (by cases h), Or.inl rfl⟩
  unfold showWaiting sets
  rw [firstWord_begins hc, firstWord_begins h]

theorem collect_fails {w : World S} {s : S} {e : Err} (he : w.judge s = .error e) : ∀ {l acc : List S}, s ∈ l → ∃ e', collect w l acc = .error e'
  | t :: l, acc, h => by
    rw [collect]
    cases ht : w.judge t with
    | error e' => exact ⟨e', rfl⟩
    | ok b =>
      rcases List.mem_cons.mp h with rfl | h
      · rw [he] at ht; cases ht
      · exact collect_fails he h

/-- **C199, violated.** One global variable that cannot be judged, even one without a name that would not be listed, makes the whole command fail. -/
theorem one_fails {w : World S} {s : S} {e : Err} {c : List Char} (hs : s ∈ w.globals) (he : w.judge s = .error e) (hc : (∀ x ∈ c, isSpace x = true) ∨ Begins "global".toList c) :
    ∃ e', showWaiting w c = .error e' := by
  have hset : sets w c = some [w.globals] := by
    unfold sets
    dsimp only
    rcases hc with hc | hc
    · rw [firstWord_blank hc, if_pos (Or.inl rfl)]
    · rw [firstWord_begins hc, if_pos (Or.inr rfl)]
  obtain ⟨e', h⟩ := collect_fails (acc := []) he hs
  refine ⟨e', ?_⟩
  unfold showWaiting
  rw [hset]
  dsimp only
  rw [collectAll, h]

end Verif.Waiters
