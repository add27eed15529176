import Verif.Header.Spec

/-!
# The line `%%memoize`: theorems -/

namespace Verif.Header
open Verif

theorem blank_iff (c : Char) : blank c = true ↔ c = ' ' ∨ c = '\t' ∨ c = '\n' ∨ c = '\r' := by unfold blank; simp

theorem blank_false {c : Char} (h : c ≠ ' ' ∧ c ≠ '\t' ∧ c ≠ '\n' ∧ c ≠ '\r') : blank c = false := by
  cases hb : blank c with
  | false => rfl
  | true =>
    rcases (blank_iff c).mp hb with h1 | h1 | h1 | h1
    · exact absurd h1 h.1
    · exact absurd h1 h.2.1
    · exact absurd h1 h.2.2.1
    · exact absurd h1 h.2.2.2

theorem bare_blank {w : Str} (h : Bare w) {c : Char} (hc : c ∈ w) : blank c = false := by
  have := h.2 c hc
  exact blank_false ⟨this.1, this.2.1, this.2.2.1, this.2.2.2.1⟩

theorem dropWhile_keep {l : Str} {c : Char} (h : blank c = false) : (c :: l).dropWhile blank = c :: l := by
  rw [List.dropWhile_cons, if_neg (by rw [h]; decide)]

/-- Text that begins and ends with no blank is left alone. -/
theorem strip_keep {a b : Char} {l : Str} (ha : blank a = false) (hl : (a :: l).getLast? = some b) (hb : blank b = false) : strip (a :: l) = a :: l := by
  unfold strip
  rw [dropWhile_keep ha]
  have hr : ∃ r, (a :: l).reverse = b :: r := by
    cases h : (a :: l).reverse with
    | nil => simp at h
    | cons x r =>
      have : (a :: l).reverse.head? = some x := by rw [h]; rfl
      rw [List.head?_reverse, hl] at this
      exact ⟨r, by rw [Option.some.inj this]⟩
  obtain ⟨r, hr⟩ := hr
  rw [hr, dropWhile_keep hb, ← hr, List.reverse_reverse]

/-! ## Words -/

theorem lex_word {w : Str} : ∀ (t : Str), (∀ c ∈ w, c ≠ ' ' ∧ c ≠ '\t' ∧ c ≠ '\n' ∧ c ≠ '\r' ∧ c ≠ '\\' ∧ c ≠ '"' ∧ c ≠ '\'') → ∀ rest, lex .word t (w ++ rest) = lex .word (t ++ w) rest := by
  induction w with
  | nil => intro t _ rest; simp
  | cons c w ih =>
    intro t h rest
    have hc := h c (List.mem_cons_self ..)
    rw [List.cons_append, lex, if_neg (by rw [blank_false ⟨hc.1, hc.2.1, hc.2.2.1, hc.2.2.2.1⟩]; decide), if_neg hc.2.2.2.2.1,
      if_neg (by rintro (h1 | h1); exact hc.2.2.2.2.2.1 h1; exact hc.2.2.2.2.2.2 h1), ih _ (fun x hx => h x (List.mem_cons_of_mem _ hx))]
    simp

theorem lex_blank (t cs : Str) : lex .between t (' ' :: cs) = lex .between [] cs := by
  show (if blank ' ' = true then lex .between [] cs else _) = _
  rw [if_pos (by decide)]

theorem lex_start {c : Char} (h : c ≠ ' ' ∧ c ≠ '\t' ∧ c ≠ '\n' ∧ c ≠ '\r' ∧ c ≠ '\\' ∧ c ≠ '"' ∧ c ≠ '\'') (t cs : Str) : lex .between t (c :: cs) = lex .word [c] cs := by
  show (if blank c = true then _ else if c = '\\' then _ else if c = '"' ∨ c = '\'' then _ else lex .word [c] cs) = _
  rw [if_neg (by rw [blank_false ⟨h.1, h.2.1, h.2.2.1, h.2.2.2.1⟩]; decide), if_neg h.2.2.2.2.1,
    if_neg (by rintro (h1 | h1); exact h.2.2.2.2.2.1 h1; exact h.2.2.2.2.2.2 h1)]

theorem lex_spread : ∀ {ws : List Str}, (∀ w ∈ ws, Bare w) → lex .between [] (spread ws) = .ok ws
  | [], _ => rfl
  | w :: ws, h => by
    have hw := h w (List.mem_cons_self ..)
    have ih := lex_spread (fun x hx => h x (List.mem_cons_of_mem _ hx))
    obtain ⟨c, w', rfl⟩ : ∃ c w', w = c :: w' := by
      cases w with
      | nil => exact absurd rfl hw.1
      | cons c w' => exact ⟨c, w', rfl⟩
    have hc := hw.2 c (List.mem_cons_self ..)
    show lex .between [] (' ' :: (c :: w') ++ spread ws) = _
    rw [List.cons_append, lex_blank, List.cons_append, lex_start hc, lex_word _ (fun x hx => hw.2 x (List.mem_cons_of_mem _ hx))]
    cases ws with
    | nil => rfl
    | cons u us =>
      show lex .word ([c] ++ w') (' ' :: (u ++ spread us)) = _
      rw [lex, if_pos (by decide)]
      have : lex .between [] (u ++ spread us) = .ok (u :: us) := by
        have := ih
        rw [show spread (u :: us) = ' ' :: (u ++ spread us) from rfl, lex_blank] at this
        exact this
      rw [this]
      rfl

theorem kind_proper {w : Str} (h : Proper w) : kind w = if w ∈ quietWords then .sets true false else if w ∈ verboseWords then .sets false true else .other := by
  by_cases h1 : w ∈ quietWords
  · rw [if_pos h1]
    simp only [quietWords, List.mem_cons, List.not_mem_nil, or_false] at h1
    rcases h1 with rfl | rfl <;> decide
  · rw [if_neg h1]
    by_cases h2 : w ∈ verboseWords
    · rw [if_pos h2]
      simp only [verboseWords, List.mem_cons, List.not_mem_nil, or_false] at h2
      rcases h2 with rfl | rfl <;> decide
    · rw [if_neg h2]
      rcases h.2 with h3 | h3 | h3
      · exact absurd h3 h1
      · exact absurd h3 h2
      · unfold kind
        split
        · exact absurd rfl h3
        · exact absurd rfl h3
        · rfl

theorem options_proper : ∀ {ws : List Str}, (∀ w ∈ ws, Proper w) → options ws = .ok (decide (∃ w ∈ ws, w ∈ quietWords), decide (∃ w ∈ ws, w ∈ verboseWords))
  | [], _ => by simp [options]
  | w :: ws, h => by
    have hw := h w (List.mem_cons_self ..)
    have ih := options_proper (fun x hx => h x (List.mem_cons_of_mem _ hx))
    have hd : w ≠ ['-', '-'] := by
      rintro rfl
      rcases hw.2 with h1 | h1 | h1
      · revert h1; decide
      · revert h1; decide
      · exact h1 rfl
    have hqv : w ∈ quietWords → w ∉ verboseWords := by
      intro h1
      simp only [quietWords, List.mem_cons, List.not_mem_nil, or_false] at h1
      rcases h1 with rfl | rfl <;> decide
    rw [options, if_neg hd, kind_proper hw, ih]
    by_cases h1 : w ∈ quietWords
    · simp [h1, hqv h1]
    · by_cases h2 : w ∈ verboseWords
      · simp [h1, h2]
      · simp [h1, h2]

theorem parse_spread {ws : List Str} (h : ∀ w ∈ ws, Proper w) : parseVerbosity (spread ws) = .ok (asked ws) := by
  unfold parseVerbosity
  rw [lex_spread (fun w hw => (h w hw).1)]
  dsimp only
  rw [options_proper h]
  unfold asked
  simp

/-! ## Cells -/

theorem spread_noline {ws : List Str} (h : ∀ w ∈ ws, Bare w) : ∀ c ∈ spread ws, c ≠ '\n' := by
  induction ws with
  | nil => intro c hc; cases hc
  | cons w ws ih =>
    intro c hc
    rcases List.mem_append.mp hc with h1 | h1
    · rcases List.mem_cons.mp h1 with h2 | h2
      · rw [h2]; decide
      · exact ((h w (List.mem_cons_self ..)).2 c h2).2.2.1
    · exact ih (fun x hx => h x (List.mem_cons_of_mem _ hx)) c h1

theorem take_line {l : Str} (h : ∀ c ∈ l, c ≠ '\n') (r : Str) : (l ++ '\n' :: r).takeWhile (· ≠ '\n') = l ∧ (l ++ '\n' :: r).dropWhile (· ≠ '\n') = '\n' :: r := by
  induction l with
  | nil => exact ⟨by simp, by simp⟩
  | cons c l ih =>
    have hc := h c (List.mem_cons_self ..)
    have := ih (fun x hx => h x (List.mem_cons_of_mem _ hx))
    refine ⟨?_, ?_⟩
    · rw [List.cons_append, List.takeWhile_cons, if_pos (by simpa using hc), this.1]
    · rw [List.cons_append, List.dropWhile_cons, if_pos (by simpa using hc), this.2]

theorem spread_last : ∀ {ws : List Str}, ws ≠ [] → (∀ w ∈ ws, Bare w) → ∃ c, (spread ws).getLast? = some c ∧ blank c = false
  | [], h, _ => absurd rfl h
  | [w], _, h => by
    have hw := h w (List.mem_cons_self ..)
    refine ⟨w.getLast hw.1, ?_, bare_blank hw (List.getLast_mem _)⟩
    show (' ' :: w ++ []).getLast? = _
    rw [List.append_nil, List.getLast?_cons, List.getLast?_eq_some_getLast hw.1]; rfl
  | w :: u :: us, _, h => by
    obtain ⟨c, h1, h2⟩ := spread_last (ws := u :: us) (by simp) (fun x hx => h x (List.mem_cons_of_mem _ hx))
    refine ⟨c, ?_, h2⟩
    show (' ' :: w ++ spread (u :: us)).getLast? = _
    rw [List.getLast?_append, h1]; rfl

/-- The blanks before the first word do not matter. -/
theorem parse_strip {ws : List Str} (h : ∀ w ∈ ws, Bare w) : parseVerbosity (strip (spread ws)) = parseVerbosity (spread ws) := by
  cases ws with
  | nil => rfl
  | cons w ws =>
    have hw := h w (List.mem_cons_self ..)
    obtain ⟨c, w', rfl⟩ : ∃ c w', w = c :: w' := by
      cases w with
      | nil => exact absurd rfl hw.1
      | cons c w' => exact ⟨c, w', rfl⟩
    obtain ⟨b, h1, h2⟩ := spread_last (ws := (c :: w') :: ws) (by simp) h
    have e : spread ((c :: w') :: ws) = ' ' :: (c :: (w' ++ spread ws)) := rfl
    rw [e] at h1 ⊢
    have hs : strip (' ' :: (c :: (w' ++ spread ws))) = c :: (w' ++ spread ws) := by
      have hk := strip_keep (l := w' ++ spread ws) (bare_blank hw (List.mem_cons_self ..)) (by rw [List.getLast?_cons_cons] at h1; exact h1) h2
      have : strip (' ' :: (c :: (w' ++ spread ws))) = strip (c :: (w' ++ spread ws)) := by
        unfold strip
        rw [List.dropWhile_cons, if_pos (by decide)]
      rw [this, hk]
    rw [hs]
    unfold parseVerbosity
    rw [lex_blank]

/-- What the code does with a cell that begins with the name of the magic. -/
theorem memoized_cell {x : Str} {body : Str} (hx : ∀ c ∈ x, c ≠ '\n') (hb : Body body) :
    memoized (magic ++ x ++ '\n' :: body) =
      match parseVerbosity (strip x) with
      | .error e => .error e
      | .ok l => .ok (some (body, l)) := by
  obtain ⟨z, hz1, hz2⟩ := hb
  have hlast : (magic ++ x ++ '\n' :: body).getLast? = some z := by
    rw [List.getLast?_append, List.getLast?_cons, hz1]; rfl
  have hs : strip (magic ++ x ++ '\n' :: body) = magic ++ x ++ '\n' :: body := strip_keep (a := '%') (l := "%memoize".toList ++ x ++ '\n' :: body) (by decide) hlast (blank_false hz2)
  have hline : ∀ c ∈ magic ++ x, c ≠ '\n' := by
    intro c hc
    rcases List.mem_append.mp hc with h | h
    · exact (by decide : ∀ c ∈ magic, c ≠ '\n') c h
    · exact hx c h
  have ht := take_line hline body
  unfold memoized
  dsimp only
  rw [hs, ht.1, ht.2]
  have hd : (magic ++ x).dropWhile blank = magic ++ x := dropWhile_keep (c := '%') (l := "%memoize".toList ++ x) (by decide)
  rw [hd, if_pos (List.isPrefixOf_iff_prefix.mpr ⟨x, rfl⟩), List.drop_left]
  rfl

/-- **C197, in part.** A cell with the line `%%memoize`, followed by documented options and words that are no options, is memoized with the level asked for and with the code below
the line, unchanged. -/
theorem memoized_partial {ws : List Str} {body : Str} (hw : ∀ w ∈ ws, Proper w) (hb : Body body) :
    memoized (cell "%%memoize" ws body) = .ok (some (body, asked ws)) := by
  have hbare := fun w h => (hw w h).1
  show memoized (magic ++ spread ws ++ '\n' :: body) = _
  rw [memoized_cell (spread_noline hbare) hb, parse_strip hbare, parse_spread hw]

/-- **C197.** A cell that does not begin, blanks aside, with the name of the magic is not memoized. -/
theorem not_memoized {pre : Str} {c : Char} {rest : Str} (hp : ∀ x ∈ pre, x = ' ' ∨ x = '\t' ∨ x = '\n' ∨ x = '\r') (hc : c ≠ '%') (hn : c ≠ ' ' ∧ c ≠ '\t' ∧ c ≠ '\n' ∧ c ≠ '\r') :
    memoized (pre ++ c :: rest) = .ok none := by
  have hd : (pre ++ c :: rest).dropWhile blank = c :: rest := by
    induction pre with
    | nil => exact dropWhile_keep (blank_false hn)
    | cons x pre ih =>
      rw [List.cons_append, List.dropWhile_cons, if_pos ((blank_iff x).mpr (hp x (List.mem_cons_self ..)))]
      exact ih (fun y hy => hp y (List.mem_cons_of_mem _ hy))
  have hs : ∃ r, strip (pre ++ c :: rest) = c :: r := by
    unfold strip
    rw [hd]
    have hpre : ((c :: rest).reverse.dropWhile blank).reverse <+: c :: rest := by
      have := List.dropWhile_suffix blank (l := (c :: rest).reverse)
      simpa using List.reverse_prefix.2 this
    have hne : ((c :: rest).reverse.dropWhile blank) ≠ [] := by
      intro h
      have key : ∀ l : Str, l.dropWhile blank = [] → ∀ x ∈ l, blank x = true := by
        intro l
        induction l with
        | nil => intro _ x hx; cases hx
        | cons a l ih =>
          intro hl x hx
          rw [List.dropWhile_cons] at hl
          split at hl
          · rename_i ha
            rcases List.mem_cons.mp hx with rfl | hx
            · exact ha
            · exact ih hl x hx
          · cases hl
      have := key _ h c (by simp)
      rw [blank_false hn] at this
      cases this
    cases h : ((c :: rest).reverse.dropWhile blank).reverse with
    | nil => exact absurd (List.reverse_eq_nil_iff.mp h) hne
    | cons x r =>
      rw [h] at hpre
      obtain ⟨t, ht⟩ := hpre
      rw [List.cons_append] at ht
      have := (List.cons.inj ht).1
      exact ⟨r, by rw [this]⟩
  obtain ⟨r, hr⟩ := hs
  unfold memoized
  dsimp only
  have ht : (c :: r).takeWhile (· ≠ '\n') = c :: r.takeWhile (· ≠ '\n') := by
    rw [List.takeWhile_cons, if_pos (by simpa using hn.2.2.1)]
  rw [hr, ht, dropWhile_keep (blank_false hn), if_neg]
  intro h
  obtain ⟨t, ht⟩ := List.isPrefixOf_iff_prefix.mp h
  exact hc (List.cons.inj ht).1.symm

/-- **C197 is violated** by other magics: one whose name merely begins with `%%memoize` is taken for it, and its line is dropped. -/
theorem other_magic {x : Str} {ws : List Str} {body : Str} (hx : Bare x) (hd : x.head? ≠ some '-') (hw : ∀ w ∈ ws, Proper w) (hb : Body body) :
    memoized (magic ++ (x ++ spread ws) ++ '\n' :: body) = .ok (some (body, asked ws)) := by
  have hbare := fun w h => (hw w h).1
  have hall : ∀ w ∈ x :: ws, Proper w := by
    intro w h
    rcases List.mem_cons.mp h with rfl | h
    · exact ⟨hx, Or.inr (Or.inr hd)⟩
    · exact hw w h
  have hline : ∀ c ∈ x ++ spread ws, c ≠ '\n' := by
    intro c hc
    rcases List.mem_append.mp hc with h | h
    · exact (hx.2 c h).2.2.1
    · exact spread_noline hbare c h
  have hp := parse_strip (ws := x :: ws) (fun w h => (hall w h).1)
  have hs : strip (spread (x :: ws)) = strip (x ++ spread ws) := by
    show strip (' ' :: x ++ spread ws) = _
    unfold strip
    rw [List.cons_append, List.dropWhile_cons, if_pos (by decide)]
  rw [memoized_cell hline hb, ← hs, hp, parse_spread hall]
  have hq : x ∉ quietWords := by
    intro h
    simp only [quietWords, List.mem_cons, List.not_mem_nil, or_false] at h
    rcases h with rfl | rfl <;> exact hd rfl
  have hv : x ∉ verboseWords := by
    intro h
    simp only [verboseWords, List.mem_cons, List.not_mem_nil, or_false] at h
    rcases h with rfl | rfl <;> exact hd rfl
  unfold asked
  simp [hq, hv]

theorem lex_quote {w : Str} {q : Char} (h : ∀ c ∈ w, c ≠ q ∧ c ≠ '\\') : ∀ t, lex (.quoted q) t w = .error .crash := by
  induction w with
  | nil => intro t; rfl
  | cons c w ih =>
    intro t
    have hc := h c (List.mem_cons_self ..)
    rw [lex, if_neg hc.1, if_neg (fun h => hc.2 h.1)]
    exact ih (fun x hx => h x (List.mem_cons_of_mem _ hx)) _

/-- **C197 is violated** by a word with a single quotation mark, such as an apostrophe: the cell cannot be run, nor its text looked at. -/
theorem quote_fails {x y : Str} {q : Char} {body : Str} (hq : q = '"' ∨ q = '\'') (hx : Bare x) (hy : Bare y) (hb : Body body) :
    memoized (magic ++ (' ' :: x ++ q :: y) ++ '\n' :: body) = .error .crash := by
  have hqn : q ≠ '\n' ∧ q ≠ '\\' ∧ blank q = false := by rcases hq with rfl | rfl <;> decide
  have hline : ∀ c ∈ ' ' :: x ++ q :: y, c ≠ '\n' := by
    intro c hc
    simp only [List.cons_append, List.mem_cons, List.mem_append] at hc
    rcases hc with rfl | h | rfl | h
    · decide
    · exact (hx.2 c h).2.2.1
    · exact hqn.1
    · exact (hy.2 c h).2.2.1
  obtain ⟨c, x', rfl⟩ : ∃ c x', x = c :: x' := by
    cases x with
    | nil => exact absurd rfl hx.1
    | cons c x' => exact ⟨c, x', rfl⟩
  have hc := hx.2 c (List.mem_cons_self ..)
  have hlast : (c :: (x' ++ q :: y)).getLast? = some (y.getLast hy.1) := by
    rw [← List.cons_append, List.getLast?_append, List.getLast?_cons, List.getLast?_eq_some_getLast hy.1]; rfl
  have hs : strip (' ' :: (c :: x') ++ q :: y) = c :: (x' ++ q :: y) := by
    have hk := strip_keep (l := x' ++ q :: y) (bare_blank hx (List.mem_cons_self ..)) hlast (bare_blank hy (List.getLast_mem _))
    rw [← hk]
    unfold strip
    rw [List.cons_append, List.dropWhile_cons, if_pos (by decide)]
    rfl
  rw [memoized_cell hline hb, hs]
  unfold parseVerbosity
  rw [lex_start hc, lex_word _ (fun z hz => hx.2 z (List.mem_cons_of_mem _ hz)),
    lex, if_neg (by rw [hqn.2.2]; decide), if_neg hqn.2.1, if_pos hq, lex_quote (fun z hz => ?_)]
  have := hy.2 z hz
  refine ⟨?_, this.2.2.2.2.1⟩
  rcases hq with rfl | rfl
  · exact this.2.2.2.2.2.1
  · exact this.2.2.2.2.2.2

/-- **C197 is violated** by `-h` and `--help`, after proper words: the program is asked to exit. -/
theorem help_exits {ws rest : List Str} {h : Str} {body : Str} (hh : h ∈ ["-h".toList, "--help".toList]) (hw : ∀ w ∈ ws, Proper w) (hr : ∀ w ∈ rest, Bare w) (hb : Body body) :
    memoized (cell "%%memoize" (ws ++ h :: rest) body) = .error .crash := by
  have hhb : Bare h ∧ h ≠ ['-', '-'] ∧ kind h = .exits := by
    simp only [List.mem_cons, List.not_mem_nil, or_false] at hh
    rcases hh with rfl | rfl <;> exact ⟨by unfold Bare; decide, by decide, by decide⟩
  have hbare : ∀ w ∈ ws ++ h :: rest, Bare w := by
    intro w hm
    rcases List.mem_append.mp hm with h1 | h1
    · exact (hw w h1).1
    · rcases List.mem_cons.mp h1 with rfl | h1
      · exact hhb.1
      · exact hr w h1
  have hopt : ∀ {us : List Str}, (∀ w ∈ us, Proper w) → options (us ++ h :: rest) = .error .crash := by
    intro us
    induction us with
    | nil =>
      intro _
      rw [List.nil_append, options, if_neg hhb.2.1, hhb.2.2]
    | cons u us ih =>
      intro hu
      have hp := hu u (List.mem_cons_self ..)
      have hd : u ≠ ['-', '-'] := by
        rintro rfl
        rcases hp.2 with h1 | h1 | h1
        · revert h1; decide
        · revert h1; decide
        · exact h1 rfl
      have ih' := ih (fun x hx => hu x (List.mem_cons_of_mem _ hx))
      rw [List.cons_append, options, if_neg hd, kind_proper hp, ih']
      split
      · rfl
      · rename_i heq
        split at heq
        · cases heq
        · split at heq <;> cases heq
      · rfl
  show memoized (magic ++ spread (ws ++ h :: rest) ++ '\n' :: body) = _
  rw [memoized_cell (spread_noline hbare) hb, parse_strip hbare]
  unfold parseVerbosity
  rw [lex_spread hbare]
  dsimp only
  rw [hopt hw]

end Verif.Header
