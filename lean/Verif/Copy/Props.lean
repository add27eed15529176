import Verif.Copy.Model

/-!
# C126: What is copied from a slice is the slice -/

namespace Verif.Copy

theorem hexVal_digit {d : Nat} (h : d < 16) : hexVal (hexDigit d) = some d := by
  unfold hexDigit hexVal
  by_cases h1 : d < 10
  · rw [if_pos h1, if_pos (by omega)]; congr 1; omega
  · rw [if_neg h1, if_neg (by omega), if_pos (by omega)]; congr 1; omega

theorem hexDigit_range {d : Nat} (h : d < 16) : 48 ≤ hexDigit d ∧ hexDigit d ≤ 102 := by
  unfold hexDigit
  split <;> omega

/-- What the browser makes of one character. -/
def dec (c : Nat) : List Nat := if c < 65536 then [c] else 85 :: (encChar c).drop 2

theorem js_hex2 (a b : Nat) (ha : a < 16) (hb : b < 16) (l : List Nat) : js (.hex 2 0) (hexDigit a :: hexDigit b :: l) = push (16 * a + b) (js .plain l) := by
  simp [js, hexVal_digit ha, hexVal_digit hb]

theorem js_hex4 (a b c d : Nat) (ha : a < 16) (hb : b < 16) (hc : c < 16) (hd : d < 16) (l : List Nat) :
    js (.hex 4 0) (hexDigit a :: hexDigit b :: hexDigit c :: hexDigit d :: l) = push (16 * (16 * (16 * a + b) + c) + d) (js .plain l) := by
  simp [js, hexVal_digit ha, hexVal_digit hb, hexVal_digit hc, hexVal_digit hd]

/-- Several characters more. -/
def pushAll (s : List Nat) (r : Option (List Nat × List Nat)) : Option (List Nat × List Nat) := r.map fun p => (s ++ p.1, p.2)

theorem push_eq (c : Nat) (r : Option (List Nat × List Nat)) : push c r = pushAll [c] r := rfl

theorem pushAll_append (s t : List Nat) (r : Option (List Nat × List Nat)) : pushAll s (pushAll t r) = pushAll (s ++ t) r := by
  cases r <;> simp [pushAll]

theorem js_plain {c : Nat} (h1 : c ≠ 39) (h2 : c ≠ 92) (h3 : 32 ≤ c) (l : List Nat) : js .plain (c :: l) = pushAll [c] (js .plain l) := by
  simp only [js]
  rw [if_neg h1, if_neg h2, if_neg (by omega)]
  rfl

theorem js_digit {d : Nat} (h : d < 16) (l : List Nat) : js .plain (hexDigit d :: l) = pushAll [hexDigit d] (js .plain l) := by
  have := hexDigit_range h
  refine js_plain (by omega) ?_ (by omega) l
  unfold hexDigit at *
  split <;> omega

theorem js_char {c : Nat} (hc : c < 1114112) (hq : c ≠ 39) (l : List Nat) : js .plain (encChar c ++ l) = pushAll (dec c) (js .plain l) := by
  unfold dec
  by_cases h0 : c < 65536
  · rw [if_pos h0]
    unfold encChar
    by_cases h1 : c = 92
    · subst h1; simp [js, push_eq, simple]
    by_cases h2 : c = 9
    · subst h2; simp [js, push_eq, simple]
    by_cases h3 : c = 10
    · subst h3; simp [js, push_eq, simple]
    by_cases h4 : c = 13
    · subst h4; simp [js, push_eq, simple]
    rw [if_neg h1, if_neg h2, if_neg h3, if_neg h4]
    by_cases h5 : 32 ≤ c ∧ c < 127
    · rw [if_pos h5]
      exact js_plain hq h1 h5.1 l
    rw [if_neg h5]
    by_cases h6 : c < 256
    · rw [if_pos h6]
      simp only [List.cons_append, List.nil_append]
      have : js .plain (92 :: 120 :: hexDigit (c / 16) :: hexDigit (c % 16) :: l) = js (.hex 2 0) (hexDigit (c / 16) :: hexDigit (c % 16) :: l) := by simp [js]
      rw [this, js_hex2 _ _ (by omega) (by omega), push_eq]
      congr 2
      omega
    rw [if_neg h6, if_pos h0]
    simp only [List.cons_append, List.nil_append]
    have : js .plain (92 :: 117 :: hexDigit (c / 4096) :: hexDigit (c / 256 % 16) :: hexDigit (c / 16 % 16) :: hexDigit (c % 16) :: l) =
        js (.hex 4 0) (hexDigit (c / 4096) :: hexDigit (c / 256 % 16) :: hexDigit (c / 16 % 16) :: hexDigit (c % 16) :: l) := by simp [js]
    rw [this, js_hex4 _ _ _ _ (by omega) (by omega) (by omega) (by omega), push_eq]
    congr 2
    omega
  · rw [if_neg h0]
    unfold encChar
    rw [if_neg (by omega), if_neg (by omega), if_neg (by omega), if_neg (by omega), if_neg (by omega), if_neg (by omega), if_neg h0]
    simp only [List.cons_append, List.nil_append, List.drop_succ_cons, List.drop_zero]
    have : ∀ m, js .plain (92 :: 85 :: m) = pushAll [85] (js .plain m) := by intro m; simp [js, push_eq, simple]
    rw [this, js_digit (by omega), js_digit (by omega), js_digit (by omega), js_digit (by omega), js_digit (by omega), js_digit (by omega), js_digit (by omega), js_digit (by omega)]
    simp only [pushAll_append, List.cons_append, List.nil_append]

/-- What the browser makes of a text without quotes. -/
theorem js_enc : ∀ (t : List Nat), (∀ c ∈ t, c < 1114112 ∧ c ≠ 39) → ∀ l, js .plain (enc t ++ l) = pushAll (t.flatMap dec) (js .plain l)
  | [], _, l => by simp [enc, pushAll]
  | c :: t, h, l => by
    have h1 := h c (by simp)
    have ih := js_enc t (fun d hd => h d (by simp [hd])) l
    simp only [enc, List.flatMap_cons, List.append_assoc] at ih ⊢
    rw [js_char h1.1 h1.2, ih, pushAll_append]

/-- Which characters can be in the escaped text. -/
theorem mem_encChar {c d : Nat} (h : d ∈ encChar c) (hc : c < 1114112) (hd : d = 34 ∨ d = 37 ∨ d = 38) : d = c := by
  have hx : ∀ e, e < 16 → d ≠ hexDigit e := by
    intro e he hde
    have := hexDigit_range he
    omega
  unfold encChar at h
  by_cases h1 : c = 92
  · rw [if_pos h1] at h; simp at h; omega
  rw [if_neg h1] at h
  by_cases h2 : c = 9
  · rw [if_pos h2] at h; simp at h; omega
  rw [if_neg h2] at h
  by_cases h3 : c = 10
  · rw [if_pos h3] at h; simp at h; omega
  rw [if_neg h3] at h
  by_cases h4 : c = 13
  · rw [if_pos h4] at h; simp at h; omega
  rw [if_neg h4] at h
  by_cases h5 : 32 ≤ c ∧ c < 127
  · rw [if_pos h5] at h; simpa using h
  rw [if_neg h5] at h
  exfalso
  by_cases h6 : c < 256
  · rw [if_pos h6] at h
    simp only [List.mem_cons, List.not_mem_nil, or_false] at h
    rcases h with h | h | h | h
    · omega
    · omega
    · exact hx _ (by omega) h
    · exact hx _ (by omega) h
  rw [if_neg h6] at h
  by_cases h7 : c < 65536
  · rw [if_pos h7] at h
    simp only [List.mem_cons, List.not_mem_nil, or_false] at h
    rcases h with h | h | h | h | h | h
    · omega
    · omega
    all_goals exact hx _ (by omega) h
  rw [if_neg h7] at h
  simp only [List.mem_cons, List.not_mem_nil, or_false] at h
  rcases h with h | h | h | h | h | h | h | h | h | h
  · omega
  · omega
  all_goals exact hx _ (by omega) h

theorem unref_id : ∀ (l : List Nat), 38 ∉ l → unref 0 l = l
  | [], _ => rfl
  | c :: l, h => by
    simp only [List.mem_cons, not_or] at h
    rw [unref, if_neg (fun hc => h.1 hc.symm), unref_id l h.2]

theorem unpercent_id : ∀ (l : List Nat), 37 ∉ l → unpercent 0 l = l
  | [], _ => rfl
  | c :: l, h => by
    simp only [List.mem_cons, not_or] at h
    rw [unpercent, if_neg (fun hc => h.1 hc.symm), unpercent_id l h.2]

theorem not_mem_enc {t : List Nat} (ht : ∀ c ∈ t, c < 1114112) {d : Nat} (hd : d = 34 ∨ d = 37 ∨ d = 38) (h : d ∉ t) : d ∉ enc t := by
  intro hm
  simp only [enc, List.mem_flatMap] at hm
  obtain ⟨c, hc, hm⟩ := hm
  exact h (mem_encChar hm (ht c hc) hd ▸ hc)

theorem takeWhile_stop {l r : List Nat} (h : 34 ∉ l) : (l ++ 34 :: r).takeWhile (· ≠ 34) = l := by
  rw [List.takeWhile_append_of_pos (by intro a ha; simp; rintro rfl; exact h ha)]
  simp

/-- The script, for text without `&` and `%`. -/
theorem script {t : List Nat} (ht : ∀ c ∈ t, c < 1114112) (ha : 38 ∉ t) (hp : 37 ∉ t) :
    unpercent 0 (unref 0 ((enc t ++ [39, 41, 34]).takeWhile (· ≠ 34))) = (enc t ++ [39, 41, 34]).takeWhile (· ≠ 34) := by
  have hsub : ∀ d, d ∈ (enc t ++ [39, 41, 34]).takeWhile (· ≠ 34) → d ∈ enc t ++ [39, 41, 34] := fun d hd => (List.takeWhile_sublist _).subset hd
  have h38 : 38 ∉ (enc t ++ [39, 41, 34]).takeWhile (· ≠ 34) := by
    intro h
    rcases List.mem_append.1 (hsub _ h) with h | h
    · exact not_mem_enc ht (.inr (.inr rfl)) ha h
    · simp at h
  have h37 : 37 ∉ (enc t ++ [39, 41, 34]).takeWhile (· ≠ 34) := by
    intro h
    rcases List.mem_append.1 (hsub _ h) with h | h
    · exact not_mem_enc ht (.inr (.inl rfl)) hp h
    · simp at h
  rw [unref_id _ h38, unpercent_id _ h37]

theorem enc_append (a b : List Nat) : enc (a ++ b) = enc a ++ enc b := by simp [enc]

theorem enc_cons (c : Nat) (b : List Nat) : enc (c :: b) = encChar c ++ enc b := by simp [enc]

/-- A text is copied as it is exactly if it has neither kind of quote and no character beyond the first 65536 (such as emoji), given that it has no `&` and no `%` (`ampersand`, `percent_sign`). -/
theorem copied_iff (t : List Nat) (ht : ∀ c ∈ t, c < 1114112) (ha : 38 ∉ t) (hp : 37 ∉ t) : copied t = some t ↔ ∀ c ∈ t, c ≠ 39 ∧ c ≠ 34 ∧ c < 65536 := by
  have hdec : ∀ c, c < 65536 → dec c = [c] := fun c h => by simp [dec, h]
  have hdecs : ∀ l : List Nat, (∀ c ∈ l, c < 65536) → l.flatMap dec = l := by
    intro l hl
    induction l with
    | nil => rfl
    | cons c l ih => rw [List.flatMap_cons, hdec c (hl c (by simp)), ih (fun d hd => hl d (by simp [hd]))]; rfl
  unfold copied
  rw [script ht ha hp]
  constructor
  · intro h
    -- the first quote
    by_cases hq : ∃ c ∈ t, c = 39 ∨ c = 34
    · exfalso
      obtain ⟨pre, q, post, rfl, hq1, hpre⟩ : ∃ pre q post, t = pre ++ q :: post ∧ (q = 39 ∨ q = 34) ∧ ∀ c ∈ pre, c ≠ 39 ∧ c ≠ 34 := by
        clear h ht ha hp
        induction t with
        | nil => obtain ⟨c, hc, _⟩ := hq; simp at hc
        | cons d t ih =>
          by_cases hd : d = 39 ∨ d = 34
          · exact ⟨[], d, t, rfl, hd, by simp⟩
          · obtain ⟨c, hc, hc'⟩ := hq
            have hct : c ∈ t := by
              rcases List.mem_cons.1 hc with rfl | h
              · exact absurd hc' hd
              · exact h
            obtain ⟨pre, q, post, h1, h2, h3⟩ := ih ⟨c, hct, hc'⟩
            refine ⟨d :: pre, q, post, by rw [h1]; rfl, h2, ?_⟩
            intro e he
            rcases List.mem_cons.1 he with rfl | he
            · omega
            · exact h3 e he
      have hpre' : ∀ c ∈ pre, c < 1114112 ∧ c ≠ 39 := fun c hc => ⟨ht c (by simp [hc]), (hpre c hc).1⟩
      have h34 : 34 ∉ enc pre := not_mem_enc (fun c hc => (hpre' c hc).1) (.inl rfl) (fun h => (hpre 34 h).2 rfl)
      rw [enc_append, enc_cons] at h
      rcases hq1 with rfl | rfl
      · have he : encChar 39 = [39] := by decide
        rw [he] at h
        have : (enc pre ++ ([39] ++ enc post) ++ [39, 41, 34]).takeWhile (· ≠ 34) = enc pre ++ 39 :: ((enc post ++ [39, 41, 34]).takeWhile (· ≠ 34)) := by
          rw [List.append_assoc, List.takeWhile_append_of_pos (by intro a ha; simp; rintro rfl; exact h34 ha)]
          simp
        rw [this, js_enc pre hpre'] at h
        simp only [js, if_true, pushAll, Option.map_some, List.append_nil] at h
        have hs : pre.flatMap dec = pre ++ 39 :: post := by
          split at h
          · rename_i s hm
            simp only [Option.some.injEq, Prod.mk.injEq] at hm h
            rw [hm.1]; exact h
          · cases h
        have hlow : ∀ c ∈ pre, c < 65536 := by
          intro c hc
          have : c ∈ pre.flatMap dec := by rw [hs]; simp [hc]
          obtain ⟨d, hd, hd'⟩ := List.mem_flatMap.1 this
          unfold dec at hd'
          split at hd'
          · simp only [List.mem_singleton] at hd'; omega
          · -- digits are small
            rename_i hbig
            have hd16 := (hpre' d hd).1
            rcases List.mem_cons.1 hd' with h | h
            · omega
            · unfold encChar at h
              rw [if_neg (by omega), if_neg (by omega), if_neg (by omega), if_neg (by omega), if_neg (by omega), if_neg (by omega), if_neg hbig] at h
              simp only [List.drop_succ_cons, List.drop_zero, List.mem_cons, List.not_mem_nil, or_false] at h
              have hr : ∀ e, e < 16 → hexDigit e < 65536 := fun e he => by have := hexDigit_range he; omega
              rcases h with h | h | h | h | h | h | h | h <;> rw [h] <;> exact hr _ (by omega)
        rw [hdecs pre hlow] at hs
        have := congrArg List.length hs
        simp at this
      · have he : encChar 34 = [34] := by decide
        rw [he] at h
        have : (enc pre ++ ([34] ++ enc post) ++ [39, 41, 34]).takeWhile (· ≠ 34) = enc pre := by
          have := takeWhile_stop (r := enc post ++ [39, 41, 34]) h34
          simpa [List.append_assoc] using this
        rw [this] at h
        have h0 := js_enc pre hpre' []
        rw [List.append_nil] at h0
        rw [h0] at h
        simp [js, pushAll] at h
    · have hq' : ∀ c ∈ t, c ≠ 39 ∧ c ≠ 34 := by
        intro c hc
        constructor
        · intro h; exact hq ⟨c, hc, .inl h⟩
        · intro h; exact hq ⟨c, hc, .inr h⟩
      have h34 : 34 ∉ enc t := not_mem_enc ht (.inl rfl) (fun h => (hq' 34 h).2 rfl)
      have : (enc t ++ [39, 41, 34]).takeWhile (· ≠ 34) = enc t ++ [39, 41] := by
        have := takeWhile_stop (l := enc t ++ [39, 41]) (r := []) (by simp [h34])
        simpa [List.append_assoc] using this
      rw [this, js_enc t (fun c hc => ⟨ht c hc, (hq' c hc).1⟩)] at h
      simp [js, pushAll] at h
      -- longer if there is a big one
      have hlen : ∀ l : List Nat, l.length ≤ (l.flatMap dec).length ∧ (∀ c ∈ l, ¬ c < 65536 → l.length < (l.flatMap dec).length) := by
        intro l
        induction l with
        | nil => simp
        | cons d l ih =>
          have hd : 1 ≤ (dec d).length := by unfold dec; split <;> simp
          have hd2 : ¬ d < 65536 → 2 ≤ (dec d).length := by
            intro hb
            unfold dec encChar
            rw [if_neg hb, if_neg (by omega), if_neg (by omega), if_neg (by omega), if_neg (by omega), if_neg (by omega), if_neg (by omega), if_neg hb]
            simp
          rw [List.flatMap_cons, List.length_append, List.length_cons]
          refine ⟨by omega, ?_⟩
          intro c hc hb
          rcases List.mem_cons.1 hc with rfl | hc
          · have := hd2 hb; omega
          · have := ih.2 c hc hb; omega
      intro c hc
      refine ⟨(hq' c hc).1, (hq' c hc).2, ?_⟩
      by_contra hb
      have := (hlen t).2 c hc hb
      rw [h] at this
      omega
  · intro h
    have h34 : 34 ∉ enc t := not_mem_enc ht (.inl rfl) (fun hm => (h 34 hm).2.1 rfl)
    have : (enc t ++ [39, 41, 34]).takeWhile (· ≠ 34) = enc t ++ [39, 41] := by
      have := takeWhile_stop (l := enc t ++ [39, 41]) (r := []) (by simp [h34])
      simpa [List.append_assoc] using this
    rw [this, js_enc t (fun c hc => ⟨ht c hc, (h c hc).1⟩), hdecs t (fun c hc => (h c hc).2.2)]
    simp [js, pushAll]

/-- `x = 1`, a new line, a backslash, `é` and a character of Japanese. -/
example : copied [120, 32, 61, 32, 49, 10, 92, 233, 12354] = some [120, 32, 61, 32, 49, 10, 92, 233, 12354] :=
  (copied_iff _ (by decide) (by decide) (by decide)).2 (by decide)

/-- A text is shown as it is exactly if it has no `<` followed by a letter, `/`, `!` or `?`, given that it has no `&`. -/
theorem shown_iff (t : List Nat) (ha : 38 ∉ t) : shown t = t ↔
    ∀ pre post, t = pre ++ 60 :: post → ∀ c ∈ post.head?, ¬ (65 ≤ c ∧ c ≤ 90 ∨ 97 ≤ c ∧ c ≤ 122 ∨ c = 47 ∨ c = 33 ∨ c = 63) := by
  have hsub : ∀ (l : List Nat) (b : Bool), List.Sublist (untag b l) l := by
    intro l
    induction l with
    | nil => intro b; cases b <;> simp [untag]
    | cons c l ih =>
      intro b
      cases b with
      | true =>
        simp only [untag]
        split
        · exact (ih false).cons _
        · exact (ih true).cons _
      | false =>
        simp only [untag]
        split
        · exact (ih true).cons _
        · exact (ih false).cons_cons _
  have hun : shown t = untag false t := unref_id _ (fun h => ha ((hsub t false).subset h))
  rw [hun]
  clear hun ha
  induction t with
  | nil => simp [untag]
  | cons c t ih =>
    by_cases h : c = 60 ∧ tagStart t = true
    · obtain ⟨rfl, ht⟩ := h
      constructor
      · intro hu
        exfalso
        simp only [untag, ht, and_self, if_true] at hu
        have := (hsub t true).length_le
        rw [hu, List.length_cons] at this
        omega
      · intro hall
        exfalso
        cases t with
        | nil => simp [tagStart] at ht
        | cons d t =>
          simp only [tagStart, decide_eq_true_eq] at ht
          exact hall [] (d :: t) rfl d (by simp) ht
    · have hc : untag false (c :: t) = c :: untag false t := by
        rw [untag, if_neg h]
      rw [hc, List.cons.injEq]
      refine (and_iff_right rfl).trans (ih.trans ?_)
      constructor
      · intro hall pre post hp d hd
        cases pre with
        | nil =>
          simp only [List.nil_append, List.cons.injEq] at hp
          obtain ⟨rfl, rfl⟩ := hp
          intro hs
          apply h
          refine ⟨rfl, ?_⟩
          cases t with
          | nil => simp at hd
          | cons e t =>
            simp only [List.head?_cons, Option.mem_some_iff] at hd
            subst hd
            simpa [tagStart] using hs
        | cons e pre =>
          simp only [List.cons_append, List.cons.injEq] at hp
          exact hall pre post hp.2 d hd
      · intro hall pre post hp
        exact hall (c :: pre) post (by rw [hp]; rfl)

/-- `a < b` is shown. -/
example : shown [97, 32, 60, 32, 98] = [97, 32, 60, 32, 98] := by decide

/-- `x = 'a'`: nothing is copied, or another script is run. -/
theorem single_quote : copied [120, 61, 39, 97, 39] = none := by decide

/-- `x = "a"`: the link ends at the first quote. -/
theorem double_quote : copied [120, 61, 34, 97, 34] = none := by decide

/-- A text with `'` and `)` and then `"`: the part before is copied. -/
theorem half : copied [120, 39, 41, 34, 121] = some [120] := by decide

/-- An emoji becomes `U0001f600`. -/
theorem emoji : copied [128512] = some [85, 48, 48, 48, 49, 102, 54, 48, 48] := by decide

/-- `&lt;`, for example in a text for a page, becomes `<`. -/
theorem ampersand : copied [38, 108, 116, 59] = some [60] := by decide

/-- `x%20` becomes `x` and a space. -/
theorem percent_sign : copied [120, 37, 50, 48] = some [120, 32] := by decide

/-- `a<b or c>d` is shown as `ad`. -/
theorem comparison : shown [97, 60, 98, 32, 111, 114, 32, 99, 62, 100] = [97, 100] := by decide

end Verif.Copy
