import Verif.Settings.Props

/-! # Switching messages, highlights and syntax transforms on and off (C196): `line_magics.py` 86-157, 279-310 -/

namespace Verif.Settings

/-! ## Specification -/

/-- Characters between words. -/
def blanks : List Char := [' ', '\t', '\n', '\r', '\x0b', '\x0c']

/-- One word: not empty and without blanks, and without the sign after which the output is redirected. -/
def Word (w : Str) : Prop := w ≠ [] ∧ (∀ c ∈ w, c ∉ blanks) ∧ '>' ∉ w

/-- The word asks to switch something on: `on`, `enable`, `enabled` and the like, in upper or lower case. -/
def AsksOn (w : Str) : Prop := w.map Char.toLower = "on".toList ∨ "enable".toList <+: w.map Char.toLower

/-- The word asks to switch something off. -/
def AsksOff (w : Str) : Prop := w.map Char.toLower = "off".toList ∨ "disable".toList <+: w.map Char.toLower

instance (w : Str) : Decidable (AsksOn w) := by unfold AsksOn; infer_instance
instance (w : Str) : Decidable (AsksOff w) := by unfold AsksOff; infer_instance

/-! ## Lemmas -/

theorem isSpace_iff (c : Char) : isSpace c = true ↔ c ∈ blanks := by
  simp [isSpace, blanks, or_assoc]

theorem strip_noblank {w : Str} (h : ∀ c ∈ w, isSpace c = false) : strip w = w := by
  have key : ∀ l : Str, (∀ c ∈ l, isSpace c = false) → l.dropWhile isSpace = l := by
    intro l hl
    cases l with
    | nil => rfl
    | cons a l => rw [List.dropWhile_cons_of_neg (by simp [hl a (by simp)])]
  unfold strip
  rw [key w h, key _ (fun c hc => h c (List.mem_reverse.mp hc)), List.reverse_reverse]

theorem word_noblank {w : Str} (h : Word w) : ∀ c ∈ w, isSpace c = false := by
  intro c hc
  cases hb : isSpace c with
  | false => rfl
  | true => exact absurd ((isSpace_iff c).mp hb) (h.2.1 c hc)

theorem typed_word {cmd : String} {w : Str} (hc : ' ' ∉ lit cmd) (h : Word w) (s : S) : flowMagic (typed cmd w) s = handle (lit cmd) w s := by
  rw [flowMagic_typed hc h.2.2, strip_noblank (word_noblank h)]

theorem toLower_noblank {c : Char} (h : isSpace c = false) : isSpace c.toLower = false := by
  unfold Char.toLower
  split
  · rename_i hc
    cases hb : isSpace _ with
    | false => rfl
    | true =>
      have hm := (isSpace_iff _).mp hb
      have hv : ∀ b ∈ blanks, b.val.toNat < 33 := by decide
      have := hv _ hm
      exfalso
      have h1 : (65 : Nat) ≤ c.val.toNat := by
        have := hc.1
        exact UInt32.le_iff_toNat_le.mp this
      have h2 : c.val.toNat ≤ 90 := by
        have := hc.2
        exact UInt32.le_iff_toNat_le.mp this
      have h3 : (c.val + ('a'.val - 'A'.val)).toNat = c.val.toNat + 32 := by
        rw [UInt32.toNat_add]
        have : ('a'.val - 'A'.val).toNat = 32 := by decide
        rw [this]
        omega
      have h4 : (c.val + ('a'.val - 'A'.val)).toNat < 33 := this
      omega
  · exact h

theorem lower_noblank {w : Str} (h : ∀ c ∈ w, isSpace c = false) : ∀ c ∈ lower w, isSpace c = false := by
  intro c hc
  obtain ⟨d, hd, rfl⟩ := List.mem_map.mp hc
  exact toLower_noblank (h d hd)

theorem asksOn_iff (w : Str) : AsksOn w ↔ (lower w = lit "on" || starts "enable" (lower w)) = true := by
  unfold AsksOn
  rw [Bool.or_eq_true, decide_eq_true_iff, starts_iff]
  exact Iff.rfl

theorem asksOff_iff (w : Str) : AsksOff w ↔ (lower w = lit "off" || starts "disable" (lower w)) = true := by
  unfold AsksOff
  rw [Bool.or_eq_true, decide_eq_true_iff, starts_iff]
  exact Iff.rfl

/-! ## C196 -/

/-- **C196**, messages: a word that asks for on or off sets the switch accordingly and nothing else, and any other word changes nothing. -/
theorem trace_exact {w : Str} (hw : Word w) (s : S) :
    flowMagic (typed "trace_messages" w) s = { s with trace := if AsksOn w then true else if AsksOff w then false else s.trace } := by
  have h0 : ∀ l, handle (lit "trace_messages") l s = traceMessages l s := fun _ => rfl
  rw [typed_word (by decide) hw, h0]
  unfold traceMessages
  dsimp only
  rw [strip_noblank (word_noblank hw), if_neg (by
    rintro (h | h)
    · exact hw.1 h
    · obtain ⟨c, h1, h2⟩ := List.any_eq_true.mp h
      rw [word_noblank hw c h1] at h2
      cases h2)]
  by_cases h1 : AsksOn w
  · rw [if_pos h1, if_pos ((asksOn_iff w).mp h1)]
  · rw [if_neg h1, if_neg (fun h => h1 ((asksOn_iff w).mpr h))]
    by_cases h2 : AsksOff w
    · rw [if_pos h2, if_pos ((asksOff_iff w).mp h2)]
    · rw [if_neg h2, if_neg (fun h => h2 ((asksOff_iff w).mpr h))]

/-- **C196**, messages: with no word, or with several, nothing is changed. -/
theorem trace_count (s : S) : flowMagic (lit "trace_messages") s = s ∧
    ∀ {u v : Str}, Word u → Word v → ∀ m : Str, '>' ∉ m → flowMagic (typed "trace_messages" (u ++ ' ' :: m ++ ' ' :: v)) s = s := by
  have h0 : ∀ l, handle (lit "trace_messages") l s = traceMessages l s := fun _ => rfl
  refine ⟨rfl, ?_⟩
  intro u v hu hv m hm
  rw [flowMagic_typed (by decide) (by
    intro h
    simp only [List.mem_append, List.mem_cons] at h
    rcases h with (h | h | h) | h | h
    · exact hu.2.2 h
    · cases h
    · exact hm h
    · cases h
    · exact hv.2.2 h), h0]
  unfold traceMessages
  dsimp only
  rw [strip_strip, if_pos]
  right
  obtain ⟨a, u', rfl⟩ : ∃ a u', u = a :: u' := by
    cases u with
    | nil => exact absurd rfl hu.1
    | cons a u' => exact ⟨a, u', rfl⟩
  obtain ⟨v', b, rfl⟩ : ∃ v' b, v = v' ++ [b] := ⟨v.dropLast, v.getLast hv.1, (List.dropLast_concat_getLast hv.1).symm⟩
  have ha : isSpace a = false := word_noblank hu a (by simp)
  have hb : isSpace b = false := word_noblank hv b (by simp)
  have : strip (a :: u' ++ ' ' :: m ++ ' ' :: (v' ++ [b])) = a :: u' ++ ' ' :: m ++ ' ' :: (v' ++ [b]) := by
    unfold strip
    rw [List.cons_append, List.cons_append, List.dropWhile_cons_of_neg (by simp [ha])]
    have e : (a :: (u' ++ ' ' :: m ++ ' ' :: (v' ++ [b]))).reverse = b :: (a :: (u' ++ ' ' :: m ++ ' ' :: v')).reverse := by simp
    rw [e, List.dropWhile_cons_of_neg (by simp [hb]), ← e, List.reverse_reverse]
  rw [this, List.any_eq_true]
  exact ⟨' ', by simp, by decide⟩

/-- **C196**, highlights: likewise, with the four values that can be chosen besides. -/
theorem highlights_exact {w : Str} (hw : Word w) (s : S) {cmd : String} (hc : cmd ∈ ["hls", "highlight", "highlights"]) :
    (AsksOn w → flowMagic (typed cmd w) s = { s with highlights := .executed }) ∧
    (AsksOff w → flowMagic (typed cmd w) s = { s with highlights := .none }) ∧
    (¬AsksOn w → ¬AsksOff w → (∀ x ∈ ["all", "none", "executed", "reactive"], w.map Char.toLower ≠ x.toList) → flowMagic (typed cmd w) s = s) := by
  have h0 : (∀ l, handle (lit cmd) l s = setHighlights (lit cmd) l s) ∧ ' ' ∉ lit cmd ∧ lit cmd ≠ lit "nohls" := by
    simp only [List.mem_cons, List.not_mem_nil, or_false] at hc
    rcases hc with rfl | rfl | rfl <;> exact ⟨fun _ => rfl, by decide, by decide⟩
  rw [typed_word h0.2.1 hw, h0.1]
  unfold setHighlights
  dsimp only
  rw [if_neg h0.2.2, strip_noblank (lower_noblank (word_noblank hw))]
  have hne : ¬lower w = [] := by
    intro h
    exact hw.1 (List.map_eq_nil_iff.mp h)
  simp only [hne, decide_false, Bool.false_or]
  refine ⟨fun h => if_pos ((asksOn_iff w).mp h), ?_, ?_⟩
  · intro h
    rw [if_neg, if_pos ((asksOff_iff w).mp h)]
    intro h1
    rcases (asksOn_iff w).mpr h1 with h1 | ⟨t, h1⟩ <;> rcases h with h | ⟨t', h⟩
    · rw [h1] at h; revert h; decide
    · rw [h1] at h
      have := congrArg List.head? h
      revert this; simp
    · rw [h] at h1
      have := congrArg List.head? h1
      revert this; simp
    · rw [← h] at h1
      have := congrArg List.head? h1
      revert this; simp
  · intro h1 h2 h3
    have h' : ∀ x ∈ ["all", "none", "executed", "reactive"], ¬lower w = lit x := h3
    rw [if_neg (fun h => h1 ((asksOn_iff w).mpr h)), if_neg (fun h => h2 ((asksOff_iff w).mpr h)), if_neg (h' "all" (by simp)), if_neg (h' "none" (by simp)),
      if_neg (h' "executed" (by simp)), if_neg (h' "reactive" (by simp))]

theorem ends_iff {p : String} {v : Str} : ends p v = true ↔ lit p <:+ v := by
  unfold ends
  rw [List.isPrefixOf_iff_prefix, List.reverse_prefix]

/-- What the switch of the syntax transforms does with a word. -/
theorem syntax_word {w : Str} (hw : Word w) (s : S) : flowMagic (typed "syntax_transforms" w) s =
    if ends "enabled" w || ends "on" w || (ends "disabled" w || ends "off" w) then { s with syntaxOn := ends "enabled" w || ends "on" w } else s := by
  rw [typed_word (by decide) hw]
  rfl

/-- **C196**, syntax transforms, the part that holds: `on`, `enabled`, `off` and `disabled` set the switch and nothing else, and a word that ends in none of these changes nothing. -/
theorem syntax_partial (s : S) :
    (∀ w ∈ ["on", "enabled"], flowMagic (typed "syntax_transforms" w.toList) s = { s with syntaxOn := true }) ∧
    (∀ w ∈ ["off", "disabled"], flowMagic (typed "syntax_transforms" w.toList) s = { s with syntaxOn := false }) ∧
    ∀ w, Word w → (∀ x ∈ ["on", "enabled", "off", "disabled"], ¬x.toList <:+ w) → flowMagic (typed "syntax_transforms" w) s = s := by
  refine ⟨?_, ?_, ?_⟩
  · intro w hw
    simp only [List.mem_cons, List.not_mem_nil, or_false] at hw
    rcases hw with rfl | rfl <;> rfl
  · intro w hw
    simp only [List.mem_cons, List.not_mem_nil, or_false] at hw
    rcases hw with rfl | rfl <;> rfl
  · intro w hw h
    have h' : ∀ x ∈ ["on", "enabled", "off", "disabled"], ends x w = false := by
      intro x hx
      cases he : ends x w with
      | false => rfl
      | true => exact absurd (ends_iff.mp he) (h x hx)
    rw [syntax_word hw, h' "on" (by simp), h' "enabled" (by simp), h' "off" (by simp), h' "disabled" (by simp)]
    rfl

/-- **C196 is violated** by the syntax transforms: `enable` and `disable`, and words in upper case, which the other two switches understand, change nothing. -/
theorem syntax_ignored (s : S) : ∀ w ∈ ["enable", "disable", "ON", "Off", "Enabled", "DISABLED"],
    (AsksOn w.toList ∨ AsksOff w.toList) ∧ flowMagic (typed "syntax_transforms" w.toList) s = s := by
  intro w hw
  simp only [List.mem_cons, List.not_mem_nil, or_false] at hw
  rcases hw with rfl | rfl | rfl | rfl | rfl | rfl <;> exact ⟨by decide, rfl⟩

/-- **C196 is violated** by the syntax transforms: every word that merely ends in `on` switches them on, every word that ends in `off` off. -/
theorem syntax_suffix {w : Str} (s : S) :
    (Word (w ++ "on".toList) → flowMagic (typed "syntax_transforms" (w ++ "on".toList)) s = { s with syntaxOn := true }) ∧
    (Word (w ++ "off".toList) → flowMagic (typed "syntax_transforms" (w ++ "off".toList)) s = { s with syntaxOn := false }) := by
  refine ⟨?_, ?_⟩
  · intro hw
    have h1 : ends "on" (w ++ "on".toList) = true := ends_iff.mpr ⟨w, rfl⟩
    rw [syntax_word hw, h1]
    simp
  · intro hw
    have h1 : ends "off" (w ++ "off".toList) = true := ends_iff.mpr ⟨w, rfl⟩
    have h2 : ends "on" (w ++ "off".toList) = false := by simp [ends, lit]; rfl
    have h3 : ends "enabled" (w ++ "off".toList) = false := by simp [ends, lit]; rfl
    rw [syntax_word hw, h1, h2, h3]
    simp

theorem only_ite {c : Prop} [Decidable c] {a b : S} (h1 : c → a.syntaxOnly = true) (h2 : ¬c → b.syntaxOnly = true) : (if c then a else b).syntaxOnly = true := by
  by_cases h : c
  · rw [if_pos h]; exact h1 h
  · rw [if_neg h]; exact h2 h

/-- Once only syntax transforms are wanted, no command but `on` and `enable` ends that, and in particular no value of `syntax_transforms`. -/
theorem only_kept (cmd line : Str) (s : S) (h : s.syntaxOnly = true) (hc : ∀ x ∈ ["on", "enable"], strip (dashes cmd) ≠ x.toList) : (handle cmd line s).syntaxOnly = true := by
  refine only_ite (fun _ => ?_) fun _ => only_ite (fun _ => h) fun _ => only_ite (fun _ => ?_) fun _ =>
    only_ite (fun _ => ?_) fun _ => only_ite (fun _ => h) fun _ => only_ite (fun _ => h)
    fun _ => only_ite (fun _ => ?_) fun _ =>
    only_ite (fun _ => ?_) fun _ => only_ite (fun _ => ?_) fun _ =>
    only_ite (fun _ => h) fun _ => only_ite (fun _ => h) fun _ =>
    only_ite (fun _ => h) fun _ =>
    only_ite (fun _ => only_ite (fun _ => h) fun _ => h) fun _ =>
    only_ite (fun _ => rfl) fun _ => only_ite (fun _ => ?_) fun _ => h
  · refine only_ite (fun hx => ?_) fun _ => only_ite (fun _ => h) fun _ => h
    rcases hx with hx | hx
    · exact absurd hx (hc "enable" (by simp))
    · exact absurd hx (hc "on" (by simp))
  · exact only_ite (fun _ => h) fun _ => only_ite (fun _ => h) fun _ => only_ite (fun _ => h) fun _ => h
  · exact only_ite (fun _ => h) fun _ => only_ite (fun _ => h) fun _ => only_ite (fun _ => h) fun _ => only_ite (fun _ => h) fun _ =>
      only_ite (fun _ => h) fun _ => only_ite (fun _ => h) fun _ => only_ite (fun _ => h) fun _ => h
  · exact only_ite (fun _ => h) fun _ => only_ite (fun _ => h) fun _ => only_ite (fun _ => h) fun _ => h
  · exact only_ite (fun _ => h) fun _ => only_ite (fun _ => h) fun _ => h
  · refine only_ite (fun _ => h) fun _ => only_ite (fun _ => ?_) fun _ => h
    exact only_ite (fun _ => h) fun _ => h
  · unfold toggleReactivity; split <;> exact h

example : Word "Enabled".toList ∧ AsksOn "Enabled".toList ∧ ¬AsksOff "Enabled".toList := by unfold Word; decide
example : (flowMagic (lit "trace_messages  ON ") fresh).trace = true ∧ (flowMagic (lit "trace_messages off") { fresh with trace := true }).trace = false ∧
    flowMagic (lit "trace_messages yes") fresh = fresh ∧ flowMagic (lit "trace_messages on now") fresh = fresh := by decide
example : (flowMagic (lit "hls Disabled") fresh).highlights = .none ∧ flowMagic (lit "hls sometimes") fresh = fresh := by decide
example : Word "option".toList ∧ (flowMagic (lit "syntax_transforms option") { fresh with syntaxOn := false }).syntaxOn = true := by unfold Word; decide
example : (flowMagic (lit "syntax_transforms on") (flowMagic (lit "syntax_transforms_only") fresh)).syntaxOnly = true ∧
    (flowMagic (lit "on") (flowMagic (lit "syntax_transforms_only") fresh)).syntaxOnly = false := by decide

end Verif.Settings
