import Verif.Redirect.Spec
import Verif.Settings.Props

/-! # Lemmas about lines -/

namespace Verif.Redirect

open Verif.Settings (Str lit strip splitOnce dashes starts ends isSpace splitOnce_append splitOnce_none)
open Spec

theorem isSpace_iff (c : Char) : isSpace c = true ↔ White c := by
  simp [isSpace, White, or_assoc]

theorem dropWhile_blank {l : Str} (h : Blank l) (s : Str) : (l ++ s).dropWhile isSpace = s.dropWhile isSpace := by
  induction l with
  | nil => rfl
  | cons c l ih =>
    have hc : isSpace c = true := (isSpace_iff c).2 (h c (by simp))
    have hl : Blank l := fun d hd => h d (by simp [hd])
    simp only [List.cons_append, List.dropWhile_cons, hc, if_true]
    exact ih hl

theorem dropWhile_head {s : Str} (h : ∀ c, s.head? = some c → ¬ White c) : s.dropWhile isSpace = s := by
  cases s with
  | nil => rfl
  | cons c s =>
    have hc : isSpace c = false := by
      cases hb : isSpace c with
      | false => rfl
      | true => exact absurd ((isSpace_iff c).1 hb) (h c rfl)
    simp [hc]

theorem strip_solid {l g r : Str} (hl : Blank l) (hr : Blank r) (hg : Solid g) : strip (l ++ g ++ r) = g := by
  obtain ⟨h0, h1, h2⟩ := hg
  have hhead : ∀ c, (g ++ r).head? = some c → ¬ White c := by
    cases g with
    | nil => exact absurd rfl h0
    | cons d g => simpa using h1
  have hlast : ∀ c, g.reverse.head? = some c → ¬ White c := by
    simpa [List.head?_reverse] using h2
  have hr' : Blank r.reverse := fun c hc => hr c (by simpa using hc)
  rw [strip, List.append_assoc, dropWhile_blank hl, dropWhile_head hhead, List.reverse_append, dropWhile_blank hr',
    dropWhile_head hlast, List.reverse_reverse]

theorem strip_blank {f : Str} (h : Blank f) : strip f = [] := by
  have := dropWhile_blank h []
  simp only [List.append_nil, List.dropWhile_nil] at this
  simp [strip, this]

theorem reads_eq (w : Str) : dashes w = reads w := rfl

/-! ## The substitution -/

theorem after_mem {p s r : Str} (h : after p s = some r) : ∀ c ∈ p, c ∈ s := by
  induction p generalizing s with
  | nil => intro c hc; cases hc
  | cons a p ih =>
    cases s with
    | nil => simp [after] at h
    | cons b s =>
      simp only [after] at h
      split at h
      · rename_i hab
        intro c hc
        rcases List.mem_cons.1 hc with rfl | hc
        · simp [hab]
        · exact List.mem_cons_of_mem _ (ih h c hc)
      · cases h

theorem after_sub {p s r : Str} (h : after p s = some r) : ∀ c ∈ r, c ∈ s := by
  induction p generalizing s with
  | nil => simp only [after, Option.some.injEq] at h; subst h; intro c hc; exact hc
  | cons a p ih =>
    cases s with
    | nil => simp [after] at h
    | cons b s =>
      simp only [after] at h
      split at h
      · intro c hc; exact List.mem_cons_of_mem _ (ih h c hc)
      · cases h

theorem after_append (p s : Str) : after p (p ++ s) = some s := by
  induction p with
  | nil => rfl
  | cons a p ih => simp [after, ih]

theorem tagHere_none {s : Str} (h : '<' ∉ s) : tagHere s = none := by
  unfold tagHere
  cases h1 : after (lit "--tag ") s with
  | none => rfl
  | some s1 =>
    simp only
    cases h2 : after (lit "<class '") (s1.dropWhile (· = ' ')) with
    | none => rfl
    | some s2 =>
      have : '<' ∈ s1.dropWhile (· = ' ') := after_mem h2 '<' (by decide)
      exact absurd (after_sub h1 _ ((List.dropWhile_sublist _).subset this)) h

theorem substN_id {n : Nat} {s : Str} (h : '<' ∉ s) : substN n s = s := by
  induction n generalizing s with
  | zero => rfl
  | succ n ih =>
    cases s with
    | nil => rfl
    | cons c s =>
      simp only [substN, tagHere_none h]
      rw [ih (fun hm => h (List.mem_cons_of_mem _ hm))]

theorem subst_id {s : Str} (h : '<' ∉ s) : subst s = s := substN_id h

theorem takeWhile_word {n s : Str} (hn : ∀ c ∈ n, isWord c = true) :
    (n ++ '\'' :: s).takeWhile isWord = n ∧ (n ++ '\'' :: s).dropWhile isWord = '\'' :: s := by
  have hq : isWord '\'' = false := by decide
  induction n with
  | nil => simp [hq]
  | cons c n ih =>
    have hc := hn c (by simp)
    have := ih fun d hd => hn d (by simp [hd])
    simp [hc, this.1, this.2]

theorem dropWhile_blanks (k : Nat) (s : Str) : (List.replicate k ' ' ++ '<' :: s).dropWhile (· = ' ') = '<' :: s := by
  induction k with
  | zero => simp
  | succ k ih => simp [List.replicate_succ]

theorem tagHere_tag {n b : Str} (k : Nat) (hn : Plain n) :
    tagHere (lit "--tag " ++ (List.replicate k ' ' ++ (lit "<class '" ++ (n ++ (lit "'>" ++ b))))) = some (n, b) := by
  have hn' : ∀ c ∈ n, isWord c = true := fun c hc => by simpa [isWord] using hn.2 c hc
  have hd : (List.replicate k ' ' ++ (lit "<class '" ++ (n ++ (lit "'>" ++ b)))).dropWhile (· = ' ') =
      lit "<class '" ++ (n ++ (lit "'>" ++ b)) := dropWhile_blanks k _
  obtain ⟨h1, h2⟩ := takeWhile_word (s := '>' :: b) hn'
  have h1' : (n ++ (lit "'>" ++ b)).takeWhile isWord = n := h1
  have h2' : (n ++ (lit "'>" ++ b)).dropWhile isWord = lit "'>" ++ b := h2
  unfold tagHere
  rw [after_append]
  simp only
  rw [hd, after_append]
  simp only
  rw [h1', h2', after_append]
  cases n with
  | nil => exact absurd rfl hn.1
  | cons c n => rfl

theorem tagHere_other {c : Char} {s : Str} (h : c ≠ '-') : tagHere (c :: s) = none := by
  have : after (lit "--tag ") (c :: s) = none := by
    show (if '-' = c then _ else none) = none
    rw [if_neg (Ne.symm h)]
  unfold tagHere
  rw [this]

theorem subst_tag {a n b : Str} (k : Nat) (ha : '-' ∉ a) (hn : Plain n) (hb : '<' ∉ b) :
    subst (a ++ lit "--tag " ++ List.replicate k ' ' ++ lit "<class '" ++ n ++ lit "'>" ++ b) =
      a ++ lit "--tag $" ++ n ++ b := by
  have key : ∀ (m : Nat) (a : Str), '-' ∉ a → a.length < m →
      substN m (a ++ (lit "--tag " ++ (List.replicate k ' ' ++ (lit "<class '" ++ (n ++ (lit "'>" ++ b)))))) =
        a ++ (lit "--tag $" ++ n ++ b) := by
    intro m
    induction m with
    | zero => intro a _ h; exact absurd h (Nat.not_lt_zero _)
    | succ m ih =>
      intro a ha hlen
      cases a with
      | nil =>
        have ht := tagHere_tag (b := b) k hn
        have hcons : ∃ s, lit "--tag " ++ (List.replicate k ' ' ++ (lit "<class '" ++ (n ++ (lit "'>" ++ b)))) = '-' :: s :=
          ⟨_, rfl⟩
        obtain ⟨s, hs⟩ := hcons
        rw [List.nil_append, List.nil_append]
        rw [hs] at ht ⊢
        simp only [substN, ht]
        rw [substN_id hb]
      | cons c a =>
        have hc : c ≠ '-' := fun e => ha (by simp [e])
        simp only [List.cons_append, substN, tagHere_other hc]
        rw [ih a (fun h => ha (List.mem_cons_of_mem _ h)) (by simpa using hlen)]
  have := key (a ++ lit "--tag " ++ List.replicate k ' ' ++ lit "<class '" ++ n ++ lit "'>" ++ b).length a ha (by
    have : (lit "--tag ").length = 6 := by decide
    simp only [List.length_append, this]
    omega)
  simpa [subst, List.append_assoc] using this

/-! ## Cutting a line -/

theorem cut_plain {w a : Str} (hw : ' ' ∉ w) (ha : '>' ∉ a) (hs : Slices w → '<' ∉ a) :
    cut (w ++ ' ' :: a) = (w, strip a, none) := by
  unfold cut
  rw [splitOnce_append hw]
  have : (if w = lit "slice" ∨ w = lit "make_slice" ∨ w = lit "gather_slice" then subst a else a) = a := by
    by_cases h : Slices w
    · rw [subst_id (hs h)]; simp
    · exact if_neg h
  simp only [this]
  rw [splitOnce_none ha]

theorem cut_file {w a f : Str} (hw : ' ' ∉ w) (ha : '>' ∉ a) (hs : Slices w → '<' ∉ a ++ f) :
    cut (w ++ ' ' :: (a ++ '>' :: f)) = (w, strip a, some (strip f)) := by
  unfold cut
  rw [splitOnce_append hw]
  have : (if w = lit "slice" ∨ w = lit "make_slice" ∨ w = lit "gather_slice" then subst (a ++ '>' :: f)
      else a ++ '>' :: f) = a ++ '>' :: f := by
    by_cases h : Slices w
    · have h' := hs h
      simp only [List.mem_append, not_or] at h'
      rw [subst_id]
      · simp
      · simp [h'.1, h'.2]
    · exact if_neg h
  simp only [this]
  rw [splitOnce_append ha]

theorem cut_word {w : Str} (hw : ' ' ∉ w) : cut w = (w, [], none) := by
  unfold cut
  rw [splitOnce_none hw]
  rfl

theorem cut_fst {w a : Str} (hw : ' ' ∉ w) : (cut (w ++ ' ' :: a)).1 = w := by
  unfold cut
  rw [splitOnce_append hw]
  simp only
  split <;> rfl

/-! ## What a command does -/

theorem handle_files {S : Type} (env : Env S) (w a : Str) (x : World S) : (handle env w a x).1.files = x.files := by
  unfold handle
  simp only
  split
  · rfl
  · split
    · rfl
    · split
      · rfl
      · split <;> rfl

/-- A command that gives a text back prints none. -/
theorem handle_gives {S : Type} (env : Env S) (w a : Str) (x : World S)
    (h : (kind env.names (dashes w)).prints = false) : (handle env w a x).1.out = x.out := by
  unfold handle
  simp only [h]
  split
  · rfl
  · split
    · rfl
    · split <;> rfl

theorem handle_prints {S : Type} (env : Env S) (w a : Str) (x : World S)
    (h : (kind env.names (dashes w)).gives = false) (t : Str) : (handle env w a x).2 ≠ .ok (some t) := by
  unfold handle
  simp only [h]
  split
  · simp
  · split
    · simp
    · simp only [Bool.false_eq_true, if_false]
      split <;> simp

theorem isPrefixOf_append {p s : Str} (h : p.isPrefixOf s = true) : ∃ r, s = p ++ r := by
  obtain ⟨r, hr⟩ := List.isPrefixOf_iff_prefix.1 h
  exact ⟨r, hr.symm⟩

theorem ends_append {p : String} {s : Str} (h : ends p s = true) : ∃ r, s = r ++ lit p := by
  obtain ⟨r, hr⟩ := List.isPrefixOf_iff_prefix.1 (show (lit p).reverse.isPrefixOf s.reverse = true from h)
  refine ⟨r.reverse, ?_⟩
  have := congrArg List.reverse hr
  simpa using this.symm

theorem prints_direct {names : List Str} {w : Str} (h : ¬ Direct w) : (kind names (dashes w)).prints = false := by
  have h1 : dashes w ≠ lit "show_tags" := fun e => h (Or.inl e)
  have h2 : starts "register_annotation" (dashes w) = false := by
    cases hb : starts "register_annotation" (dashes w) with
    | false => rfl
    | true => exact absurd (Or.inr (isPrefixOf_append hb)) h
  unfold kind
  simp only [apply_ite Kind.prints]
  simp only [h2, Kind.prints, List.any_cons, List.any_nil, Bool.or_false, Ne.symm h1,
    decide_false, Bool.false_eq_true, if_false, ite_self]

theorem kind_showTags {names : List Str} {w : Str} (h : dashes w = lit "show_tags") :
    kind names (dashes w) = .showTags := by
  rw [h]; unfold kind; simp [lit]

theorem kind_annotations {names : List Str} {w : Str} (h : Annotates w) (hr : ¬ Reports w) :
    kind names (dashes w) = .annotations := by
  obtain ⟨r, hr'⟩ := h
  have e : dashes w = lit "register_annotation" ++ r := hr'
  have h1 : ends "warn_ooo" (dashes w) = false := by
    cases hb : ends "warn_ooo" (dashes w) with
    | false => rfl
    | true => exact absurd (Or.inl (ends_append hb)) hr
  have h2 : ends "lint_ooo" (dashes w) = false := by
    cases hb : ends "lint_ooo" (dashes w) with
    | false => rfl
    | true => exact absurd (Or.inr (ends_append hb)) hr
  have h3 : starts "register_annotation" (dashes w) = true := by
    rw [e]; simp [starts]
  unfold kind
  rw [h1, h2, h3, e]
  simp [lit]

/-- A word with a character that no command has, or none at all, names no command. -/
theorem kind_odd {names : List Str} {w : Str} {c : Char} (hn : Named names) (hc : c ∈ w) (ho : Odd c)
    (hr : ¬ Reports w) (ha : ¬ Annotates w) : kind names (dashes w) = .usage := by
  have hm : c ∈ dashes w := by
    have : c = (fun d => if d = '-' then '_' else d) c := by simp [ho.2.2]
    rw [this]
    exact List.mem_map_of_mem hc
  have key : ∀ s : Str, (∀ d ∈ s, d.isAlphanum = true ∨ d = '_') → ¬ s = dashes w := by
    intro s hs e
    rw [← e] at hm
    rcases hs c hm with h | h
    · rw [ho.1] at h; cases h
    · exact ho.2.1 h
  have h1 : ends "warn_ooo" (dashes w) = false := by
    cases hb : ends "warn_ooo" (dashes w) with
    | false => rfl
    | true => exact absurd (Or.inl (ends_append hb)) hr
  have h2 : ends "lint_ooo" (dashes w) = false := by
    cases hb : ends "lint_ooo" (dashes w) with
    | false => rfl
    | true => exact absurd (Or.inr (ends_append hb)) hr
  have h3 : starts "register_annotation" (dashes w) = false := by
    cases hb : starts "register_annotation" (dashes w) with
    | false => rfl
    | true => exact absurd (isPrefixOf_append hb) ha
  have h4 : dashes w ∉ names := fun hmem => key _ (hn _ hmem).2 rfl
  have hall : ∀ s : String, (∀ d ∈ lit s, d.isAlphanum = true ∨ d = '_') → decide (lit s = dashes w) = false :=
    fun s hs => decide_eq_false (key _ hs)
  unfold kind
  rw [h1, h2, h3]
  simp only [List.any_cons, List.any_nil, Bool.or_false, h4, if_false, Bool.false_eq_true]
  repeat rw [hall _ (by decide)]
  simp

theorem kind_empty {names : List Str} (hn : Named names) : kind names (dashes []) = .usage := by
  have h4 : ([] : Str) ∉ names := fun hmem => (hn _ hmem).1 rfl
  show kind names [] = .usage
  unfold kind
  simp [lit, ends, starts, h4]

theorem handle_usage {S : Type} (env : Env S) (w a : Str) (x : World S) (h : kind env.names (dashes w) = .usage) :
    handle env w a x = ({ x with warned := x.warned + 1 }, .ok none) := by
  unfold handle
  simp [h]

/-- The line is what its parts say. -/
theorem flow_of {S : Type} (env : Env S) {line w a : Str} {f : Option Str} (x : World S) (h : cut line = (w, a, f)) :
    flowMagic env line x = deliver env f (handle env w a x) := by
  unfold flowMagic
  rw [h]

end Verif.Redirect
