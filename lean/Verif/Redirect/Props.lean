import Verif.Redirect.Lemmas

/-!
# Where the answer of a `%flow` command goes -/

namespace Verif.Redirect

open Verif.Settings (Str lit strip splitOnce dashes starts ends splitOnce_append)
open Spec

variable {S : Type}

/-- For every command besides the two that print on their own, `> file` writes to the file what the line without it
prints, and nothing else is different: the same is changed, warned of and raised, and a command without an answer
leaves the file as it was. Missing: the argument can have no `>` (`argument_cut`), the file name no second one
(`appended`), `show_tags` and `register_annotations` (`direct_printed`). -/
theorem redirected_partial (env : Env S) (x : World S) {w a l g r : Str} (hw : ' ' ∉ w) (hd : ¬ Direct w)
    (ha : '>' ∉ a) (hs : Slices w → '<' ∉ a ++ (l ++ g ++ r)) (hl : Blank l) (hr : Blank r) (hg : Solid g)
    (ho : env.writable g = true) :
    Redirects g x (flowMagic env (w ++ ' ' :: a) x) (flowMagic env (w ++ ' ' :: (a ++ '>' :: (l ++ g ++ r))) x) := by
  have hs' : Slices w → '<' ∉ a := fun h => by
    have := hs h
    simp only [List.mem_append, not_or] at this
    exact this.1
  rw [flow_of env x (cut_plain hw ha hs'), flow_of env x (cut_file hw ha hs), strip_solid hl hr hg]
  have hf := handle_files env w (strip a) x
  have hp := handle_gives env w (strip a) x (prints_direct hd)
  generalize handle env w (strip a) x = d at hf hp
  obtain ⟨y, res⟩ := d
  cases res with
  | error e => exact ⟨rfl, rfl, rfl, hp, hf, Or.inl ⟨hp, hf⟩⟩
  | ok t =>
    cases t with
    | none => exact ⟨rfl, rfl, rfl, hp, hf, Or.inl ⟨hp, hf⟩⟩
    | some t =>
      have hg0 : g ≠ [] := hg.1
      simp only [deliver, write, if_pos (And.intro hg0 ho)]
      refine ⟨rfl, rfl, rfl, hp, hf, Or.inr ⟨t, ⟨?_, rfl⟩, ?_, ?_⟩⟩
      · show t :: y.out = t :: x.out
        rw [hp]
      · simp
      · intro f hne
        simp only [if_neg hne]
        exact congrFun hf f

/-- A command that prints on its own prints the same with `> file`, and no file is written. -/
theorem direct_printed (env : Env S) (x : World S) {w a f : Str} (hw : ' ' ∉ w) (hd : Direct w) (hn : ¬ Reports w)
    (ha : '>' ∉ a) :
    flowMagic env (w ++ ' ' :: (a ++ '>' :: f)) x = flowMagic env (w ++ ' ' :: a) x ∧
      (flowMagic env (w ++ ' ' :: (a ++ '>' :: f)) x).1.files = x.files := by
  have hk : (kind env.names (dashes w)).gives = false ∧ ¬ Slices w := by
    rcases hd with h | h
    · have hw : dashes w = lit "show_tags" := h
      refine ⟨by rw [kind_showTags hw]; rfl, ?_⟩
      rintro (e | e | e) <;> (subst e; revert hw; decide)
    · have hk := kind_annotations (names := env.names) h hn
      obtain ⟨r, hr⟩ := h
      refine ⟨by rw [hk]; rfl, ?_⟩
      rintro (e | e | e) <;> (subst e; have := congrArg List.head? hr; revert this; simp [reads])
  rw [flow_of env x (cut_file hw ha fun h => absurd h hk.2), flow_of env x (cut_plain hw ha fun h => absurd h hk.2)]
  have hf := handle_files env w (strip a) x
  have hg := handle_prints env w (strip a) x hk.1
  generalize handle env w (strip a) x = d at hf hg
  obtain ⟨y, res⟩ := d
  cases res with
  | error e => exact ⟨rfl, hf⟩
  | ok t =>
    cases t with
    | none => exact ⟨rfl, hf⟩
    | some t => exact absurd rfl (hg t)

/-- Of an argument with `>` in it the command gets what is before it: what the command changes is the same whatever
follows. -/
theorem argument_cut (env : Env S) (x : World S) {w a b : Str} (hw : ' ' ∉ w) (hs : ¬ Slices w) (ha : '>' ∉ a) :
    (flowMagic env (w ++ ' ' :: (a ++ '>' :: b)) x).1.state = (flowMagic env (w ++ ' ' :: a) x).1.state := by
  rw [flow_of env x (cut_file hw ha fun h => absurd h hs), flow_of env x (cut_plain hw ha fun h => absurd h hs)]
  generalize handle env w (strip a) x = d
  obtain ⟨y, res⟩ := d
  cases res with
  | error e => rfl
  | ok t =>
    cases t with
    | none => rfl
    | some t =>
      simp only [deliver, write]
      split <;> rfl

/-- `>>` does not add to the file, nor does it replace it: another file is written, the name of which begins with
`>`. -/
theorem appended (env : Env S) (x : World S) {w a l g r : Str} (hw : ' ' ∉ w) (hd : ¬ Direct w)
    (ha : '>' ∉ a) (hs : Slices w → '<' ∉ a ++ (l ++ g ++ r)) (hr : Blank r) (hg : Solid g)
    (ho : env.writable ('>' :: (l ++ g)) = true) {t : Str} (hp : Printed t x (flowMagic env (w ++ ' ' :: a) x)) :
    (flowMagic env (w ++ ' ' :: (a ++ '>' :: '>' :: (l ++ g ++ r))) x).1.files ('>' :: (l ++ g)) = some t ∧
      (flowMagic env (w ++ ' ' :: (a ++ '>' :: '>' :: (l ++ g ++ r))) x).1.files g = x.files g := by
  have hsolid : Solid ('>' :: (l ++ g)) := by
    obtain ⟨h0, _, h2⟩ := hg
    refine ⟨by simp, ?_, ?_⟩
    · intro c hc
      simp only [List.head?_cons, Option.some.injEq] at hc
      subst hc
      simp [White]
    · have : ('>' :: (l ++ g)).getLast? = g.getLast? := by
        rw [← List.cons_append, List.getLast?_append]
        cases hgl : g.getLast? with
        | none => exact absurd (List.getLast?_eq_none_iff.1 hgl) h0
        | some c => rfl
      rw [this]
      exact h2
  have hs' : Slices w → '<' ∉ a ++ ([] ++ ('>' :: (l ++ g)) ++ r) := fun h => by
    have := hs h
    simp only [List.mem_append, not_or] at this
    simp [this.1, this.2.1.1, this.2.1.2, this.2.2]
  have hmain := redirected_partial env x hw hd ha hs' (l := []) (g := '>' :: (l ++ g)) (r := r)
    (by intro c hc; cases hc) hr hsolid ho
  have hline : w ++ ' ' :: (a ++ '>' :: ([] ++ ('>' :: (l ++ g)) ++ r)) = w ++ ' ' :: (a ++ '>' :: '>' :: (l ++ g ++ r)) := by
    simp
  rw [hline] at hmain
  obtain ⟨_, _, _, _, _, h | ⟨t', h1, h2⟩⟩ := hmain
  · have h3 := h.1
    rw [hp.1] at h3
    exact absurd (congrArg List.length h3) (by simp)
  · have : t' = t := by
      have h3 := h1.1
      rw [hp.1] at h3
      exact (List.cons.inj h3).1.symm
    subst this
    refine ⟨h2.1, h2.2 g ?_⟩
    intro e
    have := congrArg List.length e
    simp only [List.length_cons, List.length_append] at this
    omega

/-- With nothing after `>`, or with a file that cannot be written, the command has been carried out, its answer is
lost and an exception raised. -/
theorem answer_lost (env : Env S) (x : World S) {w a f : Str} (hw : ' ' ∉ w) (hd : ¬ Direct w) (ha : '>' ∉ a)
    (hs : Slices w → '<' ∉ a ++ f)
    (hf : Blank f ∨ ∃ l g r, f = l ++ g ++ r ∧ Blank l ∧ Solid g ∧ Blank r ∧ env.writable g = false) {t : Str}
    (hp : Printed t x (flowMagic env (w ++ ' ' :: a) x)) :
    (flowMagic env (w ++ ' ' :: (a ++ '>' :: f)) x).2 ≠ none ∧
      (flowMagic env (w ++ ' ' :: (a ++ '>' :: f)) x).1.state = (flowMagic env (w ++ ' ' :: a) x).1.state ∧
      (flowMagic env (w ++ ' ' :: (a ++ '>' :: f)) x).1.files = x.files ∧
      (flowMagic env (w ++ ' ' :: (a ++ '>' :: f)) x).1.out = x.out := by
  have hs' : Slices w → '<' ∉ a := fun h => by
    have := hs h
    simp only [List.mem_append, not_or] at this
    exact this.1
  have hno : ¬ (strip f ≠ [] ∧ env.writable (strip f) = true) := by
    rintro ⟨h1, h2⟩
    rcases hf with hb | ⟨l, g, r, rfl, hl, hg, hr, hwr⟩
    · exact h1 (strip_blank hb)
    · rw [strip_solid hl hr hg, hwr] at h2
      cases h2
  rw [flow_of env x (cut_plain hw ha hs')] at hp ⊢
  rw [flow_of env x (cut_file hw ha hs)]
  have hfs := handle_files env w (strip a) x
  have hout := handle_gives env w (strip a) x (prints_direct hd)
  generalize handle env w (strip a) x = d at hfs hout hp
  obtain ⟨y, res⟩ := d
  cases res with
  | error e => exact absurd hp.2 (by simp [deliver])
  | ok u =>
    cases u with
    | none =>
      have := hp.1
      simp only [deliver] at this hout
      rw [hout] at this
      exact absurd (congrArg List.length this) (by simp)
    | some u =>
      simp only [deliver, write, if_neg hno]
      exact ⟨by simp, trivial, hfs, hout⟩

/-- Without a blank before `>`, with a tab after the command, or with anything else that words of commands do not
have, nothing is done. -/
theorem odd_word (env : Env S) (x : World S) {w : Str} {c : Char} (hn : Named env.names) (hw : ' ' ∉ w) (hc : c ∈ w)
    (ho : Odd c) (hr : ¬ Reports w) (ha : ¬ Annotates w) :
    OnlyWarned x (flowMagic env w x) ∧ ∀ rest, OnlyWarned x (flowMagic env (w ++ ' ' :: rest) x) := by
  have hk := kind_odd hn hc ho hr ha
  refine ⟨?_, fun rest => ?_⟩
  · rw [flow_of env x (cut_word hw), handle_usage env w [] x hk]
    exact ⟨rfl, rfl, rfl, rfl, rfl⟩
  · have h := cut_fst (a := rest) hw
    rcases hcut : cut (w ++ ' ' :: rest) with ⟨w', a', f'⟩
    rw [hcut] at h
    simp only at h
    subst h
    rw [flow_of env x hcut, handle_usage env w' a' x hk]
    exact ⟨rfl, rfl, rfl, rfl, rfl⟩

/-- With two blanks before the command nothing is done. -/
theorem second_blank (env : Env S) (x : World S) (hn : Named env.names) (rest : Str) :
    OnlyWarned x (flowMagic env (' ' :: rest) x) := by
  have h := cut_fst (w := []) (a := rest) (by simp)
  simp only [List.nil_append] at h
  rcases hcut : cut (' ' :: rest) with ⟨w', a', f'⟩
  rw [hcut] at h
  simp only at h
  subst h
  rw [flow_of env x hcut, handle_usage env [] a' x (kind_empty hn)]
  exact ⟨rfl, rfl, rfl, rfl, rfl⟩

/-- For slices a tag can be given as the class that carries its name: the line is taken as if the name had been
given. -/
theorem class_tag (env : Env S) (x : World S) {w a n b : Str} (k : Nat) (hw : Slices w) (h1 : '-' ∉ a) (h2 : '<' ∉ a)
    (hn : Plain n) (hb : '<' ∉ b) :
    flowMagic env (w ++ ' ' :: (a ++ "--tag ".toList ++ List.replicate k ' ' ++ "<class '".toList ++ n ++ "'>".toList ++ b)) x =
      flowMagic env (w ++ ' ' :: (a ++ "--tag $".toList ++ n ++ b)) x := by
  have hsp : ' ' ∉ w := by rcases hw with e | e | e <;> (subst e; decide)
  have hn' : '<' ∉ n := fun hm => by
    rcases hn.2 _ hm with h | h
    · revert h; decide
    · revert h; decide
  have e1 := subst_tag (b := b) k h1 hn hb
  have e2 : subst (a ++ lit "--tag $" ++ n ++ b) = a ++ lit "--tag $" ++ n ++ b := by
    apply subst_id
    simp [h2, hn', hb, lit]
  have hcut : cut (w ++ ' ' :: (a ++ "--tag ".toList ++ List.replicate k ' ' ++ "<class '".toList ++ n ++ "'>".toList ++ b)) =
      cut (w ++ ' ' :: (a ++ "--tag $".toList ++ n ++ b)) := by
    unfold cut
    rw [splitOnce_append hsp, splitOnce_append hsp]
    have hif : ∀ u v : Str, (if w = lit "slice" ∨ w = lit "make_slice" ∨ w = lit "gather_slice" then u else v) = u :=
      fun u v => if_pos hw
    simp only [hif]
    have e1' : subst (a ++ "--tag ".toList ++ List.replicate k ' ' ++ "<class '".toList ++ n ++ "'>".toList ++ b) = _ := e1
    have e2' : subst (a ++ "--tag $".toList ++ n ++ b) = _ := e2
    rw [e1', e2']
  unfold flowMagic
  rw [hcut]

end Verif.Redirect
