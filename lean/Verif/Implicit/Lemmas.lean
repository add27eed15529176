import Verif.Implicit.Spec

/-!
# Functions that run without being called in the text: lemmas
-/

namespace Verif.Implicit

variable {S : Type}

theorem plain_noCall {e : Exp S} (h : Plain e) : e.isCall = false := by
  cases e <;> first | rfl | exact h.elim

theorem plain_eval : ∀ (e : Exp S) (s : St S), Plain e →
    (eval s e).loaded = s.loaded ∧ (eval s e).stack = s.stack ∧ (eval s e).done = s.done
  | .lit _, s, _ => ⟨rfl, rfl, rfl⟩
  | .name _ _, s, _ => ⟨rfl, rfl, rfl⟩
  | .attr n own e h, s, hp => by
    obtain ⟨hp, rfl⟩ := hp
    obtain ⟨h1, h2, h3⟩ := plain_eval e s hp
    simp [eval, ran, before, plain_noCall hp, h1, h2, h3]
  | .sub n own e i h, s, hp => by
    obtain ⟨hp, hi, rfl⟩ := hp
    obtain ⟨h1, h2, h3⟩ := plain_eval e s hp
    obtain ⟨k1, k2, k3⟩ := plain_eval i (eval s e) hi
    simp [eval, ran, before, plain_noCall hp, h1, h2, h3, k1, k2, k3]
  | .bin n a b h, s, hp => by
    obtain ⟨hp, hi, rfl⟩ := hp
    obtain ⟨h1, h2, h3⟩ := plain_eval a s hp
    obtain ⟨k1, k2, k3⟩ := plain_eval b (eval s a) hi
    simp [eval, ran, h1, h2, h3, k1, k2, k3]
  | .call _ _ _ _, s, hp => hp.elim
  | .nil, s, hp => hp.elim
  | .cons _ _, s, hp => hp.elim

theorem plain_fns : ∀ (e : Exp S), Plain e → fns e = []
  | .lit _, _ => rfl
  | .name _ _, _ => rfl
  | .attr n own e h, hp => by obtain ⟨hp, rfl⟩ := hp; simp [fns, plain_fns e hp]
  | .sub n own e i h, hp => by obtain ⟨hp, hi, rfl⟩ := hp; simp [fns, plain_fns e hp, plain_fns i hi]
  | .bin n a b h, hp => by obtain ⟨hp, hi, rfl⟩ := hp; simp [fns, plain_fns a hp, plain_fns b hi]
  | .call _ _ _ _, hp => hp.elim
  | .nil, hp => hp.elim
  | .cons _ _, hp => hp.elim

theorem bare_plain : ∀ (e : Exp S), Bare e → Plain e
  | .lit _, _ => trivial
  | .name _ _, _ => trivial
  | .bin _ a b _, ⟨ha, hb, hh⟩ => ⟨bare_plain a ha, bare_plain b hb, hh⟩

theorem bare_prev : ∀ (e : Exp S) (s : St S), Bare e → (eval s e).prev = s.prev
  | .lit _, s, _ => rfl
  | .name _ _, s, _ => rfl
  | .bin n a b h, s, hp => by
    obtain ⟨ha, hb, rfl⟩ := hp
    simp [eval, ran, bare_prev b _ hb, bare_prev a _ ha]

/-- One table has at least what the other has. -/
def Le (f g : Nat → List S) : Prop := ∀ m, ∀ x ∈ f m, x ∈ g m

theorem Le.refl (f : Nat → List S) : Le f f := fun _ _ h => h
theorem Le.trans {f g h : Nat → List S} (a : Le f g) (b : Le g h) : Le f h := fun m x hx => b m x (a m x hx)

theorem le_attach (f : Nat → List S) (n : Option Nat) (l : List S) : Le f (attach f n l) := by
  intro m x hx
  cases n with
  | none => exact hx
  | some n =>
    simp only [attach]
    split
    · exact List.mem_append_left _ hx
    · exact hx

theorem le_ran (s : St S) (h : Option (Fn S)) : Le s.loaded (ran s h).loaded := by
  cases h with
  | none => exact Le.refl _
  | some f =>
    simp only [ran]
    split
    · exact Le.refl _
    · exact le_attach _ _ _

theorem ran_stack (s : St S) (h : Option (Fn S)) : (ran s h).stack = s.stack := by
  cases h with
  | none => rfl
  | some f => simp only [ran]; split <;> rfl

theorem ran_done (s : St S) (h : Option (Fn S)) : ∀ i ∈ (ran s h).done, i ∈ s.done ∨ ∃ f ∈ h.toList, f.id = i := by
  cases h with
  | none => exact fun i hi => .inl hi
  | some f =>
    intro i hi
    simp only [ran] at hi
    split at hi
    · exact .inl hi
    · rcases List.mem_cons.1 hi with rfl | hi
      · exact .inr ⟨f, by simp, rfl⟩
      · exact .inl hi

theorem ran_found (s : St S) (f : Fn S) (n : Nat) (hf : f.id ∉ s.done) (ht : target s = some n) : ∀ x ∈ f.reads, x ∈ (ran s (some f)).loaded n := by
  intro x hx
  simp [ran, hf, ht, attach, hx]

theorem ran_other (s : St S) (f : Fn S) (m : Nat) (h0 : s.loaded m = []) (ht : target s ≠ some m) : (ran s (some f)).loaded m = [] := by
  simp only [ran]
  split
  · exact h0
  · cases h : target s with
    | none => exact h0
    | some n =>
      have : m ≠ n := fun e => ht (h.trans (congrArg some e.symm))
      simp [attach, this, h0]

theorem target_nil {s : St S} (h : s.stack = []) : target s = s.prev := by simp [target, h]

theorem visit_mono {f g : Nat → List S} (hl : Le f g) : ∀ (e : Exp S) (x : S), (x ∈ quiet f e → x ∈ quiet g e) ∧ (x ∈ visit f e → x ∈ visit g e)
  | .lit _, x => ⟨id, id⟩
  | .name _ _, x => ⟨id, id⟩
  | .attr n own e h, x => by
    obtain ⟨i1, i2⟩ := visit_mono hl e x
    refine ⟨fun hx => ?_, fun hx => ?_⟩
    · simp only [quiet] at hx ⊢
      cases hc : e.isCall with
      | true => rw [hc] at hx; exact i1 hx
      | false => rw [hc] at hx; cases hx
    · simp only [visit, List.mem_append] at hx ⊢
      rcases hx with (hx | hx) | hx
      · cases hc : e.isCall with
        | true => rw [hc] at hx; exact .inl (.inl (i2 hx))
        | false => rw [hc] at hx; cases hx
      · exact .inl (.inr hx)
      · exact .inr (hl n x hx)
  | .sub n own e i h, x => by
    obtain ⟨i1, i2⟩ := visit_mono hl e x
    obtain ⟨k1, _⟩ := visit_mono hl i x
    refine ⟨fun hx => ?_, fun hx => ?_⟩
    · simp only [quiet, List.mem_append] at hx ⊢
      rcases hx with ((hx | hx) | hx) | hx
      · cases hc : e.isCall with
        | true => rw [hc] at hx; exact .inl (.inl (.inl (i1 hx)))
        | false => rw [hc] at hx; cases hx
      · exact .inl (.inl (.inr hx))
      · exact .inl (.inr (hl n x hx))
      · exact .inr (k1 hx)
    · simp only [visit, List.mem_append] at hx ⊢
      rcases hx with ((hx | hx) | hx) | hx
      · cases hc : e.isCall with
        | true => rw [hc] at hx; exact .inl (.inl (.inl (i2 hx)))
        | false => rw [hc] at hx; cases hx
      · exact .inl (.inl (.inr hx))
      · exact .inl (.inr (hl n x hx))
      · exact .inr (k1 hx)
  | .bin n a b h, x => by
    obtain ⟨i1, i2⟩ := visit_mono hl a x
    obtain ⟨k1, k2⟩ := visit_mono hl b x
    simp only [quiet, visit, List.mem_append]
    exact ⟨Or.imp i1 k1, Or.imp i2 k2⟩
  | .call n g' args h, x => by
    obtain ⟨i1, i2⟩ := visit_mono hl g' x
    obtain ⟨k1, k2⟩ := visit_mono hl args x
    refine ⟨fun hx => ?_, fun hx => ?_⟩
    · simp only [quiet, List.mem_append] at hx ⊢
      rcases hx with hx | hx
      · cases hc : g'.isPart with
        | true => rw [hc] at hx; exact .inl (i1 hx)
        | false => rw [hc] at hx; cases hx
      · exact .inr (k1 hx)
    · simp only [visit, List.mem_append] at hx ⊢
      rcases hx with ((hx | hx) | hx) | hx
      · cases hc : g'.isPart with
        | true => rw [hc] at hx; exact .inl (.inl (.inl (i2 hx)))
        | false => rw [hc] at hx; cases hx
      · refine .inl (.inl (.inr ?_))
        cases g' <;> first | exact hx | exact hl _ x hx
      · exact .inl (.inr (hl n x hx))
      · exact .inr (k2 hx)
  | .nil, x => ⟨id, id⟩
  | .cons a b, x => by
    obtain ⟨i1, i2⟩ := visit_mono hl a x
    obtain ⟨k1, k2⟩ := visit_mono hl b x
    simp only [quiet, visit, List.mem_append]
    exact ⟨Or.imp i1 k1, Or.imp i2 k2⟩

/-- What the stack is like where an expression stands. -/
def At (s : St S) (e : Exp S) : Place → Prop
  | .top => s.stack = []
  | .arg => ∃ l r, s.stack = l :: r ∧ l.args[l.seen]? = some e.node
  | .inner => True
  | .args => ∃ l r, s.stack = l :: r ∧ l.seen ≤ l.args.length ∧ l.args.drop l.seen = e.argNodes

/-- What evaluation does to the stack where an expression stands. -/
def After (s s' : St S) : Place → Prop
  | .args => ∃ l r, s.stack = l :: r ∧ s'.stack = { l with seen := l.args.length } :: r
  | _ => s'.stack = s.stack

/-- What is known after evaluating. -/
structure Ok (s s' : St S) (e : Exp S) : Prop where
  le : Le s.loaded s'.loaded
  done : ∀ i ∈ s'.done, i ∈ s.done ∨ ∃ f ∈ fns e, f.id = i

theorem chain_fns_or (e : Exp S) (h : Option (Fn S)) (hc : (Plain e ∧ h = none) ∨ Chain e) : Plain e ∨ Chain e := by
  rcases hc with ⟨hp, _⟩ | hc
  · exact .inl hp
  · exact .inr hc

theorem chain_noCall {e : Exp S} (h : Chain e) : e.isCall = false := by
  cases e <;> first | rfl | exact h.elim

theorem target_arg {s : St S} {l : Level} {r : List Level} {n : Nat} (hs : s.stack = l :: r) (hn : l.args[l.seen]? = some n) : target s = some n := by
  have hlt : l.seen < l.args.length := (List.getElem?_eq_some_iff.1 hn).1
  simp only [target, hs]
  rw [if_neg (by omega)]
  exact hn

/-- The functions of a chain that is an argument: everything is attached to the argument. -/
theorem chain_arg : ∀ (e : Exp S) (s : St S) (l : Level) (r : List Level) (n : Nat), Plain e ∨ Chain e → s.stack = l :: r → l.args[l.seen]? = some n →
    ((fns e).map (·.id)).Nodup → (∀ f ∈ fns e, f.id ∉ s.done) →
    (eval s e).stack = s.stack ∧ Ok s (eval s e) e ∧ ∀ f ∈ fns e, ∀ x ∈ f.reads, x ∈ (eval s e).loaded n := by
  intro e
  induction e with
  | lit k => exact fun s l r n _ _ _ _ _ => ⟨rfl, ⟨Le.refl _, fun i hi => .inl hi⟩, fun f hf => by cases hf⟩
  | name k x => exact fun s l r n _ _ _ _ _ => ⟨rfl, ⟨Le.refl _, fun i hi => .inl hi⟩, fun f hf => by cases hf⟩
  | attr k own e h ih =>
    intro s l r n hc hs hn hnd hfr
    have hc' : Plain e ∨ Chain e := by
      rcases hc with ⟨hp, _⟩ | hc
      · exact .inl hp
      · exact chain_fns_or e h hc
    have hcall : e.isCall = false := hc'.elim plain_noCall chain_noCall
    simp only [fns, List.map_append, List.nodup_append] at hnd
    obtain ⟨nd1, nd2, nd3⟩ := hnd
    obtain ⟨i1, ⟨i2, i3⟩, i4⟩ := ih s l r n hc' hs hn nd1 (fun f hf => hfr f (by simp [fns, hf]))
    have hbl : (before (eval s e) k e).loaded = (eval s e).loaded := by simp [before, hcall]
    refine ⟨by simp [eval, ran_stack, before, i1], ⟨?_, ?_⟩, ?_⟩
    · exact (i2.trans (hbl ▸ Le.refl _)).trans (le_ran _ h)
    · intro i hi
      rcases ran_done _ h i hi with hi | ⟨f, hf, rfl⟩
      · rcases i3 i hi with hi | ⟨f, hf, rfl⟩
        · exact .inl hi
        · exact .inr ⟨f, by simp [fns, hf], rfl⟩
      · exact .inr ⟨f, by simp [fns] at hf ⊢; exact .inr hf, rfl⟩
    · intro f hf x hx
      simp only [fns, List.mem_append] at hf
      rcases hf with hf | hf
      · exact le_ran _ h n x (by rw [hbl]; exact i4 f hf x hx)
      · cases h with
        | none => cases hf
        | some f' =>
          have : f = f' := by simpa using hf
          subst this
          refine ran_found _ f n ?_ (target_arg (s := before (eval s e) k e) (l := l) (r := r) (i1.trans hs) hn) x hx
          intro hd
          rcases i3 f.id hd with hd | ⟨g, hg, hgi⟩
          · exact hfr f (by simp [fns]) hd
          · exact nd3 g.id (List.mem_map_of_mem hg) f.id (by simp) hgi
  | sub k own e j h ih _ =>
    intro s l r n hc hs hn hnd hfr
    have hc' : Plain e ∨ Chain e := by
      rcases hc with ⟨hp, _⟩ | ⟨hc, _⟩
      · exact .inl hp
      · exact chain_fns_or e h hc
    have hj : Plain j := by
      rcases hc with ⟨_, hj, _⟩ | ⟨_, hj⟩ <;> exact hj
    have hcall : e.isCall = false := hc'.elim plain_noCall chain_noCall
    have hfe : fns (.sub k own e j h) = fns e ++ h.toList := by simp [fns, plain_fns j hj]
    rw [hfe] at hnd hfr
    simp only [List.map_append, List.nodup_append] at hnd
    obtain ⟨nd1, nd2, nd3⟩ := hnd
    obtain ⟨i1, ⟨i2, i3⟩, i4⟩ := ih s l r n hc' hs hn nd1 (fun f hf => hfr f (by simp [hf]))
    obtain ⟨p1, p2, p3⟩ := plain_eval j (eval s e) hj
    have hbl : (before (eval (eval s e) j) k e).loaded = (eval s e).loaded := by simp [before, hcall, p1]
    have hbd : (before (eval (eval s e) j) k e).done = (eval s e).done := by simp [before, p3]
    refine ⟨by simp [eval, ran_stack, before, i1, p2], ⟨?_, ?_⟩, ?_⟩
    · exact (i2.trans (hbl ▸ Le.refl _)).trans (le_ran _ h)
    · intro i hi
      rw [hfe]
      rcases ran_done _ h i hi with hi | ⟨f, hf, rfl⟩
      · rw [hbd] at hi
        rcases i3 i hi with hi | ⟨f, hf, rfl⟩
        · exact .inl hi
        · exact .inr ⟨f, by simp [hf], rfl⟩
      · exact .inr ⟨f, List.mem_append_right _ hf, rfl⟩
    · intro f hf x hx
      rw [hfe] at hf
      rcases List.mem_append.1 hf with hf | hf
      · exact le_ran _ h n x (by rw [hbl]; exact i4 f hf x hx)
      · cases h with
        | none => cases hf
        | some f' =>
          have : f = f' := by simpa using hf
          subst this
          refine ran_found _ f n ?_ (target_arg (s := before (eval (eval s e) j) k e) (l := l) (r := r) (p2.trans (i1.trans hs)) hn) x hx
          intro hd
          rw [hbd] at hd
          rcases i3 f.id hd with hd | ⟨g, hg, hgi⟩
          · exact hfr f (by simp) hd
          · exact nd3 g.id (List.mem_map_of_mem hg) f.id (by simp) hgi
  | bin k a b h _ _ =>
    intro s l r n hc hs hn _ _
    rcases hc with hp | hc
    · obtain ⟨p1, p2, p3⟩ := plain_eval (.bin k a b h) s hp
      refine ⟨p2, ⟨p1 ▸ Le.refl _, fun i hi => .inl (p3 ▸ hi)⟩, fun f hf => ?_⟩
      rw [plain_fns _ hp] at hf
      cases hf
    · exact hc.elim
  | call => exact fun s l r n hc => hc.elim (fun h => h.elim) (fun h => h.elim)
  | nil => exact fun s l r n hc => hc.elim (fun h => h.elim) (fun h => h.elim)
  | cons => exact fun s l r n hc => hc.elim (fun h => h.elim) (fun h => h.elim)

theorem chain_visit (f : Nat → List S) {e : Exp S} (hc : Chain e) (hne : fns e ≠ []) : ∀ x ∈ f e.node, x ∈ visit f e := by
  intro x hx
  cases e with
  | attr n own e h => simp only [visit, List.mem_append]; exact .inr hx
  | sub n own e i h => simp only [visit, List.mem_append]; exact .inl (.inr hx)
  | lit n => exact (hne rfl).elim
  | name n x => exact (hne rfl).elim
  | bin => exact hc.elim
  | call => exact hc.elim
  | nil => exact hc.elim
  | cons => exact hc.elim

theorem good_eval {w : Place} {e : Exp S} (hg : Good w e) : ∀ (s : St S), At s e w →
    ((fns e).map (·.id)).Nodup → (∀ f ∈ fns e, f.id ∉ s.done) →
    After s (eval s e) w ∧ Ok s (eval s e) e ∧ ∀ f ∈ fns e, ∀ x ∈ f.reads, x ∈ visit (eval s e).loaded e := by
  induction hg with
  | @plain w e hp hw =>
    intro s _ _ _
    obtain ⟨p1, p2, p3⟩ := plain_eval e s hp
    refine ⟨?_, ⟨p1 ▸ Le.refl _, fun i hi => .inl (p3 ▸ hi)⟩, fun f hf => ?_⟩
    · cases w <;> first | exact p2 | exact (hw rfl).elim
    · rw [plain_fns _ hp] at hf
      cases hf
  | @attr n own e h hp =>
    intro s hat hnd hfr
    obtain ⟨p1, p2, p3⟩ := plain_eval e s hp
    have hbl : (before (eval s e) n e).loaded = s.loaded := by simp [before, plain_noCall hp, p1]
    have hfe : fns (.attr n own e h) = h.toList := by simp [fns, plain_fns e hp]
    refine ⟨by simp [After, eval, ran_stack, before, p2], ⟨?_, ?_⟩, ?_⟩
    · exact (show Le s.loaded _ from hbl ▸ Le.refl _).trans (le_ran _ h)
    · intro i hi
      rw [hfe]
      rcases ran_done _ h i hi with hi | hi
      · exact .inl (p3 ▸ hi)
      · exact .inr hi
    · intro f hf x hx
      rw [hfe] at hf hfr
      cases h with
      | none => cases hf
      | some f' =>
        have : f = f' := by simpa using hf
        subst this
        simp only [visit, List.mem_append]
        refine .inr (ran_found _ f n ?_ ?_ x hx)
        · intro hd
          exact hfr f hf (p3 ▸ hd)
        · have : (before (eval s e) n e).stack = [] := p2.trans hat
          simp only [target, this]
          rfl
  | @sub n own e i h hp hi =>
    intro s hat hnd hfr
    obtain ⟨p1, p2, p3⟩ := plain_eval e s hp
    obtain ⟨q1, q2, q3⟩ := plain_eval i (eval s e) hi
    have hbl : (before (eval (eval s e) i) n e).loaded = s.loaded := by simp [before, plain_noCall hp, p1, q1]
    have hbd : (before (eval (eval s e) i) n e).done = s.done := q3.trans p3
    have hfe : fns (.sub n own e i h) = h.toList := by simp [fns, plain_fns e hp, plain_fns i hi]
    refine ⟨by simp [After, eval, ran_stack, before, p2, q2], ⟨?_, ?_⟩, ?_⟩
    · exact (show Le s.loaded _ from hbl ▸ Le.refl _).trans (le_ran _ h)
    · intro i hi
      rw [hfe]
      rcases ran_done _ h i hi with hi | hi
      · exact .inl (hbd ▸ hi)
      · exact .inr hi
    · intro f hf x hx
      rw [hfe] at hf hfr
      cases h with
      | none => cases hf
      | some f' =>
        have : f = f' := by simpa using hf
        subst this
        simp only [visit, List.mem_append]
        refine .inl (.inr (ran_found _ f n ?_ ?_ x hx))
        · intro hd
          exact hfr f hf (hbd ▸ hd)
        · have : (before (eval (eval s e) i) n e).stack = [] := q2.trans (p2.trans hat)
          simp only [target, this]
          rfl
  | @chain e hc =>
    intro s hat hnd hfr
    obtain ⟨l, r, hs, hn⟩ := hat
    obtain ⟨h1, h2, h3⟩ := chain_arg e s l r e.node (.inr hc) hs hn hnd hfr
    refine ⟨h1, h2, fun f hf x hx => chain_visit _ hc (fun h => by rw [h] at hf; cases hf) x (h3 f hf x hx)⟩
  | @binTop n a b _ _ iha ihb =>
    intro s hat hnd hfr
    have hfe : fns (.bin n a b none) = fns a ++ fns b := by simp [fns]
    rw [hfe] at hnd hfr ⊢
    simp only [List.map_append, List.nodup_append] at hnd
    obtain ⟨nd1, nd2, nd3⟩ := hnd
    obtain ⟨a1, a2, a3⟩ := iha s hat nd1 fun f hf => hfr f (List.mem_append_left _ hf)
    obtain ⟨b1, b2, b3⟩ := ihb (eval s a) ((show (eval s a).stack = s.stack from a1).trans hat) nd2 fun f hf hd => by
      rcases a2.done f.id hd with hd | ⟨g, hg, hgi⟩
      · exact hfr f (List.mem_append_right _ hf) hd
      · exact nd3 g.id (List.mem_map_of_mem hg) f.id (List.mem_map_of_mem hf) hgi
    refine ⟨(show (eval (eval s a) b).stack = _ from b1).trans a1, ⟨a2.le.trans b2.le, fun i hi => ?_⟩, fun f hf x hx => ?_⟩
    · rcases b2.done i hi with hi | ⟨f, hf, hfi⟩
      · rcases a2.done i hi with hi | ⟨f, hf, hfi⟩
        · exact .inl hi
        · exact .inr ⟨f, by rw [hfe]; exact List.mem_append_left _ hf, hfi⟩
      · exact .inr ⟨f, by rw [hfe]; exact List.mem_append_right _ hf, hfi⟩
    · simp only [visit, List.mem_append]
      rcases List.mem_append.1 hf with hf | hf
      · exact .inl ((visit_mono b2.le a x).2 (a3 f hf x hx))
      · exact .inr (b3 f hf x hx)
  | @binIn n a b w hw _ _ iha ihb =>
    intro s hat hnd hfr
    have hfe : fns (.bin n a b none) = fns a ++ fns b := by simp [fns]
    rw [hfe] at hnd hfr ⊢
    simp only [List.map_append, List.nodup_append] at hnd
    obtain ⟨nd1, nd2, nd3⟩ := hnd
    obtain ⟨a1, a2, a3⟩ := iha s trivial nd1 fun f hf => hfr f (List.mem_append_left _ hf)
    obtain ⟨b1, b2, b3⟩ := ihb (eval s a) trivial nd2 fun f hf hd => by
      rcases a2.done f.id hd with hd | ⟨g, hg, hgi⟩
      · exact hfr f (List.mem_append_right _ hf) hd
      · exact nd3 g.id (List.mem_map_of_mem hg) f.id (List.mem_map_of_mem hf) hgi
    refine ⟨?_, ⟨a2.le.trans b2.le, fun i hi => ?_⟩, fun f hf x hx => ?_⟩
    · have : (eval s (.bin n a b none)).stack = s.stack := (show (eval (eval s a) b).stack = _ from b1).trans a1
      rcases hw with rfl | rfl <;> exact this
    · rcases b2.done i hi with hi | ⟨f, hf, hfi⟩
      · rcases a2.done i hi with hi | ⟨f, hf, hfi⟩
        · exact .inl hi
        · exact .inr ⟨f, by rw [hfe]; exact List.mem_append_left _ hf, hfi⟩
      · exact .inr ⟨f, by rw [hfe]; exact List.mem_append_right _ hf, hfi⟩
    · simp only [visit, List.mem_append]
      rcases List.mem_append.1 hf with hf | hf
      · exact .inl ((visit_mono b2.le a x).2 (a3 f hf x hx))
      · exact .inr (b3 f hf x hx)
  | @call n f args h w hp _ hw ih =>
    intro s hat hnd hfr
    have hfe : fns (.call n f args h) = fns args ++ h.toList := by simp [fns, plain_fns f hp]
    rw [hfe] at hnd hfr ⊢
    simp only [List.map_append, List.nodup_append] at hnd
    obtain ⟨nd1, nd2, nd3⟩ := hnd
    obtain ⟨p1, p2, p3⟩ := plain_eval f s hp
    let s1 : St S := { eval s f with prev := some n, stack := ⟨n, args.argNodes, 0⟩ :: (eval s f).stack }
    obtain ⟨⟨l, r, hl, hst⟩, b2, b3⟩ := ih s1 ⟨_, _, rfl, Nat.zero_le _, rfl⟩ nd1 fun g hg hd => hfr g (List.mem_append_left _ hg) (p3 ▸ hd)
    have hlr : (⟨n, args.argNodes, 0⟩ :: (eval s f).stack : List Level) = l :: r := hl
    cases hlr
    have hev : eval s (.call n f args h) = { ran (eval s1 args) h with stack := (ran (eval s1 args) h).stack.tail } := rfl
    have hstk : (eval s (.call n f args h)).stack = s.stack := by
      rw [hev]
      simp only [ran_stack, hst, List.tail_cons, p2]
    have hld : (eval s (.call n f args h)).loaded = (ran (eval s1 args) h).loaded := rfl
    have hs1 : Le s.loaded s1.loaded := by
      show Le s.loaded (eval s f).loaded
      rw [p1]
      exact Le.refl _
    refine ⟨?_, ⟨?_, ?_⟩, ?_⟩
    · cases w <;> first | exact hstk | exact (hw rfl).elim
    · rw [hld]
      exact (hs1.trans b2.le).trans (le_ran _ h)
    · intro i hi
      rw [hfe]
      rcases ran_done (eval s1 args) h i hi with hi | ⟨g, hg, hgi⟩
      · rcases b2.done i hi with hi | ⟨g, hg, hgi⟩
        · exact .inl (p3 ▸ hi)
        · exact .inr ⟨g, List.mem_append_left _ hg, hgi⟩
      · exact .inr ⟨g, List.mem_append_right _ hg, hgi⟩
    · intro g hg x hx
      rw [hld]
      simp only [visit, List.mem_append]
      rcases List.mem_append.1 hg with hg | hg
      · exact .inr ((visit_mono (le_ran _ h) args x).2 (b3 g hg x hx))
      · cases h with
        | none => cases hg
        | some f' =>
          have : g = f' := by simpa using hg
          subst this
          refine .inl (.inr (ran_found _ g n ?_ ?_ x hx))
          · intro hd
            rcases b2.done g.id hd with hd | ⟨k, hk, hki⟩
            · exact hfr g (List.mem_append_right _ hg) (p3 ▸ hd)
            · exact nd3 k.id (List.mem_map_of_mem hk) g.id (by simp) hki
          · simp [target, hst]
  | nil =>
    intro s hat _ _
    obtain ⟨l, r, hs, hle, hd⟩ := hat
    refine ⟨⟨l, r, hs, ?_⟩, ⟨Le.refl _, fun i hi => .inl hi⟩, fun f hf => by cases hf⟩
    have : l.seen = l.args.length := Nat.le_antisymm hle (List.drop_eq_nil_iff.1 hd)
    show s.stack = _
    rw [hs, ← this]
  | @cons a q _ _ iha ihr =>
    intro s hat hnd hfr
    obtain ⟨l, r, hs, hle, hd⟩ := hat
    simp only [fns, List.map_append, List.nodup_append] at hnd
    obtain ⟨nd1, nd2, nd3⟩ := hnd
    have hlt : l.seen < l.args.length := by
      refine Classical.byContradiction fun h => ?_
      rw [List.drop_eq_nil_iff.2 (by omega)] at hd
      cases hd
    rw [List.drop_eq_getElem_cons hlt] at hd
    obtain ⟨hd1, hd2⟩ := List.cons.inj hd
    obtain ⟨a1, a2, a3⟩ := iha s ⟨l, r, hs, by rw [List.getElem?_eq_getElem hlt, hd1]⟩ nd1 fun f hf => hfr f (List.mem_append_left _ hf)
    have hst : (eval s a).stack = l :: r := (show (eval s a).stack = s.stack from a1).trans hs
    have hcs : (counted (eval s a)).stack = { l with seen := l.seen + 1 } :: r := by simp [counted, hst]
    have hcl : (counted (eval s a)).loaded = (eval s a).loaded := by simp [counted, hst]
    have hcd : (counted (eval s a)).done = (eval s a).done := by simp [counted, hst]
    obtain ⟨⟨l', r', hl', hr'⟩, b2, b3⟩ := ihr (counted (eval s a)) ⟨_, _, hcs, hlt, hd2⟩ nd2 fun f hf hdn => by
      rw [hcd] at hdn
      rcases a2.done f.id hdn with hdn | ⟨g, hg, hgi⟩
      · exact hfr f (List.mem_append_right _ hf) hdn
      · exact nd3 g.id (List.mem_map_of_mem hg) f.id (List.mem_map_of_mem hf) hgi
    rw [hcs] at hl'
    cases hl'
    have hle2 : Le (eval s a).loaded (eval (counted (eval s a)) q).loaded := hcl ▸ b2.le
    refine ⟨⟨l, r, hs, hr'⟩, ⟨a2.le.trans hle2, fun i hi => ?_⟩, fun f hf x hx => ?_⟩
    · rcases b2.done i hi with hi | ⟨f, hf, hfi⟩
      · rw [hcd] at hi
        rcases a2.done i hi with hi | ⟨f, hf, hfi⟩
        · exact .inl hi
        · exact .inr ⟨f, List.mem_append_left _ hf, hfi⟩
      · exact .inr ⟨f, List.mem_append_right _ hf, hfi⟩
    · simp only [visit, List.mem_append]
      rcases List.mem_append.1 hf with hf | hf
      · exact .inl ((visit_mono hle2 a x).2 (a3 f hf x hx))
      · exact .inr (b3 f hf x hx)

theorem static_named : ∀ (e : Exp S) (x : S), x ∈ static e ↔ Named e x
  | .lit _, x => ⟨fun h => (by cases h), fun h => (by cases h)⟩
  | .name _ y, x => by
    simp only [static, List.mem_singleton]
    exact ⟨fun h => h ▸ .name, fun h => by cases h; rfl⟩
  | .attr n own e h, x => by
    simp only [static, List.mem_append, static_named e x]
    exact ⟨fun h => h.elim .attr .attrOf, fun h => by cases h with | attr h => exact .inl h | attrOf h => exact .inr h⟩
  | .sub n own e i h, x => by
    simp only [static, List.mem_append, static_named e x, static_named i x]
    exact ⟨fun h => h.elim (fun h => h.elim .sub .subOf) .index,
      fun h => by cases h with | sub h => exact .inl (.inl h) | subOf h => exact .inl (.inr h) | index h => exact .inr h⟩
  | .bin n a b h, x => by
    simp only [static, List.mem_append, static_named a x, static_named b x]
    exact ⟨fun h => h.elim .left .right, fun h => by cases h with | left h => exact .inl h | right h => exact .inr h⟩
  | .call n f args h, x => by
    simp only [static, List.mem_append, static_named f x, static_named args x]
    exact ⟨fun h => h.elim .func .args, fun h => by cases h with | func h => exact .inl h | args h => exact .inr h⟩
  | .nil, x => ⟨fun h => (by cases h), fun h => (by cases h)⟩
  | .cons a r, x => by
    simp only [static, List.mem_append, static_named a x, static_named r x]
    exact ⟨fun h => h.elim .head .tail, fun h => by cases h with | head h => exact .inl h | tail h => exact .inr h⟩

/-- If the visitor finds only what the text is about, so does the whole resolution. -/
theorem resolve_named (f : Nat → List S) (e : Exp S) (h : ∀ x ∈ visit f e, Named e x) : ∀ x ∈ resolve f e, Named e x := by
  intro x hx
  unfold resolve at hx
  split at hx
  · exact (static_named e x).1 hx
  · exact h x hx

theorem assign_named (done : List Nat) (e : Exp S) (h : ∀ x ∈ visit (eval (start done) e).loaded e, Named e x) : ∀ x ∈ (assign done e).1, Named e x :=
  resolve_named _ e h

theorem mem_resolve (f : Nat → List S) (e : Exp S) (x : S) (h : x ∈ visit f e) : x ∈ resolve f e := by
  unfold resolve
  split
  · rename_i h0
    rw [h0] at h
    cases h
  · exact h

theorem bare_visit (f : Nat → List S) : ∀ (e : Exp S), Bare e → ∀ x ∈ visit f e, Named e x
  | .lit _, _, x, h => (by cases h)
  | .name _ y, _, x, h => by
    simp only [visit, List.mem_singleton] at h
    exact h ▸ .name
  | .bin n a b h, ⟨ha, hb, _⟩, x, hx => by
    simp only [visit, List.mem_append] at hx
    exact hx.elim (fun h => .left (bare_visit f a ha x h)) fun h => .right (bare_visit f b hb x h)

end Verif.Implicit
