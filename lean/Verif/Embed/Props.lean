import Verif.Embed.Spec

/-!
# Embedding, proofs
-/

namespace Verif.Embed

open Spec

/-- The shell `i` of class `c` is the instance of all classes above `c`, and the only one. -/
structure Has (c : Cls) (i : Nat) (s : St) : Prop where
  up : ∀ d ∈ mro c, s.inst d = some (some i)
  out : ∀ d, d ∉ mro c → s.inst d = none ∨ s.inst d = some none
  typ : s.typ i = c
  lt : i < s.next

/-- There is no shell. -/
def Empty (s : St) : Prop := ∀ d, s.inst d = none ∨ s.inst d = some none

theorem mem_self (c : Cls) : c ∈ mro c := by
  cases c with
  | plain p => cases p <;> decide
  | _ => simp [mro]

theorem mro_head (c : Cls) : ∃ r, mro c = c :: r := by
  cases c with
  | plain p => cases p <;> exact ⟨_, rfl⟩
  | own p => exact ⟨_, rfl⟩
  | gen p => exact ⟨_, rfl⟩
  | _ => exact ⟨_, rfl⟩

theorem mro_nodup (c : Cls) : (mro c).Nodup := by
  cases c with
  | plain p => cases p <;> decide
  | own p => cases p <;> decide
  | gen p => cases p <;> decide
  | _ => decide

theorem lookup_set {s : St} {c : Cls} {v : Option Nat} (h : s.inst c = some v) : s.lookup c = v := by
  obtain ⟨r, hr⟩ := mro_head c
  rw [St.lookup, hr, find, h]

theorem find_empty {s : St} (h : Empty s) : ∀ l, find s.inst l = none
  | [] => rfl
  | c :: cs => by
    rw [find]
    rcases h c with e | e
    · rw [e]; exact find_empty h cs
    · rw [e]

theorem lookup_empty {s : St} (h : Empty s) (c : Cls) : s.lookup c = none := find_empty h _

theorem putAll_inst : ∀ (l : List Cls) (s : St) (v : Option Nat) (d : Cls), (s.putAll v l).inst d = if d ∈ l then some v else s.inst d
  | [], _, _, _ => by simp [St.putAll]
  | c :: cs, s, v, d => by
    rw [St.putAll, putAll_inst cs]
    by_cases h : d ∈ cs
    · simp [h]
    · by_cases e : d = c
      · simp [e, St.put]
      · simp [h, e, St.put]

theorem putAll_rest : ∀ (l : List Cls) (s : St) (v : Option Nat), (s.putAll v l).typ = s.typ ∧ (s.putAll v l).next = s.next ∧ (s.putAll v l).ps = s.ps
  | [], _, _ => ⟨rfl, rfl, rfl⟩
  | c :: cs, s, v => by
    rw [St.putAll]
    exact putAll_rest cs (s.put c v) v

theorem sweep_rest : ∀ (l : List Cls) (s : St) (c : Cls), (s.sweep c l).typ = s.typ ∧ (s.sweep c l).next = s.next ∧ (s.sweep c l).ps = s.ps
  | [], _, _ => ⟨rfl, rfl, rfl⟩
  | d :: ds, s, c => by
    rw [St.sweep]
    cases s.isInst (s.lookup d) c
    · simpa using sweep_rest ds s c
    · exact sweep_rest ds (s.put d none) c

theorem clear_rest (s : St) (c : Cls) : (s.clear c).typ = s.typ ∧ (s.clear c).next = s.next ∧ (s.clear c).ps = s.ps := by
  rw [St.clear]
  by_cases h : s.lookup c = none
  · rw [if_pos h]; exact ⟨rfl, rfl, rfl⟩
  · rw [if_neg h]; exact sweep_rest _ _ _

theorem sweep_inst : ∀ (l : List Cls) (s : St) (c : Cls) (i : Nat), l.Nodup → s.typ i = c → (∀ d ∈ l, s.inst d = some (some i)) → ∀ d,
    (s.sweep c l).inst d = if d ∈ l then some none else s.inst d
  | [], _, _, _, _, _, _, _ => by simp [St.sweep]
  | e :: es, s, c, i, hn, ht, hl, d => by
    have he : s.lookup e = some i := lookup_set (hl e (by simp))
    have hi : s.isInst (s.lookup e) c = true := by
      rw [he, St.isInst, ht]; exact decide_eq_true (mem_self c)
    rw [St.sweep, hi, if_pos rfl]
    have hn' := List.nodup_cons.mp hn
    rw [sweep_inst es (s.put e none) c i hn'.2 ht ?_]
    · by_cases h : d ∈ es
      · simp [h]
      · by_cases q : d = e
        · simp [q, St.put]
        · simp [h, q, St.put]
    · intro d' hd
      have : d' ≠ e := fun q => hn'.1 (q ▸ hd)
      simp only [St.put, this, if_false]
      exact hl d' (List.mem_cons_of_mem _ hd)

theorem clear_has {c : Cls} {i : Nat} {s : St} (h : Has c i s) : Empty (s.clear c) := by
  have hl : s.lookup c = some i := lookup_set (h.up c (mem_self c))
  intro d
  rw [St.clear, if_neg (by rw [hl]; simp), sweep_inst (mro c) s c i (mro_nodup c) h.typ h.up d]
  by_cases hd : d ∈ mro c
  · simp [hd]
  · simpa [hd] using h.out d hd

theorem clear_empty {s : St} (h : Empty s) (c : Cls) : s.clear c = s := by
  rw [St.clear, if_pos (lookup_empty h c)]

theorem make_has {s : St} (h : Empty s) (c : Cls) : Has c s.next (s.make c) where
  up d hd := by rw [St.make, putAll_inst, if_pos hd]
  out d hd := by rw [St.make, putAll_inst, if_neg hd]; exact h d
  typ := by rw [St.make, (putAll_rest _ _ _).1]; simp
  lt := by rw [St.make, (putAll_rest _ _ _).2.1]; exact Nat.lt_succ_self _

theorem base_mem {c : Cls} (h : c ≠ .flowShell) : Cls.base ∈ mro c := by
  cases c with
  | plain p => cases p <;> decide
  | own p => cases p <;> decide
  | gen p => cases p <;> decide
  | flowShell => exact absurd rfl h
  | _ => decide

theorem lookup_has {c : Cls} {i : Nat} {s : St} (h : Has c i s) (hc : c ≠ .flowShell) : s.lookup .base = some i := lookup_set (h.up _ (base_mem hc))

theorem instance_empty {s : St} (h : Empty s) : s.instance = some (s.make flowEmbed) := by
  rw [St.instance, lookup_empty h]

/-- What holds of a body: it keeps one embedded shell, and the classes of older shells. -/
def Keeps (body : St → St × Bool) : Prop := ∀ (s : St) (e : Nat), Has flowEmbed e s →
  (∃ e', Has flowEmbed e' (body s).1) ∧ (∀ j, j < s.next → (body s).1.typ j = s.typ j) ∧ s.next ≤ (body s).1.next

theorem restore_has {c : Cls} {i : Nat} {s : St} (h : Empty s) (ht : s.typ i = c) (hl : i < s.next) : Has c i (s.putAll (some i) (mro c)) where
  up d hd := by rw [putAll_inst, if_pos hd]
  out d hd := by rw [putAll_inst, if_neg hd]; exact h d
  typ := by rw [(putAll_rest _ _ _).1]; exact ht
  lt := by rw [(putAll_rest _ _ _).2.1]; exact hl

theorem has_ps {c : Cls} {i : Nat} {s : St} (h : Has c i s) (q : Option Nat) : Has c i { s with ps := q } := ⟨h.up, h.out, h.typ, h.lt⟩

/-- A program whose shell is `i` and gets a clear table before the session. -/
theorem embed_one {body : St → St × Bool} (hk : Keeps body) {c : Cls} {i : Nat} {s : St} (hb : s.lookup .base = some i) (ht : s.typ i = c) (hl : i < s.next)
    (he : Empty (s.clear c)) :
    (((body ((s.clear c).make flowEmbed)).2 = false → (embedWith body s).2 = false ∧ Has c i (embedWith body s).1 ∧ (∀ q, s.ps = some q → (embedWith body s).1.ps = some q)) ∧
    ((body ((s.clear c).make flowEmbed)).2 = true → (embedWith body s).2 = true ∧ ∃ e, Has flowEmbed e (embedWith body s).1)) ∧
    (∀ j, j < s.next → (embedWith body s).1.typ j = s.typ j) ∧ s.next ≤ (embedWith body s).1.next := by
  have hc := clear_rest s c
  have h2 := make_has he flowEmbed
  obtain ⟨⟨e', h3⟩, hty, hnx⟩ := hk _ _ h2
  have hnext : ((s.clear c).make flowEmbed).next = s.next + 1 := by rw [St.make, (putAll_rest _ _ _).2.1, hc.2.1]
  have htyp : ∀ j, j < s.next → ((s.clear c).make flowEmbed).typ j = s.typ j := by
    intro j hj
    rw [St.make, (putAll_rest _ _ _).1]
    have : j ≠ (s.clear c).next := by rw [hc.2.1]; omega
    simp [this, hc.1]
  have h3t : ∀ j, j < s.next → (body ((s.clear c).make flowEmbed)).1.typ j = s.typ j := fun j hj => (hty j (by omega)).trans (htyp j hj)
  have h4 := clear_has h3
  have h4r := clear_rest (body ((s.clear c).make flowEmbed)).1 flowEmbed
  by_cases hr : (body ((s.clear c).make flowEmbed)).2 = true
  · have hev : embedWith body s = ((body ((s.clear c).make flowEmbed)).1, true) := by
      simp only [embedWith, hb, ht, instance_empty he, hr, if_true]
    rw [hev]
    refine ⟨⟨fun q => ?_, fun _ => ⟨rfl, e', h3⟩⟩, h3t, by simp only; omega⟩
    rw [hr] at q; cases q
  · have hti : ((body ((s.clear c).make flowEmbed)).1.clear flowEmbed).typ i = c := by rw [h4r.1, h3t i hl, ht]
    have h5 : Has c i (((body ((s.clear c).make flowEmbed)).1.clear flowEmbed).putAll (some i) (mro c)) :=
      restore_has h4 hti (by rw [h4r.2.1]; omega)
    have hev : embedWith body s = (if s.ps.isSome then { ((body ((s.clear c).make flowEmbed)).1.clear flowEmbed).putAll (some i) (mro c) with ps := s.ps }
        else ((body ((s.clear c).make flowEmbed)).1.clear flowEmbed).putAll (some i) (mro c), false) := by
      simp only [embedWith, hb, ht, instance_empty he, hr, hti, clear_empty h4]
      simp
    have hp := putAll_rest (mro c) ((body ((s.clear c).make flowEmbed)).1.clear flowEmbed) (some i)
    rw [hev]
    refine ⟨⟨fun _ => ⟨rfl, ?_, ?_⟩, fun q => absurd q hr⟩, ?_, ?_⟩
    · cases hq : s.ps with
      | none => simpa using h5
      | some q => simpa using has_ps h5 (some q)
    · intro q hq
      simp [hq]
    · intro j hj
      have : (((body ((s.clear c).make flowEmbed)).1.clear flowEmbed).putAll (some i) (mro c)).typ j = s.typ j := by rw [hp.1, h4r.1, h3t j hj]
      cases hq : s.ps <;> simpa using this
    · have : s.next ≤ (((body ((s.clear c).make flowEmbed)).1.clear flowEmbed).putAll (some i) (mro c)).next := by rw [hp.2.1, h4r.2.1]; omega
      cases hq : s.ps <;> simpa using this

theorem flowEmbed_ne : flowEmbed ≠ .flowShell := by decide

theorem live_keeps : ∀ x, Keeps (live x)
  | .stop _, s, e, h => ⟨⟨e, h⟩, fun _ _ => rfl, Nat.le_refl _⟩
  | .embed inner rest, s, e, h => by
    have h1 := embed_one (live_keeps inner) (lookup_has h flowEmbed_ne) h.typ h.lt (clear_has h)
    obtain ⟨e', h2⟩ : ∃ e', Has flowEmbed e' (embedWith (live inner) s).1 := by
      cases hq : (live inner ((s.clear flowEmbed).make flowEmbed)).2 with
      | false => exact ⟨e, (h1.1.1 hq).2.1⟩
      | true => exact (h1.1.2 hq).2
    have h3 := live_keeps rest _ e' h2
    rw [live]
    exact ⟨h3.1, fun j hj => (h3.2.1 j (by omega)).trans (h1.2.1 j hj), by omega⟩

theorem live_raises : ∀ (x : Sess) (s : St), (live x s).2 = Raises x
  | .stop _, _ => rfl
  | .embed inner rest, s => by rw [live, live_raises rest, Raises]

theorem started_has (c : Cls) : Has c 0 (started c) := make_has (s := fresh none) (fun _ => .inl rfl) c

theorem loaded_clear (p : Plain) : Empty ((load p 0 (started (.plain p))).clear (.gen p)) := by
  intro d
  cases p <;> (cases d with
    | plain q => cases q <;> first | exact .inl rfl | exact .inr rfl
    | own q => cases q <;> first | exact .inl rfl | exact .inr rfl
    | gen q => cases q <;> first | exact .inl rfl | exact .inr rfl
    | _ => first | exact .inl rfl | exact .inr rfl)

/-- The programs with a shell from which `embed` begins with a clear table. -/
theorem ready {s : St} (hs : Program s) {i : Nat} (hb : s.lookup .base = some i) (hu : ¬ Unloaded s) :
    i < s.next ∧ Empty (s.clear (s.typ i)) ∧ s.typ i ≠ .flowShell ∧ s.ps = some 0 := by
  cases hs with
  | none ps => simp [fresh, St.lookup, mro, find] at hb
  | plain p =>
    have h := started_has (.plain p)
    have : i = 0 := by rw [lookup_has h (by simp)] at hb; simpa using hb.symm
    subst this
    refine ⟨h.lt, by rw [h.typ]; exact clear_has h, by rw [h.typ]; simp, ?_⟩
    rw [started, St.make, (putAll_rest _ _ _).2.2]
  | own p =>
    have h := started_has (.own p)
    have : i = 0 := by rw [lookup_has h (by simp)] at hb; simpa using hb.symm
    subst this
    refine ⟨h.lt, by rw [h.typ]; exact clear_has h, by rw [h.typ]; simp, ?_⟩
    rw [started, St.make, (putAll_rest _ _ _).2.2]
  | loaded p =>
    have : i = 0 := by cases p <;> exact (Option.some.inj hb).symm
    subst this
    have h := started_has (.plain p)
    refine ⟨h.lt, loaded_clear p, by simp [load], ?_⟩
    simp only [load, St.put]
    rw [started, St.make, (putAll_rest _ _ _).2.2]
  | unloaded p => exact absurd ⟨p, rfl⟩ hu

theorem embeds_has {c : Cls} {i : Nat} (hc : c ≠ .flowShell) : ∀ (xs : List Sess) (s : St) (q : Nat), Has c i s → s.ps = some q → (∀ x ∈ xs, Raises x = false) →
    seen (embeds xs s) = (some i, some q)
  | [], s, q, h, hp, _ => by rw [embeds, seen, lookup_has h hc, hp]
  | x :: xs, s, q, h, hp, hx => by
    have h1 := (embed_one (live_keeps x) (lookup_has h hc) h.typ h.lt (clear_has h)).1.1 (by rw [live_raises]; exact hx x (by simp))
    rw [embeds]
    exact embeds_has hc xs _ q h1.2.1 (h1.2.2 q hp) (fun y hy => hx y (List.mem_cons_of_mem _ hy))

/-- **C186, where it holds**: in a program with a shell, of IPython or of ipyflow or with the extension loaded, any number of embedded sessions that do not raise leave the program
with its shell and its prompts, whatever is embedded in them. Missing: sessions that raise, programs without prompts, programs in which the extension was unloaded, see below. -/
theorem restored_partial (s : St) (hs : Program s) (i : Nat) (hb : (seen s).1 = some i) (hu : ¬ Unloaded s)
    (xs : List Sess) (hx : ∀ x ∈ xs, Raises x = false) : seen (embeds xs s) = seen s := by
  have hb' : s.lookup .base = some i := hb
  obtain ⟨hl, he, hf, hp⟩ := ready hs hb' hu
  cases xs with
  | nil => rfl
  | cons x xs =>
    have h1 := (embed_one (live_keeps x) hb' rfl hl he).1.1 (by rw [live_raises]; exact hx x (by simp))
    rw [embeds, embed, embeds_has hf xs _ 0 h1.2.1 (h1.2.2 0 hp) (fun y hy => hx y (List.mem_cons_of_mem _ hy)), seen, hb', hp]

/-- Without a shell in the program, a session that does not raise leaves none, and leaves prompts that were defined. -/
theorem restored_none (ps : Option Nat) (x : Sess) (hx : Raises x = false) :
    (embed x (fresh ps)).2 = false ∧ (seen (embed x (fresh ps)).1).1 = none ∧ (∀ q, ps = some q → (seen (embed x (fresh ps)).1).2 = some q) := by
  have he : Empty (fresh ps) := fun _ => .inl rfl
  obtain ⟨⟨e', h3⟩, -, -⟩ := live_keeps x _ _ (make_has he flowEmbed)
  have h4 := clear_has h3
  have hr : (live x ((fresh ps).make flowEmbed)).2 = false := by rw [live_raises]; exact hx
  have hev : embed x (fresh ps) = (if ps.isSome then { (live x ((fresh ps).make flowEmbed)).1.clear flowEmbed with ps := ps }
      else (live x ((fresh ps).make flowEmbed)).1.clear flowEmbed, false) := by
    simp only [embed, embedWith, lookup_empty he, instance_empty he, hr]
    rfl
  rw [hev]
  refine ⟨rfl, ?_, ?_⟩
  · cases ps <;> exact lookup_empty h4 .base
  · rintro q rfl
    rfl

theorem live_ps : ∀ (x : Sess) (s : St) (e : Nat), Has flowEmbed e s → s.ps.isSome = true → (live x s).1.ps.isSome = true
  | .stop _, _, _, _, h => h
  | .embed inner rest, s, e, he, h => by
    have h1 := embed_one (live_keeps inner) (lookup_has he flowEmbed_ne) he.typ he.lt (clear_has he)
    rw [live]
    cases hq : (live inner ((s.clear flowEmbed).make flowEmbed)).2 with
    | false =>
      refine live_ps rest _ e (h1.1.1 hq).2.1 ?_
      obtain ⟨q, hs⟩ := Option.isSome_iff_exists.mp h
      rw [(h1.1.1 hq).2.2 q hs]; rfl
    | true =>
      obtain ⟨e', h2⟩ := (h1.1.2 hq).2
      refine live_ps rest _ e' h2 ?_
      have hev : (embedWith (live inner) s).1 = (live inner ((s.clear flowEmbed).make flowEmbed)).1 := by
        simp only [embedWith, lookup_has he flowEmbed_ne, he.typ, instance_empty (clear_has he), hq, if_true]
      rw [hev]
      refine live_ps inner _ _ (make_has (clear_has he) flowEmbed) ?_
      rw [St.make, (putAll_rest _ _ _).2.2]; rfl

/-- **C186, violated for programs that are not interactive**: they had no prompts, and have some after every embedded session. -/
theorem prompts_left (x : Sess) : (seen (embed x (fresh none)).1).2 ≠ none := by
  have he : Empty (fresh none) := fun _ => .inl rfl
  have hm := make_has he flowEmbed
  have hp : (live x ((fresh none).make flowEmbed)).1.ps.isSome = true := live_ps x _ _ hm (by rw [St.make, (putAll_rest _ _ _).2.2]; rfl)
  have hev : (embed x (fresh none)).1.ps = (live x ((fresh none).make flowEmbed)).1.ps := by
    simp only [embed, embedWith, lookup_empty he, instance_empty he]
    cases hq : (live x ((fresh none).make flowEmbed)).2
    · simp only [Bool.false_eq_true, if_false]
      exact (clear_rest _ _).2.2
    · rfl
  intro h
  have : (embed x (fresh none)).1.ps = none := h
  rw [← hev, this] at hp
  cases hp

/-- **C186, violated for sessions that raise**: the program is left with the shell of the session, or one embedded in it, which is not its own. -/
theorem raising_left (s : St) (hs : Program s) (i : Nat) (hb : (seen s).1 = some i) (hu : ¬ Unloaded s)
    (hn : s.typ i ≠ flowEmbed) (x : Sess) (hx : Raises x = true) : (embed x s).2 = true ∧ ∃ e, (seen (embed x s).1).1 = some e ∧ e ≠ i := by
  have hb' : s.lookup .base = some i := hb
  obtain ⟨hl, he, _, _⟩ := ready hs hb' hu
  have h0 := embed_one (live_keeps x) hb' rfl hl he
  obtain ⟨hr, e, h1⟩ := h0.1.2 (by rw [live_raises]; exact hx)
  refine ⟨hr, e, lookup_has h1 flowEmbed_ne, ?_⟩
  rintro rfl
  exact hn ((h0.2.1 e hl).symm.trans h1.typ)

/-- **C186, violated after unloading the extension**: `embed` raises before any session begins, and the program has no shell any more. -/
theorem unloaded_lost (p : Plain) (x : Sess) :
    (seen (unload p 0 (load p 0 (started (.plain p))))).1 = some 0 ∧ (embed x (unload p 0 (load p 0 (started (.plain p))))).2 = true ∧
      (seen (embed x (unload p 0 (load p 0 (started (.plain p))))).1).1 = none := by
  cases p <;> exact ⟨rfl, rfl, rfl⟩

end Verif.Embed
