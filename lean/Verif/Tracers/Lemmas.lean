import Verif.Tracers.Spec
import Mathlib.Data.List.Nodup

/-!
# Tracers: registration, starting and stopping -/

namespace Verif.Tracers

/-! ### Registration -/

theorem dropAll_spec : ∀ (cs : List Cls) (σ : State), σ.registered.Nodup →
    (dropAll cs σ).registered.Sublist σ.registered ∧ (∀ c, c ∈ (dropAll cs σ).registered ↔ c ∈ σ.registered ∧ c ∉ cs) ∧
    (∀ d, (dropAll cs σ).inst d = if d ∈ cs then none else σ.inst d) ∧
    (dropAll cs σ).next = σ.next ∧ (dropAll cs σ).started = σ.started ∧ (dropAll cs σ).pending = σ.pending ∧
    (dropAll cs σ).on = σ.on ∧ (dropAll cs σ).only = σ.only
  | [], σ, _ => ⟨List.Sublist.refl _, by simp [dropAll], by simp [dropAll], rfl, rfl, rfl, rfl, rfl⟩
  | c :: cs, σ, h => by
    obtain ⟨h1, h2, h3, h4, h5, h6, h7, h8⟩ := dropAll_spec cs { σ with inst := fun d => if d = c then none else σ.inst d, registered := σ.registered.erase c }
      (h.erase c)
    rw [dropAll]
    refine ⟨h1.trans List.erase_sublist, ?_, ?_, h4, h5, h6, h7, h8⟩
    · intro d
      rw [h2]
      dsimp only
      rw [h.mem_erase_iff]
      simp only [List.mem_cons, not_or]
      constructor
      · rintro ⟨⟨a, b⟩, e⟩; exact ⟨b, a, e⟩
      · rintro ⟨b, a, e⟩; exact ⟨⟨a, b⟩, e⟩
    · intro d
      rw [h3]
      dsimp only
      by_cases h9 : d ∈ cs
      · rw [if_pos h9, if_pos (List.mem_cons_of_mem _ h9)]
      · by_cases h10 : d = c
        · rw [if_neg h9, if_pos h10, if_pos (by simp [h10])]
        · rw [if_neg h9, if_neg h10, if_neg (by simp [h9, h10])]

theorem instanceOf_spec (σ : State) (c : Cls) :
    (instanceOf σ c).1.registered = σ.registered ∧ (instanceOf σ c).1.started = σ.started ∧ (instanceOf σ c).1.pending = σ.pending ∧
    (instanceOf σ c).1.on = σ.on ∧ (instanceOf σ c).1.only = σ.only ∧ (instanceOf σ c).1.inst c = some (instanceOf σ c).2 ∧
    (∀ d n, σ.inst d = some n → (instanceOf σ c).1.inst d = some n) ∧ σ.next ≤ (instanceOf σ c).1.next ∧
    (∀ d n, (instanceOf σ c).1.inst d = some n → σ.inst d = some n ∨ (d = c ∧ n = σ.next ∧ σ.next < (instanceOf σ c).1.next)) := by
  unfold instanceOf
  rcases h : σ.inst c with _ | n
  · dsimp only
    refine ⟨rfl, rfl, rfl, rfl, rfl, by simp, ?_, by omega, ?_⟩
    · intro d n hd
      have : d ≠ c := fun e => by rw [e, h] at hd; simp at hd
      rw [if_neg this, hd]
    · intro d n hd
      by_cases he : d = c
      · rw [if_pos he] at hd
        exact Or.inr ⟨he, (Option.some.inj hd).symm, by omega⟩
      · rw [if_neg he] at hd
        exact Or.inl hd
  · exact ⟨rfl, rfl, rfl, rfl, rfl, h, fun d n hd => hd, Nat.le_refl _, fun d n hd => Or.inl hd⟩

/-- What the state has to do with all that was done. -/
structure Reg (σ : State) (l : List Act) : Prop where
  names : (σ.registered.map (·.name)).Nodup
  mem : ∀ c, c ∈ σ.registered ↔ Registered l c
  fresh : ∀ c n, σ.inst c = some n → n < σ.next
  only : σ.only = true ↔ OnlySyntax l

theorem Reg.nodup {σ l} (h : Reg σ l) : σ.registered.Nodup := List.Nodup.of_map _ h.names

theorem deregisterFor_mem {σ l} (h : Reg σ l) (c d : Cls) : d ∈ (deregisterFor c σ).registered ↔ d ∈ σ.registered ∧ d.name ≠ c.name := by
  have := dropAll_spec (c :: σ.registered.filter (fun d => d.name = c.name)) { σ with pending := true } h.nodup
  unfold deregisterFor deregister
  rw [this.2.1]
  simp only [List.mem_cons, List.mem_filter, decide_eq_true_eq, not_or, not_and]
  constructor
  · rintro ⟨h1, _, h3⟩; exact ⟨h1, h3 h1⟩
  · rintro ⟨h1, h2⟩; exact ⟨h1, fun e => h2 (by rw [e]), fun _ => h2⟩

/-- An act, and what it changes. -/
theorem act_spec {σ l} (h : Reg σ l) (a : Act) : Reg (act σ a) (a :: l) ∧ (act σ a).started = σ.started ∧ (act σ a).on = onAfter σ.on [a] ∧
    σ.next ≤ (act σ a).next ∧ (Changes a → (act σ a).pending = true) ∧
    (¬ Changes a → (act σ a).pending = σ.pending ∧ (act σ a).registered = σ.registered ∧ (act σ a).inst = σ.inst) := by
  have hd : ∀ c, _ := fun c => dropAll_spec (c :: σ.registered.filter (fun d => d.name = c.name)) { σ with pending := true } h.nodup
  have hfresh : ∀ c d n, (deregisterFor c σ).inst d = some n → n < σ.next := by
    intro c d n hn
    have h3 := (hd c).2.2.1 d
    unfold deregisterFor deregister at hn
    rw [h3] at hn
    split at hn
    · simp at hn
    · exact h.fresh d n hn
  cases a with
  | stmt => exact ⟨⟨h.names, h.mem, h.fresh, h.only⟩, rfl, rfl, Nat.le_refl _, fun h => h.elim, fun _ => ⟨rfl, rfl, rfl⟩⟩
  | on => exact ⟨⟨h.names, h.mem, h.fresh, by simp [act, OnlySyntax]⟩, rfl, rfl, Nat.le_refl _, fun h => h.elim, fun _ => ⟨rfl, rfl, rfl⟩⟩
  | off => exact ⟨⟨h.names, h.mem, h.fresh, h.only⟩, rfl, rfl, Nat.le_refl _, fun h => h.elim, fun _ => ⟨rfl, rfl, rfl⟩⟩
  | only => exact ⟨⟨h.names, h.mem, h.fresh, by simp [act, OnlySyntax]⟩, rfl, rfl, Nat.le_refl _, fun h => h.elim, fun _ => ⟨rfl, rfl, rfl⟩⟩
  | register c =>
    obtain ⟨h1, h2, h3, h4, h5, h6, h7, h8⟩ := hd c
    obtain ⟨i1, i2, i3, i4, i5, i6, i7, i8, i9⟩ := instanceOf_spec (deregisterFor c σ) c
    have hm := deregisterFor_mem h c
    refine ⟨⟨?_, ?_, ?_, ?_⟩, ?_, ?_, ?_, ?_, ?_⟩
    · show ((c :: (instanceOf (deregisterFor c σ) c).1.registered).map (·.name)).Nodup
      rw [i1, List.map_cons, List.nodup_cons]
      refine ⟨?_, List.Nodup.sublist (h1.map _) h.names⟩
      intro hc
      obtain ⟨d, hd1, hd2⟩ := List.mem_map.1 hc
      exact ((hm d).1 hd1).2 hd2
    · intro d
      show d ∈ c :: (instanceOf (deregisterFor c σ) c).1.registered ↔ _
      rw [i1, List.mem_cons, hm, h.mem, Registered]
      constructor
      · rintro (h | ⟨h, h'⟩)
        · exact Or.inl h
        · exact Or.inr ⟨h', h⟩
      · rintro (h | ⟨h, h'⟩)
        · exact Or.inl h
        · exact Or.inr ⟨h', h⟩
    · intro d n hn
      show n < (instanceOf (deregisterFor c σ) c).1.next
      have hnx : (deregisterFor c σ).next = σ.next := h4
      rcases i9 d n hn with h' | ⟨_, h', h''⟩
      · have := hfresh c d n h'
        omega
      · omega
    · show (instanceOf (deregisterFor c σ) c).1.only = true ↔ _
      rw [i5]
      exact (by rw [show (deregisterFor c σ).only = σ.only from h8]; exact h.only)
    · exact i2.trans h5
    · exact i4.trans h7
    · have hnx : (deregisterFor c σ).next = σ.next := h4
      show σ.next ≤ (instanceOf (deregisterFor c σ) c).1.next
      omega
    · intro _
      exact i3.trans h6
    · intro hn
      exact absurd trivial hn
  | deregister c =>
    obtain ⟨h1, h2, h3, h4, h5, h6, h7, h8⟩ := hd c
    have hm := deregisterFor_mem h c
    refine ⟨⟨List.Nodup.sublist (h1.map _) h.names, ?_, ?_, ?_⟩, h5, h7, Nat.le_of_eq h4.symm, fun _ => h6, fun hn => absurd trivial hn⟩
    · intro d
      show d ∈ (deregisterFor c σ).registered ↔ _
      rw [hm, h.mem, Registered, and_comm]
    · intro d n hn
      have := hfresh c d n hn
      have hnx : (deregisterFor c σ).next = σ.next := h4
      show n < (deregisterFor c σ).next
      omega
    · show (deregisterFor c σ).only = true ↔ _
      rw [show (deregisterFor c σ).only = σ.only from h8]; exact h.only
  | deregisterAll =>
    obtain ⟨h1, h2, h3, h4, h5, h6, h7, h8⟩ := dropAll_spec σ.registered { σ with pending := true } h.nodup
    refine ⟨⟨List.Nodup.sublist (h1.map _) h.names, ?_, ?_, ?_⟩, h5, h7, Nat.le_of_eq h4.symm, fun _ => h6, fun hn => absurd trivial hn⟩
    · intro d
      show d ∈ (dropAll σ.registered { σ with pending := true }).registered ↔ _
      rw [h2, Registered]
      simp
    · intro d n hn
      have hn' : (dropAll σ.registered { σ with pending := true }).inst d = some n := hn
      rw [h3] at hn'
      show n < (dropAll σ.registered { σ with pending := true }).next
      rw [h4]
      split at hn'
      · simp at hn'
      · exact h.fresh d n hn'
    · show (dropAll σ.registered { σ with pending := true }).only = true ↔ _
      rw [h8]; exact h.only

theorem onAfter_append (b : Bool) : ∀ l l' : List Act, onAfter b (l ++ l') = onAfter (onAfter b l') l
  | [], _ => rfl
  | a :: l, l' => by cases a <;> simp [onAfter, onAfter_append b l l']

/-- All acts of a cell. -/
theorem acts_spec : ∀ (acts : List Act) {σ l}, Reg σ l → Reg (acts.foldl act σ) (acts.reverse ++ l) ∧ (acts.foldl act σ).started = σ.started ∧
    (acts.foldl act σ).on = onAfter σ.on acts.reverse ∧ σ.next ≤ (acts.foldl act σ).next ∧
    ((∃ a ∈ acts, Changes a) → (acts.foldl act σ).pending = true) ∧
    ((∀ a ∈ acts, ¬ Changes a) → (acts.foldl act σ).pending = σ.pending ∧ (acts.foldl act σ).registered = σ.registered ∧ (acts.foldl act σ).inst = σ.inst)
  | [], σ, l, h => ⟨h, rfl, rfl, Nat.le_refl _, by simp, fun _ => ⟨rfl, rfl, rfl⟩⟩
  | a :: acts, σ, l, h => by
    obtain ⟨h1, h2, h3, h4, h5, h6⟩ := act_spec h a
    obtain ⟨i1, i2, i3, i4, i5, i6⟩ := acts_spec acts h1
    rw [List.foldl_cons]
    refine ⟨by rw [List.reverse_cons, List.append_assoc]; exact i1, i2.trans h2, ?_, h4.trans i4, ?_, ?_⟩
    · rw [i3, h3, List.reverse_cons, onAfter_append]
    · rintro ⟨b, hb, hc⟩
      by_cases hx : ∃ b ∈ acts, Changes b
      · exact i5 hx
      · rcases List.mem_cons.1 hb with rfl | hb
        · rw [(i6 (fun b hb hc => hx ⟨b, hb, hc⟩)).1, h5 hc]
        · exact absurd ⟨b, hb, hc⟩ hx
    · intro hn
      have h7 := h6 (hn a List.mem_cons_self)
      have h8 := i6 (fun b hb => hn b (List.mem_cons_of_mem _ hb))
      exact ⟨h8.1.trans h7.1, h8.2.1.trans h7.2.1, h8.2.2.trans h7.2.2⟩

/-! ### Starting -/

theorem instances_spec : ∀ (cs : List Cls) {σ l}, Reg σ l → Reg (instances cs σ).1 l ∧ (instances cs σ).1.registered = σ.registered ∧
    (instances cs σ).1.started = σ.started ∧ (instances cs σ).1.pending = σ.pending ∧ (instances cs σ).1.on = σ.on ∧ (instances cs σ).1.only = σ.only ∧
    (∀ d n, σ.inst d = some n → (instances cs σ).1.inst d = some n) ∧ σ.next ≤ (instances cs σ).1.next ∧
    (∀ t, t ∈ (instances cs σ).2 ↔ t.1 ∈ cs ∧ (instances cs σ).1.inst t.1 = some t.2) ∧ (∀ c ∈ cs, ((instances cs σ).1.inst c).isSome) ∧
    (∀ d n, (instances cs σ).1.inst d = some n → σ.inst d = some n ∨ σ.next ≤ n)
  | [], σ, l, h => ⟨h, rfl, rfl, rfl, rfl, rfl, fun _ _ h => h, Nat.le_refl _, by simp [instances], by simp, fun _ _ h => Or.inl h⟩
  | c :: cs, σ, l, h => by
    obtain ⟨i1, i2, i3, i4, i5, i6, i7, i8, i9⟩ := instanceOf_spec σ c
    have hr : Reg (instanceOf σ c).1 l := by
      refine ⟨by rw [i1]; exact h.names, by rw [i1]; exact h.mem, ?_, by rw [i5]; exact h.only⟩
      intro d n hn
      rcases i9 d n hn with h' | ⟨_, h', h''⟩
      · have := h.fresh d n h'
        omega
      · omega
    obtain ⟨j1, j2, j3, j4, j5, j6, j7, j8, j9, j10, j11⟩ := instances_spec cs hr
    rw [instances]
    refine ⟨j1, j2.trans i1, j3.trans i2, j4.trans i3, j5.trans i4, j6.trans i5, fun d n hn => j7 d n (i7 d n hn), i8.trans j8, ?_, ?_, ?_⟩
    case refine_3 =>
      intro d n hn
      rcases j11 d n hn with h' | h'
      · rcases i9 d n h' with h'' | ⟨_, h'', _⟩
        · exact Or.inl h''
        · exact Or.inr (by omega)
      · exact Or.inr (by omega)
    case refine_2 =>
      intro d hd
      dsimp only
      rcases List.mem_cons.1 hd with rfl | hd
      · rw [j7 _ _ i6]; rfl
      · exact j10 d hd
    intro t
    dsimp only
    rw [List.mem_cons, j9, List.mem_cons]
    constructor
    · rintro (rfl | ⟨h1, h2⟩)
      · exact ⟨Or.inl rfl, j7 _ _ i6⟩
      · exact ⟨Or.inr h1, h2⟩
    · rintro ⟨h1, h2⟩
      by_cases hc : t.1 = c
      · left
        have := j7 _ _ i6
        rw [hc, this] at h2
        exact Prod.ext hc (Option.some.inj h2).symm
      · exact Or.inr ⟨h1.resolve_left hc, h2⟩

/-- The tracers of a cell. -/
def startable (capture : Bool) (c : Cls) : Prop := c = recorder → capture = false

theorem enter_traced {σ l} (h : Reg σ l) (hon : σ.on = true) (honly : σ.only = false) (capture : Bool) :
    ∃ σ' ts, enter σ capture = (σ', .traced ts) ∧ Reg σ' l ∧ σ'.registered = σ.registered ∧ σ'.pending = σ.pending ∧ σ'.on = σ.on ∧
      (∀ d n, σ.inst d = some n → σ'.inst d = some n) ∧ σ.next ≤ σ'.next ∧
      (∀ t, t ∈ ts ↔ (t.1 ∈ σ.registered ∧ startable capture t.1) ∧ σ'.inst t.1 = some t.2) ∧
      (σ.started = [] → σ'.started = ts) ∧ (σ.started ≠ [] → σ'.started = σ.started) ∧
      (∀ c ∈ σ.registered, startable capture c → ∃ n, σ'.inst c = some n ∧ (c, n) ∈ ts) ∧
      (∀ d n, σ'.inst d = some n → σ.inst d = some n ∨ σ.next ≤ n) := by
  obtain ⟨j1, j2, j3, j4, j5, j6, j7, j8, j9, j10, j11⟩ := instances_spec (σ.registered.filter (fun c => c ≠ recorder ∨ capture = false)) h
  have hts : ∀ t, t ∈ (instances (σ.registered.filter (fun c => c ≠ recorder ∨ capture = false)) σ).2 ↔
      (t.1 ∈ σ.registered ∧ startable capture t.1) ∧ (instances (σ.registered.filter (fun c => c ≠ recorder ∨ capture = false)) σ).1.inst t.1 = some t.2 := by
    intro t
    rw [j9, List.mem_filter]
    unfold startable
    simp only [decide_eq_true_eq]
    constructor
    · rintro ⟨⟨h1, h2⟩, h3⟩
      exact ⟨⟨h1, fun e => h2.resolve_left (fun h => h e)⟩, h3⟩
    · rintro ⟨⟨h1, h2⟩, h3⟩
      refine ⟨⟨h1, ?_⟩, h3⟩
      by_cases he : t.1 = recorder
      · exact Or.inr (h2 he)
      · exact Or.inl he
  have hall : ∀ c ∈ σ.registered, startable capture c → ∃ n,
      (instances (σ.registered.filter (fun c => c ≠ recorder ∨ capture = false)) σ).1.inst c = some n ∧
        (c, n) ∈ (instances (σ.registered.filter (fun c => c ≠ recorder ∨ capture = false)) σ).2 := by
    intro c hc hsc
    obtain ⟨n, hn⟩ := Option.isSome_iff_exists.1 (j10 c (by
      rw [List.mem_filter]
      simp only [decide_eq_true_eq]
      refine ⟨hc, ?_⟩
      by_cases he : c = recorder
      · exact Or.inr (hsc he)
      · exact Or.inl he))
    exact ⟨n, hn, (hts (c, n)).2 ⟨⟨hc, hsc⟩, hn⟩⟩
  unfold enter
  rw [if_pos hon, if_neg (by rw [honly]; simp)]
  dsimp only
  by_cases hs : (instances (σ.registered.filter (fun c => c ≠ recorder ∨ capture = false)) σ).1.started = []
  · rw [if_pos hs]
    refine ⟨_, _, rfl, ⟨j1.names, j1.mem, j1.fresh, j1.only⟩, j2, j4, j5, j7, j8, hts, fun _ => rfl, fun hn => absurd (j3 ▸ hs) hn, hall, j11⟩
  · rw [if_neg hs]
    exact ⟨_, _, rfl, j1, j2, j4, j5, j7, j8, hts, fun he => absurd (j3.trans he) hs, fun _ => j3, hall, j11⟩

theorem enter_untraced {σ : State} (h : ¬ (σ.on = true ∧ σ.only = false)) (capture : Bool) :
    (enter σ capture).1 = σ ∧ ∀ ts, (enter σ capture).2 ≠ .traced ts := by
  unfold enter
  by_cases hon : σ.on = true
  · rw [if_pos hon]
    by_cases hl : σ.only = true
    · rw [if_pos hl]
      exact ⟨rfl, fun ts => by simp⟩
    · exact absurd ⟨hon, by simpa using hl⟩ h
  · rw [if_neg hon]
    exact ⟨rfl, fun ts => by simp⟩

end Verif.Tracers
