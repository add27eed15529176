import Verif.Hover.Spec

/-!
# Listeners and what they light -/

namespace Verif.Hover

/-- The bars that the loop over linked cells gets to. -/
def reach (made : Nat → Part → Bool) (byId : Nat → Option Nat) (p : Part) (waiting : Nat → Bool) : List Nat → Nat → Part → Colour → Prop
  | [], _, _, _ => False
  | l :: ls, m, q, c =>
    ∃ n, byId l = some n ∧ made n p = true ∧ ((m = n ∧ q = p ∧ c = colourOf waiting l) ∨ reach made byId p waiting ls m q c)

/-- The bars that a listener changes. -/
def touches (made : Nat → Part → Bool) : Action → Nat → Part → Colour → Prop
  | .own n p _ c => fun m q d => m = n ∧ q = p ∧ d = c
  | .linked ls byId p _ waiting => reach made byId p waiting ls

/-- What a listener does to them. -/
def updateOf : Action → Update
  | .own _ _ u _ => u
  | .linked _ _ _ u _ => u

/-- The bars that an event changes. -/
def Touched (made : Nat → Part → Bool) (e : Evt) (ls : List Listener) (m : Nat) (q : Part) (c : Colour) : Prop :=
  ∃ l ∈ ls, l.evt = e ∧ touches made l.act m q c

/-- Pointing at a bar adds classes, leaving it removes them. -/
def updateFor : Evt → Update
  | .over => .add
  | .out => .remove

theorem lightLinks_hit (made byId p u waiting) : ∀ (ls : List Nat) (f : Lit) (m q c),
    (reach made byId p waiting ls m q c → lightLinks made byId p u waiting ls f m q c = decide (u = .add)) ∧
    (¬ reach made byId p waiting ls m q c → lightLinks made byId p u waiting ls f m q c = f m q c)
  | [], f, m, q, c => ⟨fun h => h.elim, fun _ => rfl⟩
  | l :: ls, f, m, q, c => by
    rw [lightLinks, reach]
    rcases hb : byId l with _ | n
    · exact ⟨fun ⟨n, h, _⟩ => by simp at h, fun _ => rfl⟩
    · dsimp only
      by_cases hm : made n p = true
      · rw [if_pos hm]
        have ih := lightLinks_hit made byId p u waiting ls (setLit n p u (colourOf waiting l) f) m q c
        constructor
        · rintro ⟨n', h, _, h2⟩
          obtain rfl := Option.some.inj h
          by_cases hr : reach made byId p waiting ls m q c
          · exact ih.1 hr
          · rw [ih.2 hr]
            rcases h2 with h2 | h2
            · exact if_pos h2
            · exact absurd h2 hr
        · intro h
          have hr : ¬ reach made byId p waiting ls m q c := fun hr => h ⟨n, rfl, hm, Or.inr hr⟩
          rw [ih.2 hr]
          exact if_neg (fun h2 => h ⟨n, rfl, hm, Or.inl h2⟩)
      · rw [if_neg hm]
        refine ⟨?_, fun _ => rfl⟩
        rintro ⟨n', h, h1, _⟩
        obtain rfl := Option.some.inj h
        exact absurd h1 hm

theorem act_hit (made a) (f : Lit) (m q c) :
    (touches made a m q c → act made a f m q c = decide (updateOf a = .add)) ∧
    (¬ touches made a m q c → act made a f m q c = f m q c) := by
  cases a with
  | own n p u d => exact ⟨fun h => if_pos h, fun h => if_neg h⟩
  | linked ls byId p u waiting => exact lightLinks_hit made byId p u waiting ls f m q c

theorem fire_hit (made e) : ∀ (ls : List Listener) (f : Lit) (m q c), (∀ l ∈ ls, updateOf l.act = updateFor l.evt) →
    (Touched made e ls m q c → fire made e ls f m q c = decide (updateFor e = .add)) ∧
    (¬ Touched made e ls m q c → fire made e ls f m q c = f m q c)
  | [], f, m, q, c, _ => ⟨fun ⟨_, h, _⟩ => by simp at h, fun _ => rfl⟩
  | l :: ls, f, m, q, c, hu => by
    have ih := fire_hit made e ls (if l.evt = e then act made l.act f else f) m q c (fun x hx => hu x (List.mem_cons_of_mem _ hx))
    have hs : fire made e (l :: ls) f = fire made e ls (if l.evt = e then act made l.act f else f) := rfl
    rw [hs]
    constructor
    · rintro ⟨x, hx, hxe, ht⟩
      by_cases hr : Touched made e ls m q c
      · exact ih.1 hr
      · rw [ih.2 hr]
        rcases List.mem_cons.1 hx with rfl | hx
        · rw [if_pos hxe, (act_hit made x.act f m q c).1 ht, hu x (List.mem_cons_self), hxe]
        · exact absurd ⟨x, hx, hxe, ht⟩ hr
    · intro h
      have hr : ¬ Touched made e ls m q c := fun ⟨x, hx, h2⟩ => h ⟨x, List.mem_cons_of_mem _ hx, h2⟩
      rw [ih.2 hr]
      by_cases he : l.evt = e
      · rw [if_pos he]
        exact (act_hit made l.act f m q c).2 (fun ht => h ⟨l, List.mem_cons_self, he, ht⟩)
      · rw [if_neg he]

theorem reach_mono {made made' : Nat → Part → Bool} (hm : ∀ n p, made n p = true → made' n p = true) (byId p waiting) :
    ∀ (ls : List Nat) (m q c), reach made byId p waiting ls m q c → reach made' byId p waiting ls m q c
  | [], _, _, _, h => h
  | _ :: ls, m, q, c, ⟨n, h1, h2, h3⟩ => ⟨n, h1, hm n p h2, h3.imp id (reach_mono hm byId p waiting ls m q c)⟩

theorem Touched_mono {made made' : Nat → Part → Bool} (hm : ∀ n p, made n p = true → made' n p = true) {e ls m q c}
    (h : Touched made e ls m q c) : Touched made' e ls m q c := by
  obtain ⟨l, hl, he, ht⟩ := h
  refine ⟨l, hl, he, ?_⟩
  rcases ha : l.act with ⟨n, p, u, d⟩ | ⟨links, b, p, u, w⟩
  · rw [ha] at ht; exact ht
  · rw [ha] at ht; exact reach_mono hm _ _ _ _ _ _ _ ht

theorem Touched_append {made e a b m q c} : Touched made e (a ++ b) m q c ↔ Touched made e a m q c ∨ Touched made e b m q c := by
  unfold Touched
  constructor
  · rintro ⟨l, hl, h⟩
    rcases List.mem_append.1 hl with hl | hl
    · exact Or.inl ⟨l, hl, h⟩
    · exact Or.inr ⟨l, hl, h⟩
  · rintro (⟨l, hl, h⟩ | ⟨l, hl, h⟩)
    · exact ⟨l, List.mem_append_left _ hl, h⟩
    · exact ⟨l, List.mem_append_right _ hl, h⟩

theorem Touched_nil {made e m q c} : ¬ Touched made e [] m q c := fun ⟨_, h, _⟩ => by simp at h

/-- Every listener that is attached adds at `mouseover` and removes at `mouseout`. -/
def Right (ls : List Listener) : Prop := ∀ l ∈ ls, updateOf l.act = updateFor l.evt

theorem Right_append {a b} (ha : Right a) (hb : Right b) : Right (a ++ b) := fun l hl =>
  (List.mem_append.1 hl).elim (ha l) (hb l)

theorem own_right (made n c p) : Right (ownListeners made n c p) := by
  intro l hl
  unfold ownListeners at hl
  split at hl
  · cases p <;> simp at hl <;> rcases hl with rfl | rfl <;> rfl
  · simp at hl

theorem state_right (d made v p) : Right (stateListeners d made v p) := by
  unfold stateListeners
  split
  · exact own_right _ _ _ _
  · split
    · exact own_right _ _ _ _
    · intro l hl; simp at hl

theorem waiter_right (d b made v p) : Right (waiterListeners d b made v p) := by
  intro l hl
  unfold waiterListeners at hl
  split at hl
  · simp at hl
  · split at hl
    · simp at hl; rcases hl with rfl | rfl <;> rfl
    · simp at hl

theorem maker_right (d b made v p) : Right (makerListeners d b made v p) := by
  intro l hl
  unfold makerListeners at hl
  split at hl
  · simp at hl
  · split at hl
    · simp at hl; rcases hl with rfl | rfl | rfl | rfl <;> rfl
    · simp at hl

theorem attach_right (d b made v p) : Right (attach d b made v p) := by
  unfold attach
  split
  · refine Right_append (state_right _ _ _ _) ?_
    split
    · intro l hl; simp at hl
    · exact Right_append (waiter_right _ _ _ _ _) (maker_right _ _ _ _ _)
  · intro l hl; simp at hl

/-- What is touched by the listeners for the state of a cell. -/
theorem own_touched (made made' n c p e m q k) : Touched made' e (ownListeners made n c p) m q k ↔
    made n .input = true ∧ made n .output = true ∧ m = n ∧ ((p = .input ∧ q = .output ∧ k = .waiting) ∨ (p = .output ∧ q = .input ∧ k = c)) := by
  unfold ownListeners
  by_cases h : (made n .input && made n .output) = true
  · rw [if_pos h]
    have h' := Bool.and_eq_true_iff.1 h
    cases p <;> cases e <;> simp [Touched, touches, h'.1, h'.2]
  · rw [if_neg h]
    refine ⟨fun h => absurd h Touched_nil, fun h' => absurd (by rw [h'.1, h'.2.1]; rfl) h⟩

theorem waiter_touched (d b made made' v p e m q k) : Touched made' e (waiterListeners d b made v p) m q k ↔
    ∃ ls, d.waiters v.id = some ls ∧ made v.node p = true ∧ reach made' b .input d.waiting ls m q k := by
  unfold waiterListeners
  rcases h : d.waiters v.id with _ | ls
  · simp [Touched]
  · dsimp only
    by_cases hm : made v.node p = true
    · rw [if_pos hm]
      cases e <;> simp [Touched, touches, hm]
    · rw [if_neg hm]
      refine ⟨fun h => absurd h Touched_nil, ?_⟩
      rintro ⟨_, _, h, _⟩
      exact absurd h hm

theorem maker_touched (d b made made' v p e m q k) : Touched made' e (makerListeners d b made v p) m q k ↔
    ∃ ls, d.makers v.id = some ls ∧ p = .input ∧ made v.node .input = true ∧ ∃ r, reach made' b r d.waiting ls m q k := by
  have hex : ∀ P : Part → Prop, (∃ r, P r) ↔ P .input ∨ P .output := fun P =>
    ⟨fun ⟨r, h⟩ => (match r, h with | .input, h => Or.inl h | .output, h => Or.inr h), fun h => h.elim (⟨_, ·⟩) (⟨_, ·⟩)⟩
  unfold makerListeners
  rcases h : d.makers v.id with _ | ls
  · simp [Touched]
  · dsimp only
    by_cases hm : p = .input ∧ made v.node .input = true
    · rw [if_pos hm]
      cases e <;> simp [Touched, touches, hm.1, hm.2, hex]
    · rw [if_neg hm]
      refine ⟨fun h => absurd h Touched_nil, ?_⟩
      rintro ⟨_, _, h1, h2, _⟩
      exact absurd ⟨h1, h2⟩ hm

theorem state_touched (d made made' v p e m q k) : Touched made' e (stateListeners d made v p) m q k ↔
    made v.node .input = true ∧ made v.node .output = true ∧ m = v.node ∧
      ((p = .input ∧ q = .output ∧ k = .waiting ∧ (d.waiting v.id = true ∨ d.ready v.id = true)) ∨
        (p = .output ∧ q = .input ∧ k = .waiting ∧ d.waiting v.id = true) ∨
        (p = .output ∧ q = .input ∧ k = .readyMaker ∧ d.waiting v.id = false ∧ d.ready v.id = true)) := by
  unfold stateListeners
  rcases hw : d.waiting v.id with _ | _
  · rcases hr : d.ready v.id with _ | _
    · simp [Touched]
    · simp [own_touched]
  · simp [own_touched]

/-- What is touched by the listeners of a bar, at either event. -/
theorem attach_touched (d b made made' v p e m q k) : Touched made' e (attach d b made v p) m q k ↔
    v.code = true ∧ d.marked = true ∧
      (Touched made' e (stateListeners d made v p) m q k ∨
        (d.reactive = false ∧ (Touched made' e (waiterListeners d b made v p) m q k ∨ Touched made' e (makerListeners d b made v p) m q k))) := by
  unfold attach
  by_cases h : (v.code && d.marked) = true
  · rw [if_pos h]
    have h' := Bool.and_eq_true_iff.1 h
    rw [Touched_append]
    rcases hr : d.reactive with _ | _
    · simp [Touched_append, h'.1, h'.2]
    · simp [Touched_nil, h'.1, h'.2]
  · rw [if_neg h]
    refine ⟨fun h => absurd h Touched_nil, fun h' => absurd (by rw [h'.1, h'.2.1]; rfl) h⟩

/-- What is lit when the pointer comes is what goes dark when it leaves. -/
theorem attach_both (d b made made' v p e e' m q k) : Touched made' e (attach d b made v p) m q k ↔ Touched made' e' (attach d b made v p) m q k := by
  rw [attach_touched, attach_touched, state_touched, state_touched, waiter_touched, waiter_touched, maker_touched, maker_touched]

end Verif.Hover
