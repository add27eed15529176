/-
Following `prev_cell` gives the earlier executions of the cell.
-/
import Verif.Shown.Lemmas

namespace Verif.Shown
open Verif

variable {C : Type} [DecidableEq C]

/-- From the object at `o` the executions `l` are found one after the other, and at the end, if `u`,
an object that was made when the cell was first heard of. -/
def Chain (s : State C) (u : Prop) : Option Nat → List Nat → Prop
  | o, [] => (¬ u ∧ o = none) ∨ (u ∧ ∃ a c, o = some a ∧ s.heap a = some ⟨none, c, none, none⟩)
  | o, n :: l => ∃ a ob, o = some a ∧ s.heap a = some ob ∧ s.byCtr n = some a ∧ ob.ctr = some n ∧
      Chain s u ob.prev l

omit [DecidableEq C] in
theorem chain_mono {s s' : State C}
    (hh : ∀ a o, s.heap a = some o → ∃ c, s'.heap a = some { o with content := c })
    (hb : ∀ n a, s.byCtr n = some a → s'.byCtr n = some a) {u : Prop} :
    ∀ {l : List Nat} {o : Option Nat}, Chain s u o l → Chain s' u o l
  | [], o, h => by
    rcases h with h | ⟨hu, a, c, ho, ha⟩
    · exact .inl h
    · obtain ⟨c', hc'⟩ := hh a _ ha
      exact .inr ⟨hu, a, c', ho, hc'⟩
  | n :: l, o, ⟨a, ob, h1, h2, h3, h4, h5⟩ => by
    obtain ⟨c', hc'⟩ := hh a _ h2
    exact ⟨a, _, h1, hc', hb _ _ h3, h4, chain_mono hh hb h5⟩

omit [DecidableEq C] in
theorem chain_iff {s : State C} {u u' : Prop} (h : u ↔ u') {o : Option Nat} {l : List Nat}
    (hc : Chain s u o l) : Chain s u' o l := by
  rw [← propext h]
  exact hc

omit [DecidableEq C] in
theorem heardFirst_run (id i : Nat) (c : C) (r : Bool) (past : List (Event C)) :
    HeardFirst id past ↔ HeardFirst id (.run i c r :: past) := by
  constructor
  · rintro ⟨newer, older, b, msg, c', rfl, h⟩
    exact ⟨.run i c r :: newer, older, b, msg, c', rfl, h⟩
  · rintro ⟨newer, older, b, msg, c', he, h⟩
    cases newer with
    | nil => cases he
    | cons e newer =>
      rw [List.cons_append] at he
      injection he with _ he
      exact ⟨newer, older, b, msg, c', he, h⟩

omit [DecidableEq C] in
theorem heardFirst_heard (id : Nat) (r : Bool) (msg : List (Nat × C)) (past : List (Event C)) :
    HeardFirst id (.heard r msg :: past) ↔
      HeardFirst id past ∨ ((∀ e ∈ past, ¬ IsRun id e) ∧ ∃ c, (id, c) ∈ msg) := by
  constructor
  · rintro ⟨newer, older, b, msg', c', he, h1, h2⟩
    cases newer with
    | nil =>
      injection he with he he'
      injection he with _ he
      subst he; subst he'
      exact .inr ⟨h1, c', h2⟩
    | cons e newer =>
      rw [List.cons_append] at he
      injection he with _ he
      exact .inl ⟨newer, older, b, msg', c', he, h1, h2⟩
  · rintro (⟨newer, older, b, msg', c', rfl, h⟩ | ⟨h1, c', h2⟩)
    · exact ⟨.heard r msg :: newer, older, b, msg', c', rfl, h⟩
    · exact ⟨[], past, r, msg, c', rfl, h1, h2⟩

omit [DecidableEq C] in
theorem execs_nil_iff (id : Nat) : ∀ past : List (Event C),
    execs id past = [] ↔ ∀ e ∈ past, ¬ IsRun id e
  | [] => by simp [execs]
  | .run i c r :: past => by
    have ih := execs_nil_iff id past
    unfold execs
    by_cases h : i = id
    · rw [if_pos h]
      constructor
      · intro h'; cases h'
      · intro h'; exact (h' _ List.mem_cons_self h).elim
    · rw [if_neg h, ih]
      constructor
      · intro h' e he
        rcases List.mem_cons.1 he with rfl | he
        · exact h
        · exact h' e he
      · intro h' e he
        exact h' e (List.mem_cons_of_mem _ he)
  | .heard r msg :: past => by
    have ih := execs_nil_iff id past
    unfold execs
    rw [ih]
    constructor
    · intro h' e he
      rcases List.mem_cons.1 he with rfl | he
      · exact not_false
      · exact h' e he
    · intro h' e he
      exact h' e (List.mem_cons_of_mem _ he)

omit [DecidableEq C] in
theorem untrackeds_new (id : Nat) (msg : List (Nat × C)) : ∀ s : State C, Inv s → s.cur id = none →
    ((∀ c, (id, c) ∉ msg) ∧ (msg.foldl untracked s).cur id = none) ∨
    ((∃ c, (id, c) ∈ msg) ∧ ∃ a c, (msg.foldl untracked s).cur id = some a ∧
      (msg.foldl untracked s).heap a = some ⟨none, c, none, none⟩) := by
  induction msg with
  | nil => intro s _ h; exact .inl ⟨fun _ h => (by cases h), h⟩
  | cons p msg ih =>
    intro s hi h
    have hi' := untracked_inv s hi p
    by_cases hp : p.1 = id
    · right
      refine ⟨⟨p.2, by rw [← hp]; exact List.mem_cons_self⟩, s.next, p.2, ?_⟩
      have hu : (untracked s p).cur id = some s.next ∧
          (untracked s p).heap s.next = some ⟨none, p.2, none, none⟩ := by
        unfold untracked
        rw [hp, h]
        exact ⟨set_self _ _ _, set_self _ _ _⟩
      rw [List.foldl_cons]
      obtain ⟨_, hs⟩ := untrackeds msg (untracked s p) hi'
      refine ⟨hs.cur _ _ hu.1, ?_⟩
      rw [(untrackeds_heap s.next msg _ (hi'.heap _ _ hu.2)).1]
      exact hu.2
    · have hu : (untracked s p).cur id = none := by
        unfold untracked
        cases hcp : s.cur p.1 with
        | some b => exact h
        | none =>
          show set s.cur p.1 s.next id = none
          rw [set_ne _ _ (Ne.symm hp)]
          exact h
      rw [List.foldl_cons]
      rcases ih (untracked s p) hi' hu with ⟨h1, h2⟩ | ⟨⟨c, h1⟩, h2⟩
      · left
        refine ⟨?_, h2⟩
        intro c hc
        rcases List.mem_cons.1 hc with hc | hc
        · exact hp (by rw [← hc])
        · exact h1 c hc
      · exact .inr ⟨⟨c, List.mem_cons_of_mem _ h1⟩, h2⟩

omit [DecidableEq C] in
theorem chain (L : Lang C) (id : Nat) : ∀ past : List (Event C),
    Chain (replay L past) (HeardFirst id past) ((replay L past).cur id) (execs id past)
  | [] => by
    refine .inl ⟨?_, rfl⟩
    rintro ⟨newer, older, b, msg, c', he, _⟩
    cases newer <;> cases he
  | .run i c r :: past => by
    have ih := chain L id past
    obtain ⟨hi, hcnt⟩ := replay_inv L past
    have hmono : Chain (replay L (.run i c r :: past)) (HeardFirst id (.run i c r :: past))
        ((replay L past).cur id) (execs id past) := by
      refine chain_iff (heardFirst_run id i c r past) (chain_mono ?_ ?_ ih)
      · intro a o ho
        have := hi.heap a o ho
        refine ⟨o.content, ?_⟩
        show set (replay L past).heap _ _ _ = _
        rw [set_ne _ _ (by omega)]
        exact ho
      · intro n a h
        show set (replay L past).byCtr _ _ _ = _
        rw [set_ne _ _ (by have := (hi.ctr _ _ h).2; omega)]
        exact h
    unfold execs
    by_cases h : i = id
    · subst h
      rw [if_pos rfl]
      refine ⟨(replay L past).next, _, set_self _ _ _, set_self _ _ _, ?_, ?_, hmono⟩
      · show set _ ((replay L past).counter + 1) _ _ = _
        rw [hcnt]
        exact set_self _ _ _
      · show some ((replay L past).counter + 1) = _
        rw [hcnt]
    · rw [if_neg h]
      have : (replay L (.run i c r :: past)).cur id = (replay L past).cur id := set_ne _ _ (Ne.symm h)
      rw [this]
      exact hmono
  | .heard r msg :: past => by
    have ih := chain L id past
    obtain ⟨hi, hcnt⟩ := replay_inv L past
    obtain ⟨hi', hs⟩ := hear_inv L _ hi r msg
    show Chain (hear L (replay L past) r msg) _ ((hear L (replay L past) r msg).cur id) (execs id past)
    have hmono := chain_mono (s' := hear L (replay L past) r msg) hs.heap
      (by intro n a h; rw [hs.byCtr]; exact h) ih
    cases hc : (replay L past).cur id with
    | some a =>
      rw [hs.cur _ _ hc]
      rw [hc] at hmono
      refine chain_iff ?_ hmono
      rw [heardFirst_heard]
      constructor
      · exact .inl
      · rintro (h | ⟨h1, _⟩)
        · exact h
        · rw [(execs_nil_iff id past).2 h1, hc] at ih
          rcases ih with ⟨_, h⟩ | ⟨h, _⟩
          · cases h
          · exact h
    | none =>
      rw [hc] at ih
      cases he : execs id past with
      | cons n l =>
        rw [he] at ih
        obtain ⟨a, ob, h1, _⟩ := ih
        cases h1
      | nil =>
        rw [he] at ih
        have hnf : ¬ HeardFirst id past := by
          rcases ih with ⟨h, _⟩ | ⟨_, a, c, h, _⟩
          · exact h
          · cases h
        have hnr := (execs_nil_iff id past).1 he
        have key : ∀ s, Inv s → s.cur id = none →
            Chain (msg.foldl untracked s) (HeardFirst id (.heard r msg :: past))
              ((msg.foldl untracked s).cur id) [] := by
          intro s his hcs
          rcases untrackeds_new id msg s his hcs with ⟨h1, h2⟩ | ⟨h1, a, c, h2, h3⟩
          · refine .inl ⟨?_, h2⟩
            rw [heardFirst_heard]
            rintro (h | ⟨_, c, h⟩)
            · exact hnf h
            · exact h1 c h
          · exact .inr ⟨(heardFirst_heard _ _ _ _).2 (.inr ⟨hnr, h1⟩), a, c, h2, h3⟩
        unfold hear
        cases r with
        | true => exact key _ hi hc
        | false =>
          obtain ⟨h1, _, h3⟩ := rechecks L msg _ hi
          exact key _ h1 (h3 ▸ hc : (msg.foldl (recheck L) (replay L past)).cur id = none)

omit [DecidableEq C] in
theorem chain_drop {s : State C} {u : Prop} : ∀ {l : List Nat} {o : Option Nat} {i n : Nat},
    Chain s u o l → l[i]? = some n → ∃ a, s.byCtr n = some a ∧ Chain s u (some a) (l.drop i)
  | [], _, i, n, _, h => by simp at h
  | m :: l, _, 0, n, ⟨a, ob, h1, h2, h3, h4, h5⟩, h => by
    simp only [List.getElem?_cons_zero, Option.some.injEq] at h
    subst h
    exact ⟨a, h3, a, ob, rfl, h2, h3, h4, h5⟩
  | m :: l, _, i + 1, n, ⟨a, ob, h1, h2, h3, h4, h5⟩, h => by
    rw [List.getElem?_cons_succ] at h
    obtain ⟨b, hb, hc⟩ := chain_drop h5 h
    exact ⟨b, hb, hc⟩

omit [DecidableEq C] in
theorem back_found {s : State C} {u : Prop} : ∀ {l : List Nat} {k a m : Nat},
    Chain s u (some a) l → l[k]? = some m → ∃ b, back s a k = .ok b ∧ s.byCtr m = some b
  | [], k, _, m, _, h => by simp at h
  | n :: l, 0, a, m, ⟨a', ob, h1, h2, h3, h4, h5⟩, h => by
    simp only [List.getElem?_cons_zero, Option.some.injEq] at h
    subst h
    cases h1
    exact ⟨a, rfl, h3⟩
  | n :: l, k + 1, a, m, ⟨a', ob, h1, h2, h3, h4, h5⟩, h => by
    rw [List.getElem?_cons_succ] at h
    cases h1
    cases hp : ob.prev with
    | none =>
      rw [hp] at h5
      cases l with
      | nil => simp at h
      | cons x l => obtain ⟨_, _, h6, _⟩ := h5; cases h6
    | some b =>
      rw [hp] at h5
      obtain ⟨b', hb, hm⟩ := back_found h5 h
      refine ⟨b', ?_, hm⟩
      unfold back
      rw [h2]
      dsimp only
      rw [hp]
      exact hb

omit [DecidableEq C] in
theorem back_beyond {s : State C} {u : Prop} : ∀ {l : List Nat} {k a : Nat},
    Chain s u (some a) l → l.length ≤ k →
    (u ∧ k = l.length ∧ ∃ b c, back s a k = .ok b ∧ s.heap b = some ⟨none, c, none, none⟩) ∨
    (¬ (u ∧ k = l.length) ∧ back s a k = .error .crash)
  | [], k, a, h, hk => by
    rcases h with ⟨_, h⟩ | ⟨hu, b, c, h, hb⟩
    · cases h
    · cases h
      cases k with
      | zero => exact .inl ⟨hu, rfl, a, c, rfl, hb⟩
      | succ k =>
        refine .inr ⟨fun h => by simp at h, ?_⟩
        unfold back
        rw [hb]
  | n :: l, 0, a, _, hk => by simp at hk
  | n :: l, k + 1, a, ⟨a', ob, h1, h2, h3, h4, h5⟩, hk => by
    cases h1
    have hb : back s a (k + 1) = match ob.prev with
        | none => .error .crash
        | some b => back s b k := by
      conv_lhs => unfold back
      rw [h2]
      rfl
    cases hp : ob.prev with
    | none =>
      rw [hp] at h5 hb
      cases l with
      | cons x l => obtain ⟨_, _, h6, _⟩ := h5; cases h6
      | nil =>
        rcases h5 with ⟨h6, _⟩ | ⟨_, _, _, h6, _⟩
        · exact .inr ⟨fun h => h6 h.1, hb⟩
        · cases h6
    | some b =>
      rw [hp] at h5 hb
      dsimp only at hb
      rw [hb]
      rcases back_beyond h5 (by simpa using hk) with ⟨h6, h7, h8⟩ | ⟨h6, h7⟩
      · exact .inl ⟨h6, by simp [h7], h8⟩
      · exact .inr ⟨fun h => h6 ⟨h.1, by simpa using h.2⟩, h7⟩

end Verif.Shown
