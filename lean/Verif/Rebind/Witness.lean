import Verif.Rebind.Props

/-!
# Concrete cases for C113

`a = [1, 2]; b = a; c = b[0]; a = list(…)`: object 10 is the old list, 20 the new one (with one
element), 30 an object with a property that raises. Symbols: 0 is `a`, 1 is `b`, 2 and 3 the
elements.
-/

namespace Verif.Rebind
open Verif

/-- Objects for the cases. -/
def objs : Nat → Obj
  | 10 => ⟨fun _ => .missAttr, fun k => if k < 2 then .val (k + 1) else .missItem, false⟩
  | 20 => ⟨fun _ => .missAttr, fun k => if k < 1 then .val 7 else .missItem, false⟩
  | 30 => ⟨fun _ => .other, fun _ => .typeErr, false⟩
  | _ => ⟨fun _ => .missAttr, fun _ => .typeErr, false⟩

/-- After `a = [1, 2]; b = a`. -/
def two : St where
  sym
    | 0 => ⟨[0], 10, some 10, none⟩
    | 1 => ⟨[1], 10, some 10, none⟩
    | 2 => ⟨[0, 0], 1, some 1, some 10⟩
    | _ => ⟨[0, 1], 2, some 2, some 10⟩
  names i := if i = 10 then [0, 1] else if i = 1 then [2] else if i = 2 then [3] else []
  path i := if i = 10 then some [0] else none
  tab i b := if i = 10 ∧ b = true then [(0, 2), (1, 3)] else []
  dead _ := false

/-- The same with only `a`, and with an attribute `5` known. -/
def one : St :=
  { two with
    names := fun i => if i = 10 then [0] else []
    tab := fun i b => if i = 10 ∧ b = false then [(5, 2)] else []
    sym := fun i => if i = 2 then ⟨[0, 5], 1, some 1, some 10⟩ else two.sym i }

theorem known_two {o : Nat} {b : Bool} {k s : Nat} :
    Known two o b k s ↔ o = 10 ∧ b = true ∧ ((k = 0 ∧ s = 2) ∨ (k = 1 ∧ s = 3)) := by
  unfold Known two
  by_cases h : o = 10 ∧ b = true
  · simp [h]
  · simp only [if_neg h, List.not_mem_nil, false_iff]; tauto

theorem known_one {o : Nat} {b : Bool} {k s : Nat} :
    Known one o b k s ↔ o = 10 ∧ b = false ∧ k = 5 ∧ s = 2 := by
  unfold Known one
  by_cases h : o = 10 ∧ b = false
  · simp [h]
  · simp only [if_neg h, List.not_mem_nil, false_iff]; tauto

theorem two_wf : Wf two where
  once o b := by
    unfold two; dsimp only
    split <;> simp [Assoc.keys]
  place o b k s h := by
    obtain ⟨rfl, rfl, ⟨rfl, rfl⟩ | ⟨rfl, rfl⟩⟩ := known_two.1 h <;> rfl
  apart o b k s o' b' k' h h' := by
    rw [known_two] at h h'
    obtain ⟨rfl, rfl, h⟩ := h; obtain ⟨rfl, rfl, h'⟩ := h'; exact ⟨rfl, rfl, by omega⟩
  path o b k s p h hp := by
    obtain ⟨rfl, rfl, ⟨rfl, rfl⟩ | ⟨rfl, rfl⟩⟩ := known_two.1 h <;>
      (injection hp with hp; subst hp; rfl)
  none o b k s h := by
    obtain ⟨rfl, -⟩ := known_two.1 h; simp [two]

theorem one_wf : Wf one where
  once o b := by
    unfold one; dsimp only
    split <;> simp [Assoc.keys]
  place o b k s h := by
    obtain ⟨rfl, rfl, rfl, rfl⟩ := known_one.1 h; rfl
  apart o b k s o' b' k' h h' := by
    rw [known_one] at h h'
    obtain ⟨rfl, rfl, h, -⟩ := h; obtain ⟨rfl, rfl, h', -⟩ := h'; exact ⟨rfl, rfl, by omega⟩
  path o b k s p h hp := by
    obtain ⟨rfl, rfl, rfl, rfl⟩ := known_one.1 h
    injection hp with hp; subst hp; rfl
  none o b k s h := by
    obtain ⟨rfl, -⟩ := known_one.1 h; simp [one, two]

/-- Looking at the new list never fails. -/
theorem new_fine : ∀ c b k s, (two.sym 0).cached = some c → Known two c b k s →
    (∃ v, Has objs 20 b k v) ∨ Misses objs 20 b k ∨ Refuses objs 20 b k := by
  intro c b k s _ h
  obtain ⟨-, rfl, ⟨rfl, rfl⟩ | ⟨rfl, rfl⟩⟩ := known_two.1 h
  · exact .inl ⟨7, .item rfl rfl⟩
  · exact .inr (.inl (.item rfl rfl))

example : ∃ st', rebind objs two 0 20 = .ok st' ∧ (st'.sym 0).obj = 20 ∧ (st'.sym 0).cached = some 20 :=
  recorded_partial two_wf new_fine

/-- `b[0]` is taken away although `b` still names the old list, and `b[1]` stays. -/
example : ∃ st', rebind objs two 0 20 = .ok st' ∧
    (1 ∈ st'.names 10 ∧ (∀ s', ¬ Known st' 10 true 0 s') ∧ Known st' 20 true 0 2 ∧ (st'.sym 2).obj = 7) ∧
    (Known st' 10 true 1 3 ∧ st'.sym 3 = two.sym 3) ∧ st'.dead 10 = false := by
  obtain ⟨st', h, -⟩ := recorded_partial two_wf new_fine
  refine ⟨st', h, ?_, ?_, ?_⟩
  · refine shared_lost two_wf rfl (by decide) h rfl rfl ?_ (b := true) (k := 0) (s := 2) (v := 7) (known_two.2 (by simp))
      (.item rfl rfl) (y := 1) (by decide) (by decide) (by intro b k h; rw [known_two] at h; omega)
    intro b k s hk hr
    obtain ⟨-, rfl, ⟨rfl, rfl⟩ | ⟨rfl, rfl⟩⟩ := known_two.1 hk <;> rw [refuses_iff] at hr <;>
      exact absurd hr (by decide)
  · refine absent_stays two_wf rfl (by decide) h (known_two.2 (by simp)) (by decide) ?_
    intro v hv; rw [has_iff] at hv; simp [retrieve, objs] at hv
  · exact named_alive two_wf rfl (by decide) h (y := 1) (by decide) (by decide)
      (by intro b k h; rw [known_two] at h; omega)

example : ∃ st', rebind objs two 0 20 = .ok st' ∧
    (Has objs 20 true 0 (st'.sym 2).obj ∧ (st'.sym 2).home = some 20) ∧
    (Known st' 10 true 1 3 ∨ Known st' 20 true 1 3) ∧ st'.sym 1 = two.sym 1 := by
  obtain ⟨st', h, -⟩ := recorded_partial two_wf new_fine
  refine ⟨st', h, ?_, ?_, ?_⟩
  · have hk : Known st' 20 true 0 2 := by
      have e : rebind objs two 0 20 = .ok st' := h
      have : (0, 2) ∈ st'.tab 20 true := by
        injection e with e; rw [← e]; decide
      exact this
    exact ⟨(moved_right two_wf rfl (by decide) rfl h hk).1, (moved_right two_wf rfl (by decide) rfl h hk).2.1⟩
  · exact nothing_lost two_wf rfl (by decide) h (known_two.2 (by simp))
  · exact (others_kept two_wf rfl (by decide) h).2.1 1 (by decide) (by intro b k h; rw [known_two] at h; omega)

/-- If `b` is the one that is given another list, `a` keeps all. -/
example : ∃ st', rebind objs two 1 20 = .ok st' ∧ st'.tab 10 true = two.tab 10 true := by
  obtain ⟨st', h, -⟩ := recorded_partial (x := 1) two_wf (n := 20) (w := objs)
    (by intro c b k s _ h; exact new_fine 10 b k s rfl ((known_two.1 h).1 ▸ h))
  exact ⟨st', h, ((kept_partial (c := 10) rfl (by decide) h (.inl (by decide))).1 true).1⟩

/-- With `a` as the only name the old object is given up. -/
example : ∃ st', rebind objs one 0 20 = .ok st' ∧ st'.dead 10 = true := by
  obtain ⟨st', h, -⟩ := recorded_partial (x := 0) one_wf (n := 20) (w := objs) (by
    intro c b k s _ h
    obtain ⟨-, rfl, rfl, rfl⟩ := known_one.1 h
    exact .inr (.inl (.attr rfl)))
  refine ⟨st', h, nameless_dead one_wf rfl (by decide) h (by decide) (by decide) ?_⟩
  intro b k hk
  cases hk with
  | attr h => simp [objs] at h
  | item _ h =>
    have h : (if k < 1 then Res.val 7 else Res.missItem) = Res.val 10 := h
    split at h <;> simp at h

/-- A property that raises: the assignment is not recorded. -/
example : rebind objs one 0 30 = .error .crash :=
  property_fails (c := 10) rfl (by decide) rfl rfl (known_one.2 ⟨rfl, rfl, rfl, rfl⟩) (.attr rfl)
    (by intro k s _ h; cases h with | attr h => simp [objs] at h)

end Verif.Rebind
