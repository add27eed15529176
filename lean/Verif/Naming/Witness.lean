import Verif.Naming.Props

/-! Cases that meet the hypotheses of the theorems. Variables: 0 is `x`, 1 is `y`, 2 is `z`. -/

namespace Verif.Naming
open Verif

/-- `x = [5, [6]]`, `y = x[1]`, `z = [7]`, and then `z = [y, 8]`. -/
def session : List Ev :=
  [.display 2 [([.int 0], .ref 1 []), ([.int 1], .plain)], .display 2 [([.int 0], .plain)], .copy 1 0 [.int 1],
    .display 0 [([.int 0], .plain), ([.int 1], .sub), ([.int 0, .int 1], .plain)]]

theorem alone_unbound {py : Py} {x : Nat} (h : py.env x = none) : Alone py x := by
  intro z o _ _ hx
  have : ∀ Q, From py x Q → False := by
    intro Q hQ
    induction hQ with
    | var h1 => rw [h] at h1; cases h1
    | part _ _ ih => exact ih
  exact this o hx

theorem session_gentle : AllGentle session := by
  refine ⟨⟨⟨⟨trivial, alone_unbound rfl, ?_⟩, Or.inr ⟨alone_unbound rfl, by decide⟩⟩, alone_unbound rfl, ?_⟩, ?_, ?_⟩
  · intro p y ks hm; simp at hm
  · intro p y ks hm; simp at hm
  · intro z o hz h1 h2
    have a : ∀ Q, From (pyRun session.tail) 2 Q → Q = ⟨1, []⟩ := by
      intro Q hQ
      induction hQ with
      | var h1 => exact (Option.some.inj h1).symm
      | @part o o' k _ hp ih =>
        subst ih
        unfold Py.part at hp
        cases hi : (pyRun session.tail).item ⟨1, []⟩ k with
        | none => rw [hi] at hp; cases hp
        | some i =>
          have h3 := Assoc.mem_of_get (l := (pyRun session.tail).tab 1) hi
          have h4 : (pyRun session.tail).tab 1 = [([.int 0], .plain)] := rfl
          rw [h4] at h3
          simp at h3
          rw [hi, h3.2] at hp
          cases hp
    have b : ∀ z, z ≠ 2 → ∀ Q, From (pyRun session.tail) z Q → Q.lit = 0 := by
      intro z hz Q hQ
      induction hQ with
      | @var o h1 =>
        by_cases hz0 : z = 0
        · subst hz0; exact (congrArg Obj.lit (Option.some.inj h1)).symm
        · by_cases hz1 : z = 1
          · subst hz1; exact (congrArg Obj.lit (Option.some.inj h1)).symm
          · have : (pyRun session.tail).env z = none := by
              show (upd (upd (upd (fun _ => none) 0 _) 1 _) 2 _ : Nat → Option Obj) z = none
              simp [upd, hz, hz0, hz1]
            rw [this] at h1; cases h1
      | @part o o' k _ hp ih =>
        have : ∀ i, (pyRun session.tail).item o k = some i → i = .plain ∨ i = .sub := by
          intro i hi
          have h3 := Assoc.mem_of_get (l := (pyRun session.tail).tab o.lit) hi
          rw [ih] at h3
          have h4 : (pyRun session.tail).tab 0 = [([.int 0], .plain), ([.int 1], .sub), ([.int 0, .int 1], .plain)] := rfl
          rw [h4] at h3
          simp at h3
          rcases h3 with h3 | h3 | h3
          · exact Or.inl h3.2
          · exact Or.inr h3.2
          · exact Or.inl h3.2
        unfold Py.part at hp
        cases hi : (pyRun session.tail).item o k with
        | none => rw [hi] at hp; cases hp
        | some i =>
          rw [hi] at hp
          rcases this i hi with rfl | rfl
          · cases hp
          · cases hp; exact ih
    have := b z hz o h1
    rw [a o h2] at this
    cases this
  · intro p y ks hm
    simp at hm
    obtain ⟨-, rfl, -⟩ := hm
    decide

theorem session_lists : Lists session := by
  refine ⟨⟨⟨trivial, ?_⟩, ?_⟩, ?_⟩ <;> intro p s hm k hk <;> simp at hm
  · rcases hm with ⟨rfl, -⟩ | ⟨rfl, -⟩ | ⟨rfl, -⟩ <;> simp at hk
    · exact ⟨_, hk⟩
    · exact ⟨_, hk⟩
    · rcases hk with hk | hk <;> exact ⟨_, hk⟩
  · obtain ⟨rfl, -⟩ := hm; simp at hk; exact ⟨_, hk⟩
  · rcases hm with ⟨rfl, -⟩ | ⟨rfl, -⟩ <;> simp at hk <;> exact ⟨_, hk⟩

/-- `shown_partial` for the only item of the inner list, got at by way of `z[0]`: it is shown as `x[1][0]`. -/
example : denotes (pyRun session) ((run session).shown (fun _ => true) ⟨0, [.int 1]⟩ (.int 0)) = some (.plainAt ⟨0, [.int 1]⟩ (.int 0)) :=
  shown_partial _ session_gentle session_lists (z := 2) (.part (o := ⟨2, []⟩) (k := .int 0) (.var rfl) rfl) rfl

example : (run session).shown (fun _ => true) ⟨0, [.int 1]⟩ (.int 0) = [.name 0, .lbr, .num 1, .rbr, .lbr, .num 0, .rbr] := by decide

/-- `word_unquoted`: `x = {'a': 5}`; what is shown is `x[a]`. -/
example : thing (pyRun [.display 0 [([.word 7], .plain)]]) ⟨0, []⟩ (.word 7) = some (.plainAt ⟨0, []⟩ (.word 7)) ∧
    (run [.display 0 [([.word 7], .plain)]]).shown (fun _ => true) ⟨0, []⟩ (.word 7) = [.name 0, .lbr, .name 7, .rbr] ∧
    denotes (pyRun [.display 0 [([.word 7], .plain)]]) ((run [.display 0 [([.word 7], .plain)]]).shown (fun _ => true) ⟨0, []⟩ (.word 7)) = none :=
  ⟨by decide, by decide, word_unquoted _ _ _ _⟩

/-- `digits_clash`: `x = {1: 5, '1': 6}`. -/
example : ¬ (denotes (pyRun [.display 0 [([.int 1], .plain), ([.digits 1], .plain)]])
      ((run [.display 0 [([.int 1], .plain), ([.digits 1], .plain)]]).shown (fun _ => true) ⟨0, []⟩ (.int 1)) =
      thing (pyRun [.display 0 [([.int 1], .plain), ([.digits 1], .plain)]]) ⟨0, []⟩ (.int 1) ∧
    denotes (pyRun [.display 0 [([.int 1], .plain), ([.digits 1], .plain)]])
      ((run [.display 0 [([.int 1], .plain), ([.digits 1], .plain)]]).shown (fun _ => true) ⟨0, []⟩ (.digits 1)) =
      thing (pyRun [.display 0 [([.int 1], .plain), ([.digits 1], .plain)]]) ⟨0, []⟩ (.digits 1)) :=
  digits_clash _ _ _ _ (t := .plainAt ⟨0, []⟩ (.int 1)) (t' := .plainAt ⟨0, []⟩ (.digits 1)) (by decide) (by decide) (by decide)

theorem closed_one : Closed [([.int 0], .plain)] := by
  intro p s hm; simp at hm; exact Or.inl hm.2

/-- `rebound_wrong`: `x = [5]`, `y = x`, `x = [5]`: the item of `y` is shown as `x[0]`. -/
example : ∃ o o', (pyRun [.display 0 [([.int 0], .plain)], .copy 1 0 [], .display 0 [([.int 0], .plain)]]).env 1 = some o ∧
    (pyRun [.display 0 [([.int 0], .plain)], .copy 1 0 [], .display 0 [([.int 0], .plain)]]).env 0 = some o' ∧
    denotes (pyRun [.display 0 [([.int 0], .plain)], .copy 1 0 [], .display 0 [([.int 0], .plain)]])
      ((run [.display 0 [([.int 0], .plain)], .copy 1 0 [], .display 0 [([.int 0], .plain)]]).shown (fun _ => true) o (.int 0)) =
      thing (pyRun [.display 0 [([.int 0], .plain)], .copy 1 0 [], .display 0 [([.int 0], .plain)]]) o' (.int 0) := by
  obtain ⟨o, o', h1, h2, h3⟩ := rebound_wrong (fun _ => true) [] (x := 0) (y := 1) (by decide) rfl closed_one closed_one
  exact ⟨o, o', h1, h2, (h3 0).1⟩

/-- `deleted_wrong`: `x = [5]`, `y = x`, `del x`. -/
example : ∃ o, (pyRun [.del 0, .copy 1 0 [], .display 0 [([.int 0], .plain)]]).env 1 = some o ∧
    denotes (pyRun [.del 0, .copy 1 0 [], .display 0 [([.int 0], .plain)]])
      ((run [.del 0, .copy 1 0 [], .display 0 [([.int 0], .plain)]]).shown (fun _ => true) o (.int 0)) = none := by
  obtain ⟨o, h1, h2⟩ := deleted_wrong (fun _ => true) [] (x := 0) (y := 1) (by decide) rfl closed_one
  exact ⟨o, h1, h2 _⟩

/-- `wrapped_wrong`: `x = [5]`, `x = [x]`. -/
example : ∃ o o', (pyRun [.display 0 [([.int 0], .ref 0 [])], .display 0 [([.int 0], .plain)]]).env 0 = some o' ∧
    thing (pyRun [.display 0 [([.int 0], .ref 0 [])], .display 0 [([.int 0], .plain)]]) o' (.int 0) = some (.obj o) ∧
    denotes (pyRun [.display 0 [([.int 0], .ref 0 [])], .display 0 [([.int 0], .plain)]])
      ((run [.display 0 [([.int 0], .ref 0 [])], .display 0 [([.int 0], .plain)]]).shown (fun _ => true) o (.int 0)) ≠ some (.plainAt o (.int 0)) := by
  obtain ⟨o, o', h1, h2, h3⟩ := wrapped_wrong (fun _ => true) [] (x := 0) closed_one
  refine ⟨o, o', h1, h2, h3 0 _ ?_⟩
  have ho : o = ⟨0, []⟩ := by
    have : o' = ⟨1, []⟩ := (Option.some.inj h1).symm
    subst this
    exact (by injection h2 with h2; injection h2 with h2; exact h2.symm)
  subst ho; rfl

end Verif.Naming
