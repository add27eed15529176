import Verif.Inherit.Props

namespace Verif.Inherit.Witness
open Verif.Inherit Spec

/-- Class 1 inherits from class 0; object 10 is one of class 1, all others of class 0. -/
def world : World := ⟨fun o => if o = 10 then 1 else 0, fun c => if c = 1 then [0] else []⟩

theorem proper : Proper world := by
  intro c
  by_cases h : c = 1 <;> simp [world, h]

/-- Class 0 has attribute 5, class 1 has attribute 6. -/
def body : List Ev := [.setC 1 6, .setC 0 5]

theorem fresh {h : List Ev} {o a : Nat} (h1 : Ev.read o a ∉ h) (h2 : Ev.setO o a ∉ h) : Fresh h o a := ⟨h, [], by simp, h1, h2, .inl rfl⟩

theorem own6 : From world body 10 6 1 := ⟨by simp [Own, body], [], [0], rfl, by simp [Given, body], by simp⟩

theorem base5 : From world body 10 5 0 := ⟨by simp [Own, body], [1], [], rfl, by simp [Given, body], by simp [Given, body]⟩

/-- The attribute of its class: found, also after more happens. -/
example : recorded (after world ([.setC 1 6, .read 10 6, .setO 10 5] ++ .read 10 6 :: body)) 10 6 = [1] :=
  direct_partial world body _ 10 6 (fresh (by simp [body]) (by simp [body])) own6 ⟨by simp, by simp⟩

/-- Assigned, deleted and read again. -/
example : recorded (after world ([.read 10 6] ++ .read 10 6 :: .delO 10 6 :: .setO 10 6 :: .read 10 6 :: body)) 10 6 = [1] :=
  direct_partial world _ _ 10 6 ⟨[], _, rfl, by simp, by simp, .inr ⟨_, rfl, by simp [Own]⟩⟩ ⟨by simp [Own, body], [], [0], rfl, by simp [Given, body, world], by simp⟩ ⟨by simp, by simp⟩

/-- The attribute of the class above: never found, not even after class 1 is given it. -/
example : recorded (after world ([.read 10 5, .setC 1 5] ++ .read 10 5 :: body)) 10 5 = [] ∧ From world ([.read 10 5, .setC 1 5] ++ .read 10 5 :: body) 10 5 1 :=
  ⟨base_lost world body _ 10 5 0 (fresh (by simp [body]) (by simp [body])) base5 (by decide) ⟨by simp, by simp⟩,
    ⟨by simp [Own, body], [], [0], rfl, by simp [Given], by simp⟩⟩

/-- Assigned without having been read. -/
example : recorded (after world ([.read 10 6] ++ .setO 10 6 :: body)) 10 6 = [1] :=
  (assigned_depends world body _ 10 6 (fresh (by simp [body]) (by simp [body])) (by simp [Given, body, world]) ⟨by simp, by simp⟩).1

/-- Set behind the back of ipyflow. -/
example : recorded (after world (.read 10 6 :: .hidden 10 6 :: body)) 10 6 = [1] :=
  hidden_depends world (.hidden 10 6 :: body) 10 6 (fresh (by simp [body]) (by simp [body])) (by simp [Given, body, world]) (by simp [Own])

/-- Assigned after it was read. -/
example : recorded (after world ([] ++ .setO 10 6 :: ([.setC 0 6] ++ .read 10 6 :: body))) 10 6 = [] :=
  assigned_after_read world body _ 10 6 1 (fresh (by simp [body]) (by simp [body])) own6 ⟨by simp, by simp⟩ [] ⟨by simp, by simp⟩

/-- **C192** (violated): that an attribute that was just read depends on the attribute of the class that its value comes from is false. -/
theorem inherit_claim_false : ¬ ∀ (w : World) (h : List Ev) (o a d : Nat), Proper w → From w h o a d → d ∈ recorded (after w (.read o a :: h)) o a := by
  intro q
  have h1 := q world body 10 5 0 proper base5
  have h2 := base_lost world body [] 10 5 0 (fresh (by simp [body]) (by simp [body])) base5 (by decide) ⟨by simp, by simp⟩
  rw [List.nil_append] at h2
  rw [h2] at h1
  simp at h1

end Verif.Inherit.Witness
