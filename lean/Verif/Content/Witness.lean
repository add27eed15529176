import Verif.Content.Props
import Mathlib.Tactic.SplitIfs
import Verif.Content.Links

/-! Concrete cases for C127 and C128. -/

namespace Verif.Content.Witness
open Spec

/-- A few pieces of code with what `check_and_resolve_symbols` finds in them, `data_model/cell.py` 811-865. -/
def py (c : String) : Outcome String :=
  if c = "x = 1" then .ok [] ["x"]
  else if c = "x = 2" then .ok [] ["x"]
  else if c = "y = 1" then .ok [] ["y"]
  else if c = "print(x)" then .ok ["x"] []
  else if c = "print(x, y)" then .ok ["x", "y"] []
  else if c = "print(3)" then .ok [] []
  else .syntaxError

/-- The same, but for one piece of code the check fails in another way, as for code with a lone surrogate
(`comm_manager.py` 252-254, only `SyntaxError` is caught in 274). -/
def py' (c : String) : Outcome String := if c = "bad" then .crash else py c

theorem tame : Tame py := by
  intro c
  unfold py
  split_ifs <;> simp

/-- Two cells. -/
def nb (a b : String) : Screen := [⟨1, .code, a⟩, ⟨2, .code, b⟩]

/-- The two cells were run in order and the schedule was asked for. -/
def ran (a b : String) : List (Event String) :=
  [.ask false false, .run 2 [], .run 1 ["x"], .ask false false, .edit (nb a b)]

theorem has_of {k : Kernel String} {id : Nat} {c : String} (h : (Assoc.get k.cells id).map (·.content) = some c) :
    Has k id c := by
  rw [Option.map_eq_some_iff] at h
  exact h

theorem nb_nodup (a b : String) : ((nb a b).map (·.id)).Nodup := by simp [nb]

theorem ran_distinct (a b : String) : Distinct (ran a b) := by
  intro s hs
  simp only [ran, List.mem_cons, Event.edit.injEq, reduceCtorEq, false_or, List.not_mem_nil, or_false] at hs
  subst hs
  exact nb_nodup a b

-- a half-typed line: the kernel keeps the code it had
example : Has (after py (.settle :: .edit (nb "x = 1" "print(x") :: ran "x = 1" "print(x)")).kernel 2 "print(x)" := by
  refine (heard_iff tame ?_ (Or.inr ⟨rfl, by decide⟩) 2 "print(x)").2 (Or.inr ⟨?_, ?_⟩)
  · intro s hs
    simp only [List.mem_cons, Event.edit.injEq] at hs
    rcases hs with rfl | hs
    · exact nb_nodup _ _
    · exact ran_distinct _ _ s hs
  · exact has_of (by decide)
  · rintro ⟨d, h, l, m, hp⟩
    simp only [Shows, screen, nb, List.mem_cons, Item.mk.injEq, List.not_mem_nil, or_false] at h
    rcases h with ⟨h, _⟩ | ⟨_, _, rfl⟩
    · exact absurd h (by decide)
    · simp [py] at hp

-- the kernel has what is on the screen after a request
example : Agrees py (after py (.ask false false :: .edit (nb "x = 2" "print(x)") :: [])) :=
  heard tame (by intro s hs; simp only [List.mem_cons, Event.edit.injEq, List.not_mem_nil, or_false] at hs; subst hs; exact nb_nodup _ _)
    (Or.inl rfl)

-- and still has it after a run
example : Agrees py (after py (.run 1 ["x"] :: .ask false false :: .edit (nb "x = 2" "print(x)") :: [])) := by
  have hd : Distinct ([.edit (nb "x = 2" "print(x)")] : List (Event String)) := by
    intro s hs; simp only [List.mem_cons, Event.edit.injEq, List.not_mem_nil, or_false] at hs; subst hs; exact nb_nodup _ _
  refine kept tame ?_ (heard tame hd (Or.inl rfl)) (by simp)
  intro s hs
  exact hd s (by simpa using hs)

-- it comes to rest with something new on the screen
example : Agrees py (after py (.settle :: .edit (nb "x = 2" "print(x)") :: .settle :: [.edit (nb "x = 1" "print(x)")])) :=
  settled_partial tame (by
    intro s hs
    simp only [List.mem_cons, Event.edit.injEq, List.not_mem_nil, or_false, reduceCtorEq, false_or] at hs
    rcases hs with rfl | rfl <;> exact nb_nodup _ _) (Or.inl (by decide))

-- a change that is taken back within half a second, after a request went out
example : ¬ Agrees py (after py (Event.settle :: .edit (nb "x = 1" "print(x)") :: .ask false false ::
    .edit (nb "x = 2" "print(x)") :: .settle :: .edit (nb "x = 1" "print(x)") :: ran "x = 1" "print(x)")) :=
  (taken_back tame (ran_distinct _ _) (nb_nodup _ _) (nb_nodup _ _) (id := 1) (a := "x = 1") (b := "x = 2")
    (by simp [Shows, nb]) (by simp [Shows, nb]) (by decide) ⟨_, _, rfl⟩ ⟨_, _, rfl⟩).2

-- the same with a run
example : ¬ Agrees py (after py (Event.settle :: .edit (nb "x = 1" "print(x)") :: .run 1 ["x"] ::
    .edit (nb "x = 2" "print(x)") :: .settle :: .edit (nb "x = 1" "print(x)") :: ran "x = 1" "print(x)")) :=
  (run_and_taken_back (nb_nodup _ _) (id := 1) (a := "x = 1") (b := "x = 2")
    (by simp [Shows, nb]) (by simp [Shows, nb]) (by decide) ⟨_, _, rfl⟩ ["x"]).2

-- a code cell turned into text
example : 2 ∈ toCheck (after py (.ask false false :: .edit [⟨1, .code, "x = 1"⟩, ⟨2, .text, "print(x)"⟩] ::
    ran "x = 1" "print(x)")).kernel [⟨1, .code, "x = 1"⟩, ⟨2, .text, "print(x)"⟩] :=
  (turned_into_text tame (by
    intro s hs
    simp only [List.mem_cons, Event.edit.injEq] at hs
    rcases hs with rfl | hs
    · simp
    · exact ran_distinct _ _ s hs) (Or.inl rfl) (id := 2) (c := "print(x)") (t := "print(x)")
    (has_of (by decide)) (by simp [screen])).2

-- a deleted cell
example : 2 ∉ toCheck (after py (ran "x = 1" "print(x)")).kernel [⟨1, .code, "x = 1"⟩] :=
  deleted _ (by simp)

-- a cell that cannot be looked at keeps the kernel from hearing of the next one
example : Has (after py' ([.settle, .ask false false, .ask false false] ++
    .edit (nb "bad" "print(3)") :: ran "x = 1" "print(x)")).kernel 2 "print(x)" :=
  blocked (check := py') (past := .edit (nb "bad" "print(3)") :: ran "x = 1" "print(x)") (pre := []) (post := [⟨2, .code, "print(3)"⟩]) (x := 1) (y := 2) (cx := "bad") (cy := "print(3)") rfl
    (nb_nodup _ _) rfl ⟨"x = 1", has_of (by decide)⟩ (by simp [Shows]) (has_of (by decide))
    (more := [.settle, .ask false false, .ask false false]) (by simp)

-- the use of `x` is taken out
example : ∀ child, Assoc.get (after py (.settle :: ([.edit (nb "x = 1" "print(3)")] ++
      .ask false false :: (.run 2 [] :: .run 1 ["x"] :: .ask false false :: [.edit (nb "x = 1" "print(x)")])))).kernel.cells 2
      = some child → ∀ parent, linked parent child ["x"] = false := by
  intro child hch parent
  refine unused tame ?_ (Or.inl rfl) (Or.inr ⟨rfl, by decide⟩) (id := 2) (c1 := "print(x)") (c2 := "print(3)")
    (by simp [NotRun]) ⟨"print(x)", has_of (by decide)⟩ (by simp [Shows, nb, screen]) rfl (by simp [Shows, nb, screen]) rfl
    (syms := ["x"]) (by simp) (by simp) hch parent
  intro s hs
  simp only [List.mem_append, List.mem_cons, Event.edit.injEq, List.not_mem_nil, or_false, reduceCtorEq, false_or] at hs
  rcases hs with rfl | rfl <;> exact nb_nodup _ _

-- `x` is assigned and used
example : ∀ parent child, Assoc.get (after py (ran "x = 1" "print(x)")).kernel.cells 1 = some parent →
    Assoc.get (after py (ran "x = 1" "print(x)")).kernel.cells 2 = some child → linked parent child ["x"] = true := by
  intro parent child hp hc
  exact used tame (fun s hs => ran_distinct "x = 1" "print(x)" s (List.mem_cons_of_mem _ hs)) (Or.inl rfl)
    (cp := "x = 1") (cc := "print(x)")
    ⟨"x = 1", has_of (by decide)⟩ ⟨"print(x)", has_of (by decide)⟩ (by simp [Shows, nb, screen]) rfl
    (by simp [Shows, nb, screen]) rfl (s := "x") (by simp) (by simp) (by simp) hp hc

-- the use of `x` is taken out while the cell is running
example : ∀ parent child,
    Assoc.get (after py (.ask false false :: ([.edit (nb "x = 1" "print(3)")] ++ .run 2 [] :: ran "x = 1" "print(x)"))).kernel.cells 1
      = some parent →
    Assoc.get (after py (.ask false false :: ([.edit (nb "x = 1" "print(3)")] ++ .run 2 [] :: ran "x = 1" "print(x)"))).kernel.cells 2
      = some child → linked parent child ["x"] = true := by
  intro parent child hp hc
  refine changed_while_running tame ?_ (by simp [OnlyEdits]) (Or.inl rfl) (c := "print(x)") (by simp [Shows, nb, screen, ran])
    (ip := 1) (cp := "x = 1") ⟨"x = 1", has_of (by decide)⟩ (by decide) (by simp [Shows, nb, screen]) rfl (s := "x")
    (by simp) (by simp) hp hc
  intro s hs
  simp only [List.cons_append, List.nil_append, List.mem_cons, Event.edit.injEq, reduceCtorEq, false_or] at hs
  rcases hs with rfl | hs
  · exact nb_nodup _ _
  · exact ran_distinct _ _ s hs

-- the assignment of `x` is taken out
example : ∀ parent child,
    Assoc.get (after py (.settle :: ([.edit (nb "y = 1" "print(x)")] ++ .ask false false ::
      ([.run 2 []] ++ .run 1 ["x"] :: .ask false false :: [.edit (nb "x = 1" "print(x)")])))).kernel.cells 1 = some parent →
    linked parent child ["x"] = false := by
  intro parent child hp
  refine unassigned_partial tame ?_ (Or.inl rfl) (Or.inr ⟨rfl, by decide⟩) (by simp [NotRun]) (by simp [OnlyEdits])
    (c0 := "x = 1") (c1 := "x = 1") (c2 := "y = 1") (by simp [Shows, nb, screen]) (by simp [Shows, nb, screen]) rfl
    (by simp [Shows, nb, screen]) rfl (by decide) (syms := ["x"]) (by simp) (by simp) hp child
  intro s hs
  simp only [List.mem_append, List.mem_cons, Event.edit.injEq, List.not_mem_nil, or_false, reduceCtorEq, false_or] at hs
  rcases hs with rfl | rfl <;> exact nb_nodup _ _

-- and the link is back when the other cell is run
example : ∀ parent child,
    Assoc.get (after py (.ask false false :: .run 2 [] :: .settle :: .edit (nb "y = 1" "print(x)") ::
      ran "x = 1" "print(x)")).kernel.cells 1 = some parent →
    Assoc.get (after py (.ask false false :: .run 2 [] :: .settle :: .edit (nb "y = 1" "print(x)") ::
      ran "x = 1" "print(x)")).kernel.cells 2 = some child →
    linked parent child ["x"] = true := by
  intro parent child hp hc
  refine back_again tame ?_ (Or.inr ⟨rfl, by decide⟩) (j := 2) (by decide) (c := "y = 1") (by simp [Shows, nb, screen]) rfl
    ⟨"x = 1", has_of (by decide)⟩ (cj := "print(x)") (by simp [Shows, nb, screen]) [] (ic := 2) (cc := "print(x)")
    ⟨"print(x)", has_of (by decide)⟩ (by simp [Shows, nb, screen]) rfl (s := "x") hp hc (by simp) (by simp)
  intro s hs
  simp only [List.mem_cons, Event.edit.injEq] at hs
  rcases hs with rfl | hs
  · exact nb_nodup _ _
  · exact ran_distinct _ _ s hs

end Verif.Content.Witness
