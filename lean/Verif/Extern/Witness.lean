import Verif.Extern.Props

/-!
# Concrete cases for C114

Objects: 1 is a list with the names `xs` (symbol 1) and `ys` (symbol 2), 2 a dictionary `d`
(symbol 3), 3 an object of a library class `q` (symbol 4), 4 a bytearray `b` (symbol 5), 9 the
module `random` (symbol 9, imported), 20 a value `v` (symbol 6).
-/

namespace Verif.Extern
open Verif

/-- The objects and symbols of the cases. -/
def things : World where
  kind
    | 1 => .list
    | 2 => .dict
    | 3 => .other
    | 4 => .bytearray
    | 9 => .module
    | _ => .frozen
  sym s := match s with
    | 1 => ⟨1, 1, false, false, []⟩
    | 2 => ⟨2, 1, false, false, []⟩
    | 3 => ⟨3, 2, false, false, []⟩
    | 4 => ⟨4, 3, false, false, []⟩
    | 5 => ⟨5, 4, false, false, []⟩
    | 9 => ⟨9, 9, false, true, []⟩
    | s => ⟨s, 20, false, false, []⟩
  names o := match o with
    | 1 => [1, 2]
    | 2 => [3]
    | 3 => [4]
    | 4 => [5]
    | 9 => [9]
    | 20 => [6]
    | _ => []
  elems o := if o = 2 then some [.int, .str] else none

theorem things_wf : Wf things := by
  intro o s h
  unfold things at h ⊢
  dsimp only at h
  split at h <;> simp at h
  · rcases h with rfl | rfl <;> rfl
  all_goals (subst h; rfl)

/-- Nothing recorded yet. -/
def start : Rec := ⟨[], []⟩

/-- `xs.append(v)` -/
def append : Call := ⟨none, some 1, .meth .list .append, some .append, some 1, [(20, [6])], [], 0⟩

theorem append_on : OnContainer things append 1 .append := ⟨rfl, rfl, rfl, rfl, .inl rfl, fun _ _ => rfl⟩

example : ∃ r' d, call things append start = .ok r' ∧ Marked r' 1 d :=
  container_partial things_wf append_on .listAppend (fun h => absurd rfl h) (by nofun)
    ⟨by decide, rfl, by intro n h; injection h⟩

example : call things append start = .ok ⟨[(1, [6])], []⟩ := rfl

example : 1 ∈ things.names 1 ∧ (∀ x ∈ [6], InArgs append x) ∧ ∀ x, InArgs append x → x ∉ things.names 1 → x ∈ [6] :=
  depends_on_args (o := 1) (r := start) (r' := ⟨[(1, [6])], []⟩) rfl rfl rfl (by simp [Marked]) (by simp [Marked, start])

example : ∀ d, Marked ⟨[(1, [6])], []⟩ 5 d → Marked start 5 d :=
  fun _ h => bytearray_unrecorded (w := things) (c := append) rfl rfl h

/-- `d.pop("k")` returning 20: nothing is recorded. -/
def popped : Call := ⟨none, some 2, .meth .dict .pop, some .pop, some 3, [(30, [])], [], 20⟩

example : Changes (things.kind 2) .pop ∧ call things popped start = .ok start :=
  value_unrecorded (o := 2) (m := .pop) ⟨rfl, rfl, rfl, rfl, .inr (.inl rfl), fun _ h => absurd .dictPop h⟩ .dictPop
    (by decide) (by decide) (by decide)

/-- `d.get("k")` returning `None`, and `xs.index(v)` returning 20. -/
example : call things ⟨none, some 2, .meth .dict .get, some .get, some 3, [(30, [])], [], 0⟩ start = .ok start :=
  reading_unrecorded (o := 2) (m := .get) ⟨rfl, rfl, rfl, rfl, .inr (.inl rfl), fun h => absurd h (by nofun)⟩
    (by nofun) (.inr (.inl ⟨rfl, rfl⟩))

example : call things ⟨none, some 1, .meth .list (.other 5), some (.other 5), some 1, [(20, [6])], [], 20⟩ start = .ok start :=
  reading_unrecorded (o := 1) (m := .other 5) ⟨rfl, rfl, rfl, rfl, .inl rfl, fun h => absurd h (by nofun)⟩
    (by nofun) (.inl (by decide))

/-- `q.put(v)` returning `None`, and `q.size()` returning 20. -/
example : ∃ r' d, call things ⟨none, some 3, .plain, some (.other 0), some 4, [(20, [6])], [], 0⟩ start = .ok r' ∧ Marked r' 4 d :=
  quiet_recorded (o := 3) (m := .other 0) things_wf ⟨rfl, rfl, rfl, by nofun, rfl⟩ (.inl rfl)
    ⟨by decide, rfl, by intro n h; injection h⟩

example : call things ⟨none, some 3, .plain, some (.other 1), some 4, [], [], 20⟩ start = .ok start :=
  valued_unrecorded (o := 3) (m := .other 1) ⟨rfl, rfl, rfl, by nofun, rfl⟩ (by decide) (by decide)

/-- `random.shuffle(xs)` -/
def shuffle : Call := ⟨some 9, some 9, .plain, some (.other 2), some 9, [(1, [1])], [], 0⟩

example : ∃ r', call things shuffle start = .ok r' ∧ ∀ s d, s ∉ things.names 9 → Marked r' s d → Marked start s d :=
  first_arg_unrecorded (k := 9) ⟨.inr rfl, rfl, rfl, rfl⟩ rfl (.inl rfl)

/-- A function of a module called with `q`. -/
def configure : Call := ⟨some 9, some 9, .plain, some (.other 2), some 9, [(3, [4])], [], 0⟩

example : ∃ r' d, call things configure start = .ok r' ∧ Marked r' 4 d :=
  first_arg_recorded (k := 9) ⟨.inr rfl, rfl, rfl, rfl⟩ rfl rfl (by decide) (by simp) rfl rfl rfl

example : ∀ r' s d, call things configure start = .ok r' → Marked r' s d → Marked start s d ∨
    (∃ o, configure.caller = some o ∧ s ∈ things.names o) ∨ (∃ k, configure.module = some k ∧ s ∈ things.names k) ∨
    InArgs configure s :=
  fun _ _ _ h hm => only_own h hm

/-- `add = s.add; add(v)` and `push = xs.append; push(v)` -/
example : call things ⟨none, none, .meth .set .add, none, none, [(20, [6])], [], 0⟩ start = .ok start := rfl

example : ∀ r', call things ⟨none, none, .meth .set .add, none, none, [(20, [6])], [], 0⟩ start = .ok r' → r' = start :=
  fun _ h => bound_unrecorded rfl rfl h

example : call things ⟨none, none, .meth .list .append, none, none, [(20, [6])], [], 0⟩ start = .error .crash :=
  bound_append_fails rfl rfl (.inl rfl)

/-- `d.clear()` after `d = {0: 1, "a": 2}` -/
example : call things ⟨none, some 2, .meth .dict .clear, some .clear, some 3, [], [], 0⟩ start = .error .crash :=
  clear_fails (o := 2) (s := 3) (k := .int) (k' := .str) ⟨rfl, rfl, rfl, rfl, .inr (.inl rfl), fun _ _ => rfl⟩
    (by decide) (by decide) rfl rfl (by decide) (by decide) (by decide)

end Verif.Extern
