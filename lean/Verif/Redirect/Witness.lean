import Verif.Redirect.Props

/-! # Cases for the theorems on where answers go -/

namespace Verif.Redirect.Witness

open Verif.Settings (Str lit)
open Spec

/-- A kernel that keeps the tags of the cell: `tag` adds one, `show_tags` prints them, `dag` answers, `off` answers,
`code` of something unknown only warns, `waiting` raises. -/
def env : Env (List Str) where
  does k _ line s := match k with
    | .tag => ⟨line :: s, 0, .ok none⟩
    | .showTags => ⟨s, 0, .ok (some (lit "tags"))⟩
    | .dag => ⟨s, 0, .ok (some (lit "{}"))⟩
    | .slice => ⟨s, 0, .ok (some line)⟩
    | .toggle => ⟨lit "off" :: s, 0, .ok (some (lit "disabled"))⟩
    | .code => ⟨s, 1, .ok none⟩
    | .waiting => ⟨s, 0, .error (.raised (lit "KeyError"))⟩
    | _ => ⟨s, 0, .ok none⟩
  names := [lit "warn", lit "make_line_magic"]
  writable f := f ≠ lit "/x"

/-- One file, `f`. -/
def world : World (List Str) := ⟨[], fun n => if n = lit "f" then some (lit "old") else none, [], 0⟩

/-- What came of a line: the tags, the file `f`, the file `> f`, what was printed, warnings, whether it raised. -/
def seen (line : String) : List Str × Option Str × Option Str × List Str × Nat × Bool :=
  let r := flowMagic env (lit line) world
  (r.1.state, r.1.files (lit "f"), r.1.files (lit "> f"), r.1.out, r.1.warned, r.2.isSome)

example : seen "dag" = ([], some (lit "old"), none, [lit "{}"], 0, false) := by decide
example : seen "dag > f" = ([], some (lit "{}"), none, [], 0, false) := by decide
example : seen "code y > f" = ([], some (lit "old"), none, [], 1, false) := by decide
example : seen "waiting > f" = ([], some (lit "old"), none, [], 0, true) := by decide
example : seen "show_tags > f" = ([], some (lit "old"), none, [lit "tags"], 0, false) := by decide
example : seen "tag a>b" = ([lit "a"], some (lit "old"), none, [], 0, false) := by decide
example : seen "dag >> f" = ([], some (lit "old"), some (lit "{}"), [], 0, false) := by decide
example : seen "off >" = ([lit "off"], some (lit "old"), none, [], 0, true) := by decide
example : seen "dag > /x" = ([], some (lit "old"), none, [], 0, true) := by decide
example : seen "dag>f" = ([], some (lit "old"), none, [], 1, false) := by decide
example : seen "dag\t> f" = ([], some (lit "old"), none, [], 1, false) := by decide
example : seen " dag > f" = ([], some (lit "old"), none, [], 1, false) := by decide
example : seen "slice --tag  <class 'foo'> > f" = ([], some (lit "--tag $foo"), none, [], 0, false) := by decide
example : seen "make-slice --tag <class 'foo'> > f" = ([], some (lit "old"), some (lit "--tag <class 'foo'"), [], 0, false) := by
  decide

/-- `redirected_partial`. -/
example : Redirects (lit "f") world (flowMagic env (lit "dag ") world) (flowMagic env (lit "dag > f") world) :=
  redirected_partial env world (w := lit "dag") (a := []) (l := [' ']) (g := lit "f") (r := []) (by decide)
    (by rintro (h | ⟨r, h⟩)
        · revert h; decide
        · have := congrArg List.head? h; revert this; simp [reads, lit])
    (by decide) (fun _ => by decide) (by intro c hc; simp_all [White]) (by intro c hc; cases hc)
    ⟨by decide, by simp [lit, White], by simp [lit, White]⟩ (by decide)

/-- `direct_printed`. -/
example : flowMagic env (lit "show_tags > f") world = flowMagic env (lit "show_tags ") world ∧
    (flowMagic env (lit "show_tags > f") world).1.files = world.files :=
  direct_printed env world (w := lit "show_tags") (a := []) (f := lit " f") (by decide) (Or.inl (by decide))
    (by rintro (⟨p, h⟩ | ⟨p, h⟩) <;>
          (have := congrArg List.getLast? h; revert this
           simp [reads, lit, List.getLast?_append]))
    (by decide)

/-- `argument_cut`. -/
example : (flowMagic env (lit "tag a>b") world).1.state = (flowMagic env (lit "tag a") world).1.state :=
  argument_cut env world (w := lit "tag") (a := lit "a") (b := lit "b") (by decide)
    (by rintro (h | h | h) <;> (revert h; decide)) (by decide)

/-- `appended`. -/
example : (flowMagic env (lit "dag >> f") world).1.files (lit "> f") = some (lit "{}") ∧
    (flowMagic env (lit "dag >> f") world).1.files (lit "f") = world.files (lit "f") :=
  appended env world (w := lit "dag") (a := []) (l := [' ']) (g := lit "f") (r := []) (by decide)
    (by rintro (h | ⟨r, h⟩)
        · revert h; decide
        · have := congrArg List.head? h; revert this; simp [reads, lit])
    (by decide) (fun _ => by decide) (by intro c hc; cases hc) ⟨by decide, by simp [lit, White], by simp [lit, White]⟩
    (by decide) ⟨by decide, by decide⟩

/-- `answer_lost`: `%flow off >` turns data flow off and raises. -/
example : (flowMagic env (lit "off >") world).2 ≠ none ∧
    (flowMagic env (lit "off >") world).1.state = (flowMagic env (lit "off ") world).1.state ∧
    (flowMagic env (lit "off >") world).1.files = world.files ∧ (flowMagic env (lit "off >") world).1.out = world.out :=
  answer_lost env world (w := lit "off") (a := []) (f := []) (t := lit "disabled") (by decide)
    (by rintro (h | ⟨r, h⟩)
        · revert h; decide
        · have := congrArg List.head? h; revert this; simp [reads, lit])
    (by decide) (fun _ => by decide) (Or.inl (by intro c hc; cases hc)) ⟨by decide, by decide⟩

theorem env_named : Named env.names := by
  intro n hn
  have : n = lit "warn" ∨ n = lit "make_line_magic" := by simpa [env] using hn
  rcases this with rfl | rfl <;> decide

/-- `odd_word`. -/
example : OnlyWarned world (flowMagic env (lit "dag>f") world) :=
  (odd_word env world (w := lit "dag>f") (c := '>') env_named (by decide) (by decide) (by unfold Odd; decide)
    (by rintro (⟨p, h⟩ | ⟨p, h⟩) <;>
          (have := congrArg List.getLast? h; revert this
           simp [reads, lit, List.getLast?_append]))
    (by rintro ⟨r, h⟩; have := congrArg List.head? h; revert this; simp [reads, lit])).1

/-- `second_blank`. -/
example : OnlyWarned world (flowMagic env (lit " dag > f") world) := second_blank env world env_named (lit "dag > f")

/-- `class_tag`. -/
example : flowMagic env (lit "slice 3 --tag  <class 'foo'> > f") world = flowMagic env (lit "slice 3 --tag $foo > f") world :=
  class_tag env world (w := lit "slice") (a := lit "3 ") (n := lit "foo") (b := lit " > f") 1 (Or.inl rfl) (by decide)
    (by decide) (by unfold Plain; decide) (by decide)

/-- The claim as a user reads it: for every command, `> file` writes to the file what would have been printed. -/
def Claim : Prop := ∀ (S : Type) (env : Env S) (x : World S) (w a g : Str), ' ' ∉ w → Solid g →
  env.writable g = true → Redirects g x (flowMagic env (w ++ ' ' :: a) x) (flowMagic env (w ++ ' ' :: (a ++ lit " > " ++ g)) x)

/-- It is false: what `show_tags` prints is printed all the same. -/
theorem redirect_claim_false : ¬ Claim := by
  intro h
  have := (h _ env world (lit "show_tags") [] (lit "f") (by decide) ⟨by decide, by simp [lit, White], by simp [lit, White]⟩
    (by decide)).2.2.2.1
  revert this
  decide

end Verif.Redirect.Witness
