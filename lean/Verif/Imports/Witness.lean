import Verif.Imports.Props

/-!
# Cases

A world with the modules `math` (1), `datetime` (2, with an attribute of the same name, 20), `os` (3), `os.path` (4, which calls itself `posixpath`), and the package `xml` (5) with
`xml.dom` (6). -/

namespace Verif.Imports.Witness
open Verif Verif.Imports

/-- The modules of the world. -/
def sys : List String → Option Obj
  | ["math"] => some 1
  | ["datetime"] => some 2
  | ["os"] => some 3
  | ["os", "path"] => some 4
  | ["posixpath"] => some 4
  | ["xml"] => some 5
  | ["xml", "dom"] => some 6
  | _ => none

/-- The names that the modules have. -/
def name : Obj → List String
  | 1 => ["math"]
  | 2 => ["datetime"]
  | 3 => ["os"]
  | 4 => ["posixpath"]
  | 5 => ["xml"]
  | 6 => ["xml", "dom"]
  | _ => ["__main__"]

/-- Attributes of the modules. -/
def attr : Obj → String → Option Obj
  | 1, "sqrt" => some 10
  | 1, "pi" => some 11
  | 2, "datetime" => some 20
  | 2, "timedelta" => some 21
  | _, _ => none

/-- The world. -/
def w : World := ⟨sys, name, fun o => o ≤ 6 && 0 < o, attr⟩

theorem from_succeeds (p : List String) (xs : List (String × Option String)) (m : Obj) (hm : w.sys p = some m) (h : ∀ x ∈ xs, (w.attr m x.1).isSome) :
    Succeeds w (.froms p xs) := fun x hx => ⟨m, hm, Or.inl (Option.isSome_iff_exists.1 (h x hx))⟩

theorem not_referred {st : St} {o : Obj} (h : known st.syms o = false) : ¬ Referred st o := known_false.1 h

theorem referred {st : St} {o : Obj} (h : known st.syms o = true) : Referred st o := by
  by_contra hc
  rw [known_false.2 hc] at h
  cases h

/-- `from math import sqrt, pi as p`, with a variable `x`. -/
def s1 : Stmt := .froms ["math"] [("sqrt", none), ("pi", some "p")]

example : Right (run w [s1, .assign "x" 7]) "sqrt" :=
  recorded_partial w [.assign "x" 7] [] [.froms ["math"] [("pi", some "p")]] s1 (.froms ["math"] [("sqrt", none)]) "sqrt"
    (from_succeeds _ _ 1 rfl (by decide)) rfl (by decide) (by rintro ⟨_, _, _, h⟩; cases h)
    (by
      intro y hy
      simp only [List.mem_singleton] at hy
      subst hy
      rintro ⟨x, hx, hn, _⟩
      simp only [List.mem_singleton] at hx
      subst hx
      cases hn)

example : recorded (run w [s1, .assign "x" 7]) "x" = some ⟨.default, 7, 1⟩ ∧ recorded (run w [.assign "x" 7]) "x" = some ⟨.default, 7, 1⟩ :=
  ⟨kept_partial w [.assign "x" 7] s1 "x" trivial (by decide) (by
    rintro ⟨x, hx, hn, o, ho, hh⟩
    simp only [List.mem_cons, List.not_mem_nil, or_false] at hx
    rcases hx with rfl | rfl
    · rcases ho with ho | ⟨_, ho⟩
      · cases ho
      · injection ho with ho
        subst ho
        exact absurd hh (by decide)
    · cases hn), rfl⟩

/-- `import math`. -/
example : Right (run w [.imports [(["math"], none)], .assign "x" 7]) "math" :=
  recorded_single w [.assign "x" 7] (.imports [(["math"], none)]) "math"
    (by
      intro x hx
      simp only [List.mem_singleton] at hx
      subst hx
      exact ⟨by simp, ⟨1, rfl⟩, fun _ c hc => ⟨1, by simp at hc; subst hc; rfl⟩⟩)
    rfl (by decide) (by rintro ⟨_, _, _, h⟩; cases h)

/-- `import xml.dom`. -/
example : Right (run w [.imports [(["xml", "dom"], none)], .assign "x" 7]) "xml" :=
  dotted_partial w [.assign "x" 7] "xml" "dom" [] 5 6 rfl rfl rfl (not_referred (by decide))

/-- A variable `math` is kept by `from math import sqrt` if the module was imported before under another name. -/
example : recorded (run w [.froms ["math"] [("sqrt", none)], .imports [(["math"], some "m")], .assign "math" 7]) "math" = some ⟨.default, 7, 1⟩ :=
  kept_known w [.imports [(["math"], some "m")], .assign "math" 7] (.froms ["math"] [("sqrt", none)]) "math" rfl (by decide)
    (fun m hm => by
      have : m = 1 := by
        have hm : some 1 = some m := hm
        injection hm with hm
        exact hm.symm
      subst this
      exact referred (by decide))

/-- `math = 7` and then `from math import sqrt`: the variable is said to have been updated by the import. -/
example : ∃ s, recorded (run w [.check "math", .froms ["math"] [("sqrt", none)], .assign "math" 7]) "math" = some s ∧ s.obj = 7 ∧ s.ts = 2 :=
  (from_takes_over w [.assign "math" 7] "math" "sqrt" 1 rfl rfl rfl (by decide) (by decide) (from_succeeds _ _ 1 rfl (by decide)) (by decide) (not_referred (by decide))).2.2.2 7 rfl

/-- `from datetime import datetime, timedelta`. -/
example : Assoc.get (run w [.froms ["datetime"] [("datetime", none), ("timedelta", none)]]).vars "datetime" = some 20 ∧
    ∃ s, recorded (run w [.froms ["datetime"] [("datetime", none), ("timedelta", none)]]) "datetime" = some s ∧ s.obj = 2 :=
  same_name_lost w [] "datetime" "timedelta" 2 20 rfl rfl rfl rfl (by decide) (by decide) rfl (by decide) (from_succeeds _ _ 2 rfl (by decide)) (by decide)
    (not_referred (by decide))

/-- `import xml as x` and then `import xml.dom`. -/
example : recorded (run w [.imports [(["xml", "dom"], none)], .imports [(["xml"], some "x")]]) "xml" = none :=
  (dotted_lost w [.imports [(["xml"], some "x")]] "xml" "dom" [] 5 rfl (referred (by decide))).2.1

/-- `posixpath = 7` and then `import os.path`. -/
example : ∃ s, recorded (run w [.imports [(["os", "path"], none)], .assign "posixpath" 7]) "posixpath" = some s ∧ s.obj = 4 ∧ s.ts = 2 :=
  (other_name w [.assign "posixpath" 7] "os" "path" "posixpath" 3 4 rfl rfl rfl rfl (by decide) (by decide) (by decide) (not_referred (by decide))).2

/-- `import math as m`, used by later cells, and bound again by an import. -/
example : listed (run w [.froms ["math"] [("sqrt", some "m")], .imports [(["math"], some "m")]]) "m" = true := by decide
example : LastImport w "m" [.froms ["math"] [("sqrt", some "m")], .imports [(["math"], some "m")]] := listed_sound w "m" _ (by decide)
example : listed (run w [.froms ["math"] [("sqrt", some "m")], .imports [(["math"], some "m")]]) "m" = true ↔
    LastImport w "m" [.froms ["math"] [("sqrt", some "m")], .imports [(["math"], some "m")]] := by
  refine listed_partial w "m" _ fun s hs => ?_
  simp only [List.mem_cons, List.not_mem_nil, or_false] at hs
  rcases hs with rfl | rfl
  · refine ⟨fun _ => trivial, ?_, ?_⟩
    · rintro ⟨x, hx, hn, _⟩
      simp only [List.mem_singleton] at hx
      subst hx
      cases hn
    · rintro x hx ⟨c, d, cs, rfl⟩
      simp [parts] at hx
  · refine ⟨fun _ => trivial, ?_, ?_⟩
    · rintro ⟨x, hx, hn, _⟩
      simp only [List.mem_singleton] at hx
      subst hx
      cases hn
    · rintro x hx ⟨c, d, cs, rfl⟩
      simp [parts] at hx

/-- `sqrt = 7`, then `from math import sqrt`, which is not listed, although it is the last binding. -/
example : listed (run w [.froms ["math"] [("sqrt", none)], .assign "sqrt" 7]) "sqrt" = false ∧ LastImport w "sqrt" [.froms ["math"] [("sqrt", none)], .assign "sqrt" 7] :=
  ⟨assigned_lost w "sqrt" 7 [] [.froms ["math"] [("sqrt", none)]] (by decide), .here trivial (by decide) (from_succeeds _ _ 1 rfl (by decide))⟩

example : listed (run w [.froms ["math"] [("sqrt", none)], .define "sqrt" 7 false]) "sqrt" = false :=
  never_listed w "sqrt" [.define "sqrt" 7 false] ⟨.function, 7, 1⟩ rfl rfl [.froms ["math"] [("sqrt", none)]] (by decide)

/-- `import math`, twice. -/
example : listed (run w [.imports [(["math"], none)], .imports [(["math"], none)]]) "math" = false :=
  (plain_lost w "math" 1 [] [.imports [(["math"], none)]] rfl rfl (by decide) (by decide) (not_referred (by decide)) (by decide)).2

/-- After something else referred to the module, `import math` is listed. -/
example : listed (run w [.imports [(["math"], none)], .use 1]) "math" = true := by decide

end Verif.Imports.Witness
