import Verif.Imports.Bridge

/-! # Every symbol is there once -/

namespace Verif.Imports
open Verif

theorem nodup_upsert {syms : List (Key × Sym)} (h : (Assoc.keys syms).Nodup) (k : Key) (o : Obj) (kind : Kind) (i : Bool) (now : Nat) :
    (Assoc.keys (upsert syms k o kind i now)).Nodup := by
  unfold upsert
  cases Assoc.get syms k <;> exact Assoc.nodup_set h _ _

theorem nodup_chain (w : World) (named i : Bool) (now : Nat) : ∀ (cs pre : List String) (f : Bool) (scope : Option Obj) (syms : List (Key × Sym)), (Assoc.keys syms).Nodup →
    (Assoc.keys (chain w named i now pre f cs scope syms)).Nodup
  | [], _, _, _, _, h => h
  | c :: cs, pre, f, scope, syms, h => by
    unfold chain
    cases w.sys (pre ++ [c]) with
    | none => exact h
    | some m =>
      dsimp only
      refine nodup_chain w named i now cs _ _ _ _ ?_
      split
      · exact h
      · exact nodup_upsert h _ _ _ _ _

theorem nodup_moduleSym {w : World} {named i : Bool} {now : Nat} {o : Obj} {syms : List (Key × Sym)} (h : (Assoc.keys syms).Nodup) :
    (Assoc.keys (moduleSym w named i now o syms)).Nodup := by
  unfold moduleSym
  split
  · exact h
  · exact nodup_chain _ _ _ _ _ _ _ _ _ h

theorem nodup_elem {w : World} {vars : List (String × Obj)} {now : Nat} {e : Elem} {syms : List (Key × Sym)} (h : (Assoc.keys syms).Nodup) :
    (Assoc.keys (elem w vars now syms e)).Nodup := by
  have hm : (Assoc.keys (maybeModule w e.named now e.mod syms)).Nodup := by
    unfold maybeModule
    cases e.mod with
    | none => exact h
    | some o =>
      dsimp only
      split
      · exact h
      · exact nodup_moduleSym h
  unfold elem
  cases e.target with
  | none => exact hm
  | some t =>
    dsimp only
    unfold bindName
    cases Assoc.get vars t with
    | none => exact hm
    | some o => exact nodup_upsert hm _ _ _ _ _

theorem nodup_elems {w : World} {vars : List (String × Obj)} {now : Nat} : ∀ {es : List Elem} {syms : List (Key × Sym)}, (Assoc.keys syms).Nodup →
    (Assoc.keys (es.foldl (elem w vars now) syms)).Nodup
  | [], _, h => h
  | e :: es, syms, h => by
    rw [List.foldl_cons]
    exact nodup_elems (nodup_elem h)

theorem nodup_run (w : World) : ∀ (h : List Stmt), (Assoc.keys (run w h).syms).Nodup
  | [] => List.nodup_nil
  | s :: h => by
    have ih := nodup_run w h
    by_cases hi : IsImport s
    · rw [run, step_import w _ hi]
      cases bound w s with
      | none => exact ih
      | some bs => exact nodup_elems ih
    · cases s with
      | assign n o => exact nodup_upsert ih _ _ _ _ _
      | define n o c => exact nodup_upsert ih _ _ _ _ _
      | del n => exact Assoc.nodup_erase ih _
      | imports _ => exact (hi trivial).elim
      | froms _ _ => exact (hi trivial).elim
      | use o => exact nodup_moduleSym ih
      | check n =>
        rw [run]; unfold step; dsimp only
        cases Assoc.get (run w h).vars n with
        | none => exact ih
        | some o =>
          cases Assoc.get (run w h).syms (none, .plain n) with
          | none => exact ih
          | some s => exact Assoc.nodup_set ih _ _

theorem recorded_check_self {w : World} {st : St} {n : String} {o : Obj} {s : Sym} (hv : Assoc.get st.vars n = some o) (hs : recorded st n = some s) :
    recorded (step w st (.check n)) n = some { s with obj := o } := by
  unfold recorded at hs ⊢
  unfold step
  dsimp only
  rw [hv, hs]
  exact Assoc.get_set_self _ _ _

/-- Nothing refers to an object after a symbol was updated with another one. -/
theorem known_upsert {syms : List (Key × Sym)} {k : Key} {o o' : Obj} {kind : Kind} {now : Nat} (hn : (Assoc.keys syms).Nodup) (ho : o' ≠ o)
    (h : ∀ k' s, k' ≠ k → Assoc.get syms k' = some s → s.obj ≠ o) : known (upsert syms k o' kind false now) o = false := by
  rw [known_false]
  rintro ⟨k', s, hm, hs⟩
  have hg := (Assoc.get_eq_some_iff (nodup_upsert hn k o' kind false now)).2 hm
  by_cases hk : k' = k
  · subst hk
    rw [get_upsert_self] at hg
    injection hg with hg
    rw [← hg, updated_obj] at hs
    exact ho hs
  · rw [get_upsert_ne _ _ _ _ _ hk] at hg
    exact h k' s hk hg hs

end Verif.Imports
