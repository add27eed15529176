import Verif.Imports.Spec

/-! # Lemmas about updates of symbols -/

namespace Verif.Imports
open Verif

theorem get_upsert_ne (syms : List (Key × Sym)) {k k' : Key} (o : Obj) (kind : Kind) (i : Bool) (now : Nat) (h : k' ≠ k) :
    Assoc.get (upsert syms k o kind i now) k' = Assoc.get syms k' := by
  unfold upsert
  cases Assoc.get syms k <;> dsimp only <;> exact Assoc.get_set_ne _ _ h

/-- What an update makes of a symbol. -/
def updated (old : Option Sym) (o : Obj) (kind : Kind) (now : Nat) : Sym :=
  match old with
  | some s => ⟨newKind s.kind kind, o, now⟩
  | none => ⟨kind, o, now⟩

theorem get_upsert_self (syms : List (Key × Sym)) (k : Key) (o : Obj) (kind : Kind) (now : Nat) :
    Assoc.get (upsert syms k o kind false now) k = some (updated (Assoc.get syms k) o kind now) := by
  unfold upsert updated
  cases Assoc.get syms k <;> dsimp only <;> exact Assoc.get_set_self _ _ _

theorem updated_obj (old : Option Sym) (o : Obj) (kind : Kind) (now : Nat) : (updated old o kind now).obj = o := by cases old <;> rfl
theorem updated_ts (old : Option Sym) (o : Obj) (kind : Kind) (now : Nat) : (updated old o kind now).ts = now := by cases old <;> rfl

/-- Within packages, no variable is concerned. -/
theorem get_chain_inner (w : World) (named i : Bool) (now : Nat) (n : String) :
    ∀ (cs pre : List String) (m : Obj) (syms : List (Key × Sym)),
      Assoc.get (chain w named i now pre false cs (some m) syms) (none, .plain n) = Assoc.get syms (none, .plain n)
  | [], _, _, _ => rfl
  | c :: cs, pre, m, syms => by
    unfold chain
    cases w.sys (pre ++ [c]) with
    | none => rfl
    | some m' =>
      dsimp only
      rw [get_chain_inner w named i now n cs (pre ++ [c]) m']
      split
      · rfl
      · exact get_upsert_ne _ _ _ _ _ (by simp)

/-- A variable is concerned only if it is called like the outermost package, and nothing refers to that. -/
theorem get_chain (w : World) (named i : Bool) (now : Nat) (n : String) (cs : List String) (syms : List (Key × Sym)) :
    Assoc.get (chain w named i now [] true cs none syms) (none, .plain n) = Assoc.get syms (none, .plain n) ∨
    ∃ m, named = true ∧ cs.head? = some n ∧ w.sys [n] = some m ∧ known syms m = false ∧
      Assoc.get (chain w named i now [] true cs none syms) (none, .plain n) = Assoc.get (upsert syms (none, .plain n) m .module i now) (none, .plain n) := by
  cases cs with
  | nil => exact Or.inl rfl
  | cons c cs =>
    unfold chain
    rw [List.nil_append]
    cases hm : w.sys [c] with
    | none => exact Or.inl rfl
    | some m =>
      dsimp only
      rw [get_chain_inner]
      cases hk : known syms m with
      | true => rw [if_pos rfl]; exact Or.inl rfl
      | false =>
        rw [if_neg (by simp)]
        cases named with
        | false => exact Or.inl (get_upsert_ne _ _ _ _ _ (by simp))
        | true =>
          by_cases hc : n = c
          · subst hc
            exact Or.inr ⟨m, rfl, rfl, hm, hk, rfl⟩
          · refine Or.inl (get_upsert_ne _ _ _ _ _ ?_)
            simp [hc]

/-- The outermost package, if nothing refers to it and it is named. -/
theorem get_chain_head (w : World) (now : Nat) {n : String} {cs : List String} {m : Obj} {syms : List (Key × Sym)} (hh : cs.head? = some n) (hm : w.sys [n] = some m)
    (hk : known syms m = false) :
    Assoc.get (chain w true false now [] true cs none syms) (none, .plain n) = some (updated (Assoc.get syms (none, .plain n)) m .module now) := by
  cases cs with
  | nil => simp at hh
  | cons c cs =>
    simp only [List.head?_cons, Option.some.injEq] at hh
    subst hh
    unfold chain
    rw [List.nil_append, hm]
    dsimp only
    rw [get_chain_inner, hk]
    exact get_upsert_self _ _ _ _ _

theorem get_moduleSym (w : World) (named i : Bool) (now : Nat) (n : String) (o : Obj) (syms : List (Key × Sym)) :
    Assoc.get (moduleSym w named i now o syms) (none, .plain n) = Assoc.get syms (none, .plain n) ∨
    ∃ m, named = true ∧ (w.name o).head? = some n ∧ w.sys [n] = some m ∧ known syms m = false ∧
      Assoc.get (moduleSym w named i now o syms) (none, .plain n) = Assoc.get (upsert syms (none, .plain n) m .module i now) (none, .plain n) := by
  unfold moduleSym
  by_cases hb : w.name o = ["builtins"] ∨ w.name o = ["__main__"]
  · rw [if_pos hb]; exact Or.inl rfl
  · rw [if_neg hb]; exact get_chain w named i now n _ syms

theorem get_maybeModule (w : World) (named : Bool) (now : Nat) (n : String) (o : Option Obj) (syms : List (Key × Sym)) :
    Assoc.get (maybeModule w named now o syms) (none, .plain n) = Assoc.get syms (none, .plain n) ∨
    ∃ o' m, o = some o' ∧ named = true ∧ (w.name o').head? = some n ∧ w.sys [n] = some m ∧ known syms m = false ∧
      Assoc.get (maybeModule w named now o syms) (none, .plain n) = some (updated (Assoc.get syms (none, .plain n)) m .module now) := by
  unfold maybeModule
  cases o with
  | none => exact Or.inl rfl
  | some o =>
    dsimp only
    by_cases hb : w.name o = ["builtins"]
    · rw [if_pos hb]; exact Or.inl rfl
    · rw [if_neg hb]
      rcases get_moduleSym w named false now n o syms with h | ⟨m, h1, h2, h3, h4, h5⟩
      · exact Or.inl h
      · exact Or.inr ⟨o, m, rfl, h1, h2, h3, h4, by rw [h5, get_upsert_self]⟩

theorem get_bindName_ne (vars : List (String × Obj)) {n n' : String} (now : Nat) (syms : List (Key × Sym)) (h : n' ≠ n) :
    Assoc.get (bindName vars n now syms) (none, .plain n') = Assoc.get syms (none, .plain n') := by
  unfold bindName
  cases Assoc.get vars n with
  | none => rfl
  | some o => exact get_upsert_ne _ _ _ _ _ (by simp [h])

theorem get_bindName_self (vars : List (String × Obj)) {n : String} {o : Obj} (now : Nat) (syms : List (Key × Sym)) (h : Assoc.get vars n = some o) :
    Assoc.get (bindName vars n now syms) (none, .plain n) = some (updated (Assoc.get syms (none, .plain n)) o .import now) := by
  unfold bindName
  rw [h]
  exact get_upsert_self _ _ _ _ _

theorem known_false {syms : List (Key × Sym)} {o : Obj} : known syms o = false ↔ ¬ ∃ k s, (k, s) ∈ syms ∧ s.obj = o := by
  unfold known
  rw [List.any_eq_false]
  constructor
  · rintro h ⟨k, s, hs, rfl⟩
    exact h (k, s) hs (by simp)
  · rintro h ⟨k, s⟩ hs hh
    exact h ⟨k, s, hs, by simpa using hh⟩

end Verif.Imports
