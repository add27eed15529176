import Verif.Imports.Elems

/-! # Steps and texts of statements, kinds, times -/

namespace Verif.Imports
open Verif

theorem target_bound {w : World} {s : Stmt} {e : Elem} {n : String} (he : e ∈ elems w s) (ht : e.target = some n) : n ∈ boundNames s := by
  cases s with
  | imports xs =>
    obtain ⟨⟨p, a⟩, hx, rfl⟩ := List.mem_map.1 he
    refine List.mem_filterMap.2 ⟨_, hx, ?_⟩
    cases a with
    | some a => exact ht
    | none =>
      match p with
      | [] => simp [ofImport] at ht
      | [c] => exact ht
      | c :: d :: cs => simp [ofImport] at ht
  | froms p xs =>
    obtain ⟨⟨x, a⟩, hx, rfl⟩ := List.mem_map.1 he
    refine List.mem_map.2 ⟨_, hx, ?_⟩
    have ht : a.getD x = n := by simpa [ofFrom] using ht
    cases a with
    | some a => exact ht
    | none => exact ht
  | _ => simp [elems] at he

theorem takes_mentioned {w : World} {s : Stmt} {e : Elem} {n : String} (he : e ∈ elems w s) (ht : e.Takes w n) : mentioned w s n := by
  cases s with
  | imports xs =>
    obtain ⟨⟨p, a⟩, hx, rfl⟩ := List.mem_map.1 he
    obtain ⟨h1, o, h2, h3⟩ := ht
    exact ⟨_, hx, by simpa [ofImport] using h1, o, h2, h3⟩
  | froms p xs =>
    obtain ⟨⟨x, a⟩, hx, rfl⟩ := List.mem_map.1 he
    obtain ⟨h1, o, h2, h3⟩ := ht
    refine ⟨_, hx, by simpa [ofFrom] using h1, o, ?_, h3⟩
    simp only [ofFrom, fromModule] at h2
    cases h : w.sys (p ++ [x]) with
    | none => rw [h] at h2; exact Or.inr ⟨rfl, h2⟩
    | some o' => rw [h] at h2; exact Or.inl h2
  | _ => simp [elems] at he

theorem elems_parts (w : World) (s : Stmt) : elems w s = (parts s).flatMap (elems w) := by
  cases s with
  | imports xs => simp [elems, parts, List.flatMap_map]; rw [List.map_eq_flatMap]
  | froms p xs => simp [elems, parts, List.flatMap_map]; rw [List.map_eq_flatMap]
  | _ => rfl

theorem part_target {w : World} {s x : Stmt} {n : String} (hx : x ∈ parts s) (hb : n ∈ boundNames x) (hd : ¬ Dotted x) :
    ∃ e, elems w x = [e] ∧ e.target = some n := by
  cases s with
  | imports xs =>
    obtain ⟨⟨p, a⟩, _, rfl⟩ := List.mem_map.1 hx
    refine ⟨_, rfl, ?_⟩
    cases a with
    | some a => simpa [boundNames, importName, ofImport, eq_comm] using hb
    | none =>
      match p with
      | [] => simp [boundNames, importName] at hb
      | [c] => simpa [boundNames, importName, ofImport, eq_comm] using hb
      | c :: d :: cs => exact (hd ⟨c, d, cs, rfl⟩).elim
  | froms p xs =>
    obtain ⟨⟨x, a⟩, _, rfl⟩ := List.mem_map.1 hx
    refine ⟨_, rfl, ?_⟩
    cases a with
    | some a => simpa [boundNames, fromName, ofFrom, eq_comm] using hb
    | none => simpa [boundNames, fromName, ofFrom, eq_comm] using hb
  | _ => simp [parts] at hx

theorem part_bound {s : Stmt} {n : String} (hi : IsImport s) (hb : n ∈ boundNames s) : ∃ x ∈ parts s, n ∈ boundNames x := by
  cases s with
  | imports xs =>
    obtain ⟨x, hx, hn⟩ := List.mem_filterMap.1 hb
    exact ⟨_, List.mem_map_of_mem hx, by simp [boundNames, hn]⟩
  | froms p xs =>
    obtain ⟨x, hx, hn⟩ := List.mem_map.1 hb
    exact ⟨_, List.mem_map_of_mem hx, by simp [boundNames, hn]⟩
  | _ => exact hi.elim

theorem import_of_parts {s x : Stmt} (hx : x ∈ parts s) : IsImport s := by
  cases s with
  | imports _ => trivial
  | froms _ _ => trivial
  | _ => simp [parts] at hx

theorem now_run (w : World) (s : Stmt) (h : List Stmt) (hi : IsImport s) : (run w (s :: h)).now = (run w h).now + 1 := by
  rw [run, step_import w _ hi]
  cases bound w s <;> rfl

/-- A step never makes an import of a name that it does not bind. -/
theorem elem_kind {w : World} {vars : List (String × Obj)} {now : Nat} {n : String} {syms : List (Key × Sym)} {e : Elem} {s : Sym} (ht : e.target ≠ some n)
    (h : Assoc.get (elem w vars now syms e) (none, .plain n) = some s) (hk : s.kind = .import) : ∃ s', Assoc.get syms (none, .plain n) = some s' ∧ s'.kind = .import := by
  rw [elem_target_ne ht] at h
  rcases elem_cases w now n syms e with h' | ⟨_, m, _, _, h'⟩
  · exact ⟨s, by rw [← h', h], hk⟩
  · rw [h'] at h
    injection h with h
    subst h
    cases ho : Assoc.get syms (none, .plain n) with
    | none => rw [ho] at hk; simp [updated] at hk
    | some s' =>
      rw [ho] at hk
      simp only [updated, newKind] at hk
      split at hk
      · cases hk
      · exact ⟨s', rfl, hk⟩

theorem elems_kind {w : World} {vars : List (String × Obj)} {now : Nat} {n : String} : ∀ {es : List Elem} {syms : List (Key × Sym)} {s : Sym}, (∀ e ∈ es, e.target ≠ some n) →
    Assoc.get (es.foldl (elem w vars now) syms) (none, .plain n) = some s → s.kind = .import → ∃ s', Assoc.get syms (none, .plain n) = some s' ∧ s'.kind = .import
  | [], _, s, _, h, hk => ⟨s, h, hk⟩
  | e :: es, syms, s, ht, h, hk => by
    rw [List.foldl_cons] at h
    obtain ⟨s', h1, h2⟩ := elems_kind (fun e' he' => ht e' (List.mem_cons_of_mem _ he')) h hk
    exact elem_kind (ht e List.mem_cons_self) h1 h2

theorem newKind_ne {a b : Kind} (ha : a ≠ .import) (hb : b = .import ∨ b = .module) : newKind a b ≠ .import := by
  rcases hb with rfl | rfl
  · simpa [newKind] using ha
  · unfold newKind; split
    · simp
    · exact ha

theorem updated_ne {s : Sym} {o : Obj} {k : Kind} {now : Nat} (hs : s.kind ≠ .import) (hk : k = .import ∨ k = .module) : (updated (some s) o k now).kind ≠ .import :=
  newKind_ne hs hk

/-- What is not an import does not become one. -/
theorem elems_not {w : World} {vars : List (String × Obj)} {now : Nat} {n : String} : ∀ {es : List Elem} {syms : List (Key × Sym)},
    (∃ s, Assoc.get syms (none, .plain n) = some s ∧ s.kind ≠ .import) → ∃ s, Assoc.get (es.foldl (elem w vars now) syms) (none, .plain n) = some s ∧ s.kind ≠ .import
  | [], _, h => h
  | e :: es, syms, ⟨s, h1, h2⟩ => by
    rw [List.foldl_cons]
    refine elems_not ?_
    have hm : ∃ s, Assoc.get (maybeModule w e.named now e.mod syms) (none, .plain n) = some s ∧ s.kind ≠ .import := by
      rcases elem_cases w now n syms e with h' | ⟨_, m, _, _, h'⟩
      · exact ⟨s, by rw [h', h1], h2⟩
      · exact ⟨_, h', by rw [h1]; exact updated_ne h2 (Or.inr rfl)⟩
    by_cases ht : e.target = some n
    · obtain ⟨s', h3, h4⟩ := hm
      cases hv : Assoc.get vars n with
      | none =>
        refine ⟨s', ?_, h4⟩
        unfold elem bindName
        rw [ht]; dsimp only
        rw [hv]; exact h3
      | some o => exact ⟨_, elem_target ht hv, by rw [h3]; exact updated_ne h4 (Or.inl rfl)⟩
    · rw [elem_target_ne ht]; exact hm

/-- What is an import, or nothing yet, is an import once it is bound, as long as no package of that name is taken. -/
theorem elems_import {w : World} {vars : List (String × Obj)} {now : Nat} {n : String} {o : Obj} (hv : Assoc.get vars n = some o) :
    ∀ {es : List Elem} {syms : List (Key × Sym)}, (∀ e ∈ es, ¬ e.Takes w n) → (∀ s, Assoc.get syms (none, .plain n) = some s → s.kind = .import) →
      (∀ s, Assoc.get (es.foldl (elem w vars now) syms) (none, .plain n) = some s → s.kind = .import) ∧
      (((∃ e ∈ es, e.target = some n) ∨ ∃ s, Assoc.get syms (none, .plain n) = some s) → ∃ s, Assoc.get (es.foldl (elem w vars now) syms) (none, .plain n) = some s)
  | [], _, _, h => ⟨h, fun h' => by simpa using h'⟩
  | e :: es, syms, ht, h => by
    rw [List.foldl_cons]
    have hm := elem_of_not_takes (now := now) (syms := syms) (ht e List.mem_cons_self)
    by_cases hn : e.target = some n
    · have hg := elem_target (w := w) (now := now) (syms := syms) hn hv
      rw [hm] at hg
      have hk : ∀ s, Assoc.get (elem w vars now syms e) (none, .plain n) = some s → s.kind = .import := by
        intro s hs
        rw [hg] at hs
        injection hs with hs
        subst hs
        cases ho : Assoc.get syms (none, .plain n) with
        | none => rfl
        | some s' => simp [updated, newKind, h s' ho]
      obtain ⟨h1, h2⟩ := elems_import hv (fun e' he' => ht e' (List.mem_cons_of_mem _ he')) hk
      exact ⟨h1, fun _ => h2 (Or.inr ⟨_, hg⟩)⟩
    · have hg := elem_target_ne (w := w) (vars := vars) (now := now) (syms := syms) hn
      rw [hm] at hg
      obtain ⟨h1, h2⟩ := elems_import hv (es := es) (syms := elem w vars now syms e) (fun e' he' => ht e' (List.mem_cons_of_mem _ he')) (by rw [hg]; exact h)
      refine ⟨h1, fun h3 => h2 ?_⟩
      rw [hg]
      rcases h3 with ⟨e', he', ht'⟩ | h3
      · rcases List.mem_cons.1 he' with rfl | he'
        · exact (hn ht').elim
        · exact Or.inl ⟨e', he', ht'⟩
      · exact Or.inr h3

/-- Times of symbols are not ahead. -/
theorem elems_ts {w : World} {vars : List (String × Obj)} {now : Nat} {n : String} : ∀ {es : List Elem} {syms : List (Key × Sym)},
    (∀ s, Assoc.get syms (none, .plain n) = some s → s.ts ≤ now) → ∀ s, Assoc.get (es.foldl (elem w vars now) syms) (none, .plain n) = some s → s.ts ≤ now
  | [], _, h => h
  | e :: es, syms, h => by
    rw [List.foldl_cons]
    refine elems_ts ?_
    intro s hs
    have hm : ∀ s, Assoc.get (maybeModule w e.named now e.mod syms) (none, .plain n) = some s → s.ts ≤ now := by
      intro s hs
      rcases elem_cases w now n syms e with h' | ⟨_, m, _, _, h'⟩
      · exact h s (by rw [← h', hs])
      · rw [h'] at hs; injection hs with hs; subst hs; rw [updated_ts]; exact Nat.le_refl _
    by_cases ht : e.target = some n
    · cases hv : Assoc.get vars n with
      | none =>
        unfold elem bindName at hs
        rw [ht] at hs; dsimp only at hs
        rw [hv] at hs; exact hm s hs
      | some o => rw [elem_target ht hv] at hs; injection hs with hs; subst hs; rw [updated_ts]; exact Nat.le_refl _
    · rw [elem_target_ne ht] at hs; exact hm s hs

theorem recorded_upsert_ne {st : St} {vars : List (String × Obj)} {n n' : String} {o : Obj} {k : Kind} {now : Nat} (h : n' ≠ n) :
    recorded ⟨vars, upsert st.syms (none, .plain n) o k false now, now⟩ n' = recorded st n' := get_upsert_ne _ _ _ _ _ (by simp [h])

theorem recorded_upsert_self {st : St} {vars : List (String × Obj)} {n : String} {o : Obj} {k : Kind} {now : Nat} :
    recorded ⟨vars, upsert st.syms (none, .plain n) o k false now, now⟩ n = some (updated (recorded st n) o k now) := get_upsert_self _ _ _ _ _

theorem recorded_use {w : World} {st : St} {o : Obj} {n : String} : recorded (step w st (.use o)) n = recorded st n := by
  rcases get_moduleSym w false true (st.now + 1) n o st.syms with h | ⟨_, h, _⟩
  · exact h
  · cases h

theorem recorded_check {w : World} {st : St} {n n' : String} :
    recorded (step w st (.check n)) n' = recorded st n' ∨ (n' = n ∧ ∃ o s, Assoc.get st.vars n = some o ∧ recorded st n = some s ∧ recorded (step w st (.check n)) n' = some { s with obj := o }) := by
  unfold step
  dsimp only
  cases hv : Assoc.get st.vars n with
  | none => exact Or.inl rfl
  | some o =>
    cases hs : Assoc.get st.syms (none, .plain n) with
    | none => exact Or.inl rfl
    | some s =>
      dsimp only
      by_cases h : n' = n
      · subst h
        exact Or.inr ⟨rfl, o, s, rfl, hs, Assoc.get_set_self _ _ _⟩
      · exact Or.inl (Assoc.get_set_ne _ _ (by simp [h]))

theorem ts_le (w : World) (n : String) : ∀ (h : List Stmt) (s : Sym), recorded (run w h) n = some s → s.ts ≤ (run w h).now
  | [], s, hs => by simp [recorded, run] at hs
  | x :: h, s, hs => by
    have ih := ts_le w n h
    have up : ∀ (vars : List (String × Obj)) (n' : String) (o : Obj) (k : Kind),
        recorded ⟨vars, upsert (run w h).syms (none, .plain n') o k false ((run w h).now + 1), (run w h).now + 1⟩ n = some s → s.ts ≤ (run w h).now + 1 := by
      intro vars n' o k hs
      by_cases hn : n = n'
      · subst hn
        rw [recorded_upsert_self] at hs
        injection hs with hs; subst hs; rw [updated_ts]; exact Nat.le_refl _
      · rw [recorded_upsert_ne hn] at hs
        exact Nat.le_succ_of_le (ih s hs)
    by_cases hi : IsImport x
    · rw [now_run w x h hi]
      rw [run, step_import w _ hi] at hs
      cases hb : bound w x with
      | none => rw [hb] at hs; exact Nat.le_succ_of_le (ih s hs)
      | some bs =>
        rw [hb] at hs
        exact elems_ts (fun s hs => Nat.le_succ_of_le (ih s hs)) s hs
    · cases x with
      | assign n' o => exact up _ _ _ _ hs
      | define n' o c => exact up _ _ _ _ hs
      | del n' =>
        have hs : Assoc.get (Assoc.erase (run w h).syms (none, .plain n')) (none, .plain n) = some s := hs
        rw [Assoc.get_erase] at hs
        split at hs
        · cases hs
        · exact Nat.le_succ_of_le (ih s hs)
      | imports _ => exact (hi trivial).elim
      | froms _ _ => exact (hi trivial).elim
      | use o =>
        have hs : recorded (step w (run w h) (.use o)) n = some s := hs
        rw [recorded_use] at hs
        exact Nat.le_succ_of_le (ih s hs)
      | check n' =>
        have hnow : (run w (.check n' :: h)).now = (run w h).now := by
          rw [run]; unfold step; dsimp only
          cases Assoc.get (run w h).vars n' with
          | none => rfl
          | some o => cases Assoc.get (run w h).syms (none, .plain n') <;> rfl
        rw [hnow]
        rcases recorded_check (w := w) (st := run w h) (n := n') (n' := n) with h' | ⟨rfl, o, s', _, h2, h3⟩
        · exact ih s (by rw [← h']; exact hs)
        · rw [run, h3] at hs
          injection hs with hs
          subst hs
          exact ih s' h2

end Verif.Imports
