import Verif.Imports.Keys

/-!
# Imports are recorded for the names they bind, and exported as imports (C161, C162)

`recorded_partial`, `recorded_single`, `dotted_partial` and `kept_partial` say when an import is recorded for exactly the names that it binds; `from_takes_over`, `same_name_lost`,
`dotted_lost` and `other_name` say when it is not. `listed_sound` and `listed_partial` say when exactly the names that were last bound by imports are listed as imports; `never_listed`
and `plain_lost` when they are not. -/

namespace Verif.Imports
open Verif

/-- C161, the names that are bound: after an import each name that it binds has its value and the time of the import, unless it is the first part of `import a.b`, or the same import
later mentions a package of that name. Full claim: for all names. Missing: see `dotted_lost` and `same_name_lost`. -/
theorem recorded_partial (w : World) (h l r : List Stmt) (s x : Stmt) (n : String) (hs : Succeeds w s) (hp : parts s = l ++ x :: r) (hn : n ∈ boundNames x) (hd : ¬ Dotted x)
    (hr : ∀ y ∈ r, ¬ mentioned w y n) : Right (run w (s :: h)) n := by
  have hx : x ∈ parts s := hp ▸ List.mem_append_right _ List.mem_cons_self
  have hi := import_of_parts hx
  obtain ⟨bs, hb⟩ := (bound_iff hi).2 hs
  obtain ⟨e, he, ht⟩ := part_target (w := w) hx hn hd
  have hes : elems w s = l.flatMap (elems w) ++ e :: r.flatMap (elems w) := by
    rw [elems_parts, hp, List.flatMap_append, List.flatMap_cons, he]; rfl
  have hmem : n ∈ bs.map Prod.fst := by
    rw [bound_names hb]
    exact target_bound (w := w) (by rw [hes]; exact List.mem_append_right _ List.mem_cons_self) ht
  obtain ⟨o, ho⟩ := get_bindAll_mem n bs (run w h).vars hmem
  have hfin : ∃ s', recorded (run w (s :: h)) n = some s' ∧ s'.obj = o ∧ s'.ts = (run w h).now + 1 := by
    unfold recorded
    rw [run, step_import w _ hi, hb]
    dsimp only
    rw [hes, List.foldl_append, List.foldl_cons]
    refine elems_right ho ?_ ⟨_, elem_target ht ho, updated_obj .., updated_ts ..⟩
    intro e' he' ht'
    obtain ⟨y, hy, hey⟩ := List.mem_flatMap.1 he'
    exact hr y hy (takes_mentioned hey ht')
  obtain ⟨s', h1, h2, h3⟩ := hfin
  refine ⟨s', o, h1, ?_, h2, ?_⟩
  · rw [run, step_import w _ hi, hb]; exact ho
  · rw [now_run w s h hi, h3]

/-- C161, imports of one name: the name has its value and the time of the import, unless it is the first part of `import a.b`. -/
theorem recorded_single (w : World) (h : List Stmt) (s : Stmt) (n : String) (hs : Succeeds w s) (hp : parts s = [s]) (hn : n ∈ boundNames s) (hd : ¬ Dotted s) :
    Right (run w (s :: h)) n :=
  recorded_partial w h [] [] s s n hs hp hn hd (fun _ hy => by simp at hy)

/-- C161, `import a.b`: if nothing referred to the package and the module has the name that it is imported by, the package is recorded as well. -/
theorem dotted_partial (w : World) (h : List Stmt) (c d : String) (cs : List String) (m o : Obj) (hm : w.sys [c] = some m) (ho : w.sys (c :: d :: cs) = some o)
    (hname : w.name o = c :: d :: cs) (hr : ¬ Referred (run w h) m) : Right (run w (.imports [(c :: d :: cs, none)] :: h)) c := by
  have hi : IsImport (.imports [(c :: d :: cs, none)]) := trivial
  have hb : bound w (.imports [(c :: d :: cs, none)]) = some [(c, m)] := by simp [bound, values, importValue, ho, hm]
  have hk := known_false.2 hr
  have hg : recorded (run w (.imports [(c :: d :: cs, none)] :: h)) c = some (updated (recorded (run w h) c) m .module ((run w h).now + 1)) := by
    unfold recorded
    rw [run, step_import w _ hi, hb]
    simp only [elems, List.map_cons, List.map_nil, List.foldl_cons, List.foldl_nil, elem, ofImport, maybeModule, importedModule, ho, hname, moduleSym, Option.isNone_none]
    rw [if_neg (by simp), if_neg (by simp)]
    exact get_chain_head w _ rfl hm hk
  refine ⟨_, m, hg, ?_, updated_obj .., ?_⟩
  · rw [run, step_import w _ hi, hb]
    exact Assoc.get_set_self _ _ _
  · rw [updated_ts, now_run w _ h hi]

/-- C161, the names that are not bound: what is recorded for a variable stays as it is, unless a package of that name is mentioned. Full claim: for all variables. Missing: see
`from_takes_over`. -/
theorem kept_partial (w : World) (h : List Stmt) (s : Stmt) (n : String) (hi : IsImport s) (hn : n ∉ boundNames s) (hm : ¬ mentioned w s n) :
    recorded (run w (s :: h)) n = recorded (run w h) n := by
  unfold recorded
  rw [run, step_import w _ hi]
  cases hb : bound w s with
  | none => rfl
  | some bs =>
    refine elems_kept fun e he => ⟨fun ht => hn (target_bound he ht), fun ht => hm (takes_mentioned he ht)⟩

/-- C161, imports of one name: what is recorded for the other variables stays as it is, also for those called like a package, if something refers to the package already. -/
theorem kept_known (w : World) (h : List Stmt) (s : Stmt) (n : String) (hp : parts s = [s]) (hn : n ∉ boundNames s) (hm : ∀ m, w.sys [n] = some m → Referred (run w h) m) :
    recorded (run w (s :: h)) n = recorded (run w h) n := by
  have hi : IsImport s := import_of_parts (x := s) (by rw [hp]; exact List.mem_cons_self)
  unfold recorded
  rw [run, step_import w _ hi]
  cases hb : bound w s with
  | none => rfl
  | some bs =>
    dsimp only
    have hes : ∃ e, elems w s = [e] := by
      cases s with
      | imports xs =>
        match xs, hp with
        | [x], _ => exact ⟨_, rfl⟩
      | froms p xs =>
        match xs, hp with
        | [x], _ => exact ⟨_, rfl⟩
      | _ => exact hi.elim
    obtain ⟨e, he⟩ := hes
    rw [he, List.foldl_cons, List.foldl_nil, elem_target_ne (fun ht => hn (target_bound (w := w) (by rw [he]; exact List.mem_cons_self) ht))]
    rcases elem_cases w ((run w h).now + 1) n (run w h).syms e with h' | ⟨_, m, h1, h2, _⟩
    · exact h'
    · exact (known_false.1 h2 (hm m h1)).elim

/-- C161 is violated: `from n import x` is recorded as an update of a variable `n`, with the module as its value, if nothing referred to the module. The variable is not bound, and when
a cell that reads it is checked, its value is corrected but not the time. -/
theorem from_takes_over (w : World) (h : List Stmt) (n x : String) (m : Obj) (hm : w.sys [n] = some m) (hx : w.sys [n, x] = none) (hname : w.name m = [n])
    (hb : n ≠ "builtins") (hb' : n ≠ "__main__") (hs : Succeeds w (.froms [n] [(x, none)])) (hn : x ≠ n) (hr : ¬ Referred (run w h) m) :
    n ∉ boundNames (.froms [n] [(x, none)]) ∧
    Assoc.get (run w (.froms [n] [(x, none)] :: h)).vars n = Assoc.get (run w h).vars n ∧
    (∃ s, recorded (run w (.froms [n] [(x, none)] :: h)) n = some s ∧ s.obj = m ∧ s.ts = (run w (.froms [n] [(x, none)] :: h)).now) ∧
    ∀ v, Assoc.get (run w h).vars n = some v →
      ∃ s, recorded (run w (.check n :: .froms [n] [(x, none)] :: h)) n = some s ∧ s.obj = v ∧ s.ts = (run w (.froms [n] [(x, none)] :: h)).now := by
  have hi : IsImport (.froms [n] [(x, none)]) := trivial
  obtain ⟨bs, hbs⟩ := (bound_iff hi).2 hs
  have hk := known_false.2 hr
  have hnb : n ∉ boundNames (.froms [n] [(x, none)]) := by simpa [boundNames, fromName] using fun h => hn h.symm
  have hg : recorded (run w (.froms [n] [(x, none)] :: h)) n = some (updated (recorded (run w h) n) m .module ((run w h).now + 1)) := by
    unfold recorded
    rw [run, step_import w _ hi, hbs]
    simp only [elems, List.map_cons, List.map_nil, List.foldl_cons, List.foldl_nil]
    rw [elem_target_ne (by simpa [ofFrom] using hn)]
    simp only [ofFrom, fromModule, List.cons_append, List.nil_append, hx, hm, maybeModule, moduleSym, hname, Option.isNone_none]
    rw [if_neg (by simpa using hb), if_neg (by simp [hb, hb'])]
    exact get_chain_head w _ rfl hm hk
  have hv : Assoc.get (run w (.froms [n] [(x, none)] :: h)).vars n = Assoc.get (run w h).vars n := by
    rw [run, step_import w _ hi, hbs]
    exact get_bindAll n bs _ (by rw [bound_names hbs]; exact hnb)
  refine ⟨hnb, hv, ⟨_, hg, updated_obj .., by rw [updated_ts, now_run w _ h hi]⟩, ?_⟩
  intro v hvv
  exact ⟨_, recorded_check_self (by rw [hv, hvv]) hg, rfl, by dsimp only; rw [updated_ts, now_run w _ h hi]⟩

/-- C161 is violated: after `from n import n, x` (such as `from datetime import datetime, timedelta`) the module is recorded as the value of `n`, if nothing referred to it before. -/
theorem same_name_lost (w : World) (h : List Stmt) (n x : String) (m a : Obj) (hm : w.sys [n] = some m) (hn : w.sys [n, n] = none) (hx : w.sys [n, x] = none) (hname : w.name m = [n])
    (hb : n ≠ "builtins") (hb' : n ≠ "__main__") (ha : w.attr m n = some a) (ham : a ≠ m) (hs : Succeeds w (.froms [n] [(n, none), (x, none)])) (hxn : x ≠ n)
    (hr : ¬ Referred (run w h) m) :
    Assoc.get (run w (.froms [n] [(n, none), (x, none)] :: h)).vars n = some a ∧
    ∃ s, recorded (run w (.froms [n] [(n, none), (x, none)] :: h)) n = some s ∧ s.obj = m := by
  have hi : IsImport (.froms [n] [(n, none), (x, none)]) := trivial
  obtain ⟨bs, hbs⟩ := (bound_iff hi).2 hs
  have hk := known_false.2 hr
  have hvar : Assoc.get (bindAll (run w h).vars bs) n = some a := by
    have hbs' := hbs
    obtain ⟨m', hm', hx'⟩ := hs (x, none) (by simp)
    rw [hm] at hm'
    injection hm' with hm'
    subst hm'
    rcases hx' with ⟨o, ho⟩ | ⟨o, ho⟩
    · have : bs = [(n, a), (x, o)] := by
        simp [bound, values, fromValue, hm, ha, ho] at hbs'
        exact hbs'.symm
      subst this
      unfold bindAll
      simp only [List.foldl_cons, List.foldl_nil]
      rw [Assoc.get_set_ne _ _ (fun h => hxn h.symm), Assoc.get_set_self]
    · have ho : w.sys [n, x] = some o := ho
      rw [hx] at ho; cases ho
  refine ⟨by rw [run, step_import w _ hi, hbs]; exact hvar, ?_⟩
  have hmod : ∀ syms, maybeModule w true ((run w h).now + 1) (some m) syms = chain w true false ((run w h).now + 1) [] true [n] none syms := by
    intro syms
    simp only [maybeModule, moduleSym, hname]
    rw [if_neg (by simpa using hb), if_neg (by simp [hb, hb'])]
  have hg : recorded (run w (.froms [n] [(n, none), (x, none)] :: h)) n
      = some (updated (Assoc.get (upsert (upsert (run w h).syms (none, .plain n) m .module false ((run w h).now + 1)) (none, .plain n) a .import false ((run w h).now + 1)) (none, .plain n))
          m .module ((run w h).now + 1)) := by
    unfold recorded
    rw [run, step_import w _ hi, hbs]
    simp only [elems, List.map_cons, List.map_nil, List.foldl_cons, List.foldl_nil]
    rw [elem_target_ne (by simpa [ofFrom] using hxn)]
    have hfirst : elem w (bindAll (run w h).vars bs) ((run w h).now + 1) (run w h).syms (ofFrom w [n] (n, none))
        = upsert (upsert (run w h).syms (none, .plain n) m .module false ((run w h).now + 1)) (none, .plain n) a .import false ((run w h).now + 1) := by
      simp only [elem, ofFrom, fromModule, List.cons_append, List.nil_append, hn, hm, Option.getD_none, Option.isNone_none, hmod, bindName, hvar]
      simp only [chain, List.nil_append, hm, hk]
      rfl
    rw [hfirst]
    simp only [ofFrom, fromModule, List.cons_append, List.nil_append, hx, hm, Option.isNone_none, hmod]
    refine get_chain_head w _ rfl hm (known_upsert (nodup_upsert (nodup_run w h) _ _ _ _ _) ham ?_)
    intro k' s hk' hs' hobj
    rw [get_upsert_ne _ _ _ _ _ hk'] at hs'
    exact hr ⟨k', s, Assoc.mem_of_get hs', hobj⟩
  exact ⟨_, hg, updated_obj ..⟩

/-- C161 is violated: `import c.d` is not recorded for `c`, which it binds, if anything refers to the package. -/
theorem dotted_lost (w : World) (h : List Stmt) (c d : String) (cs : List String) (m : Obj) (hm : w.sys [c] = some m) (hr : Referred (run w h) m) :
    c ∈ boundNames (.imports [(c :: d :: cs, none)]) ∧ recorded (run w (.imports [(c :: d :: cs, none)] :: h)) c = recorded (run w h) c ∧
    ¬ Right (run w (.imports [(c :: d :: cs, none)] :: h)) c := by
  have hi : IsImport (.imports [(c :: d :: cs, none)]) := trivial
  have hg : recorded (run w (.imports [(c :: d :: cs, none)] :: h)) c = recorded (run w h) c := by
    unfold recorded
    rw [run, step_import w _ hi]
    cases hb : bound w (.imports [(c :: d :: cs, none)]) with
    | none => rfl
    | some bs =>
      simp only [elems, List.map_cons, List.map_nil, List.foldl_cons, List.foldl_nil]
      rw [elem_target_ne (by simp [ofImport])]
      rcases elem_cases w ((run w h).now + 1) c (run w h).syms (ofImport w (c :: d :: cs, none)) with h' | ⟨_, m', h1, h2, _⟩
      · exact h'
      · rw [hm] at h1
        injection h1 with h1
        subst h1
        exact (known_false.1 h2 hr).elim
  refine ⟨by simp [boundNames, importName], hg, ?_⟩
  rintro ⟨s, o, h1, _, _, h4⟩
  rw [hg] at h1
  have := ts_le w c h s h1
  rw [now_run w _ h hi] at h4
  omega

/-- C161 is violated: if the module that `import c.d` finds has another name (such as `posixpath` for `os.path`), a variable of that name is recorded as updated, although it is not
bound. -/
theorem other_name (w : World) (h : List Stmt) (c d k : String) (m o : Obj) (hm : w.sys [c] = some m) (ho : w.sys [c, d] = some o) (hname : w.name o = [k]) (hk : w.sys [k] = some o)
    (hb : k ≠ "builtins") (hb' : k ≠ "__main__") (hkc : k ≠ c) (hr : ¬ Referred (run w h) o) :
    k ∉ boundNames (.imports [([c, d], none)]) ∧
    ∃ s, recorded (run w (.imports [([c, d], none)] :: h)) k = some s ∧ s.obj = o ∧ s.ts = (run w (.imports [([c, d], none)] :: h)).now := by
  have hi : IsImport (.imports [([c, d], none)]) := trivial
  have hbs : bound w (.imports [([c, d], none)]) = some [(c, m)] := by simp [bound, values, importValue, ho, hm]
  refine ⟨by simpa [boundNames, importName] using hkc, ?_⟩
  have hg : recorded (run w (.imports [([c, d], none)] :: h)) k = some (updated (recorded (run w h) k) o .module ((run w h).now + 1)) := by
    unfold recorded
    rw [run, step_import w _ hi, hbs]
    simp only [elems, List.map_cons, List.map_nil, List.foldl_cons, List.foldl_nil, elem, ofImport, maybeModule, importedModule, ho, hname, moduleSym, Option.isNone_none]
    rw [if_neg (by simpa using hb), if_neg (by simp [hb, hb'])]
    exact get_chain_head w _ rfl hk (known_false.2 hr)
  exact ⟨_, hg, updated_obj .., by rw [updated_ts, now_run w _ h hi]⟩

/-- C162, soundness: a variable that is listed as an import was last bound by an import. -/
theorem listed_sound (w : World) (n : String) : ∀ h : List Stmt, listed (run w h) n = true → LastImport w n h
  | [], hl => by simp [listed, recorded, run] at hl
  | s :: h, hl => by
    have ih := listed_sound w n h
    have back : ¬ Changes w s n → listed (run w h) n = true → LastImport w n (s :: h) := fun h1 h2 => .later h1 (ih h2)
    have hl' : ∃ y, recorded (run w (s :: h)) n = some y ∧ y.kind = .import := by
      unfold listed at hl
      cases hr : recorded (run w (s :: h)) n with
      | none => rw [hr] at hl; cases hl
      | some y => rw [hr] at hl; exact ⟨y, rfl, by simpa using hl⟩
    obtain ⟨y, hy, hk⟩ := hl'
    have pos : ∀ y', recorded (run w h) n = some y' → y'.kind = .import → listed (run w h) n = true := by
      intro y' h1 h2; unfold listed; rw [h1]; simpa using h2
    have up : ∀ (vars : List (String × Obj)) (n' : String) (o : Obj) (k : Kind), k ≠ .import →
        recorded ⟨vars, upsert (run w h).syms (none, .plain n') o k false ((run w h).now + 1), (run w h).now + 1⟩ n = some y → n ≠ n' ∧ listed (run w h) n = true := by
      intro vars n' o k hk' hs
      by_cases hn : n = n'
      · subst hn
        rw [recorded_upsert_self] at hs
        injection hs with hs; subst hs
        exfalso
        cases hr : recorded (run w h) n with
        | none => rw [hr] at hk; exact hk' hk
        | some y' =>
          rw [hr] at hk
          simp only [updated, newKind] at hk
          split at hk
          · exact hk' hk
          · rename_i hc
            rw [hk] at hc
            exact hc ⟨by simp, hk'⟩
      · rw [recorded_upsert_ne hn] at hs
        exact ⟨hn, pos y hs hk⟩
    by_cases hi : IsImport s
    · by_cases hbd : n ∈ boundNames s
      · by_cases hs : Succeeds w s
        · exact .here hi hbd hs
        · refine back ?_ ?_
          · rintro (⟨_, h2⟩ | h2)
            · exact hs h2
            · subst h2; exact hi
          · unfold recorded at hy
            rw [run, step_import w _ hi] at hy
            cases hb : bound w s with
            | none => rw [hb] at hy; exact pos y hy hk
            | some bs => exact (hs ((bound_iff hi).1 ⟨bs, hb⟩)).elim
      · refine back ?_ ?_
        · rintro (⟨h2, _⟩ | h2)
          · exact hbd h2
          · subst h2; exact hi
        · unfold recorded at hy
          rw [run, step_import w _ hi] at hy
          cases hb : bound w s with
          | none => rw [hb] at hy; exact pos y hy hk
          | some bs =>
            rw [hb] at hy
            obtain ⟨y', h1, h2⟩ := elems_kind (fun e he ht => hbd (target_bound he ht)) hy hk
            exact pos y' h1 h2
    · cases s with
      | assign n' o =>
        obtain ⟨h1, h2⟩ := up _ _ _ _ (by unfold assignKind; split <;> simp) hy
        exact back (by rintro (⟨h3, _⟩ | h3) <;> simp [boundNames, h1] at h3) h2
      | define n' o c =>
        obtain ⟨h1, h2⟩ := up _ _ _ _ (by split <;> simp) hy
        exact back (by rintro (⟨h3, _⟩ | h3) <;> simp [boundNames, h1] at h3) h2
      | del n' =>
        have hy : Assoc.get (Assoc.erase (run w h).syms (none, .plain n')) (none, .plain n) = some y := hy
        rw [Assoc.get_erase] at hy
        split at hy
        · cases hy
        · rename_i hne
          refine back ?_ (pos y hy hk)
          rintro (⟨h3, _⟩ | h3)
          · simp [boundNames] at h3
          · injection h3 with h3; subst h3; exact hne rfl
      | imports _ => exact (hi trivial).elim
      | froms _ _ => exact (hi trivial).elim
      | use o =>
        refine back (by rintro (⟨h3, _⟩ | h3) <;> simp [boundNames] at h3) (pos y ?_ hk)
        rw [← hy]; exact recorded_use.symm
      | check n' =>
        refine back (by rintro (⟨h3, _⟩ | h3) <;> simp [boundNames] at h3) ?_
        rcases recorded_check (w := w) (st := run w h) (n := n') (n' := n) with h' | ⟨rfl, o, s', _, h2, h3⟩
        · exact pos y (by rw [← h']; exact hy) hk
        · rw [run, h3] at hy
          injection hy with hy
          subst hy
          exact pos s' h2 hk

theorem listed_iff {st : St} {n : String} : listed st n = true ↔ ∃ y, recorded st n = some y ∧ y.kind = .import := by
  unfold listed
  cases recorded st n with
  | none => simp
  | some y => simp

/-- Statements other than imports, deletions of the variable and bindings of it leave what is recorded, apart from the value. -/
theorem recorded_other {w : World} {h : List Stmt} {s : Stmt} {n : String} (hi : ¬ IsImport s) (hb : n ∉ boundNames s) (hd : s ≠ .del n) :
    recorded (run w (s :: h)) n = recorded (run w h) n ∨ ∃ o y, recorded (run w h) n = some y ∧ recorded (run w (s :: h)) n = some { y with obj := o } := by
  cases s with
  | assign n' o => exact Or.inl (recorded_upsert_ne (by simpa [boundNames] using hb))
  | define n' o c => exact Or.inl (recorded_upsert_ne (by simpa [boundNames] using hb))
  | del n' =>
    refine Or.inl ?_
    show Assoc.get (Assoc.erase (run w h).syms (none, .plain n')) (none, .plain n) = _
    rw [Assoc.get_erase, if_neg]
    · rfl
    · intro h'
      injection h' with _ h'
      injection h' with h'
      exact hd (by rw [h'])
  | imports _ => exact (hi trivial).elim
  | froms _ _ => exact (hi trivial).elim
  | use o => exact Or.inl recorded_use
  | check n' =>
    rcases recorded_check (w := w) (st := run w h) (n := n') (n' := n) with h' | ⟨rfl, o, y, _, h2, h3⟩
    · exact Or.inl h'
    · exact Or.inr ⟨o, y, h2, h3⟩

/-- C162: a variable that is only bound by imports, never as the first part of `import a.b`, and in whose name no package is imported without `as`, is listed as an import if and only if
it was last bound by an import, that is, unless it was deleted since. Full claim: for all variables. Missing: see `never_listed`, `assigned_lost` and `plain_lost`. -/
theorem listed_partial (w : World) (n : String) (h : List Stmt)
    (hh : ∀ s ∈ h, (n ∈ boundNames s → IsImport s) ∧ ¬ mentioned w s n ∧ ∀ x ∈ parts s, Dotted x → n ∉ boundNames x) :
    listed (run w h) n = true ↔ LastImport w n h := by
  refine ⟨listed_sound w n h, fun hl => ?_⟩
  have main : (∀ y, recorded (run w h) n = some y → y.kind = .import) ∧ (LastImport w n h → ∃ y, recorded (run w h) n = some y) := by
    clear hl
    induction h with
    | nil => exact ⟨fun y hy => (by simp [recorded, run] at hy), fun h => (by cases h)⟩
    | cons s h ih =>
      obtain ⟨ih1, ih2⟩ := ih fun s' hs' => hh s' (List.mem_cons_of_mem _ hs')
      obtain ⟨hb, hm, hd⟩ := hh s List.mem_cons_self
      by_cases hn : n ∈ boundNames s
      · have hi := hb hn
        cases hbs : bound w s with
        | none =>
          have hrun : recorded (run w (s :: h)) n = recorded (run w h) n := by
            unfold recorded; rw [run, step_import w _ hi, hbs]
          refine ⟨by rw [hrun]; exact ih1, fun hl => ?_⟩
          rw [hrun]
          cases hl with
          | here _ _ hs =>
            obtain ⟨bs, hb'⟩ := (bound_iff hi).2 hs
            rw [hbs] at hb'; cases hb'
          | later _ hl => exact ih2 hl
        | some bs =>
          obtain ⟨o, ho⟩ := get_bindAll_mem n bs (run w h).vars (by rw [bound_names hbs]; exact hn)
          have hrun : recorded (run w (s :: h)) n = Assoc.get ((elems w s).foldl (elem w (bindAll (run w h).vars bs) ((run w h).now + 1)) (run w h).syms) (none, .plain n) := by
            unfold recorded; rw [run, step_import w _ hi, hbs]
          obtain ⟨h1, h2⟩ := elems_import (w := w) (now := (run w h).now + 1) ho (es := elems w s) (syms := (run w h).syms) (fun e he ht => hm (takes_mentioned he ht)) ih1
          rw [hrun]
          refine ⟨h1, fun _ => h2 (Or.inl ?_)⟩
          obtain ⟨x, hx, hxn⟩ := part_bound hi hn
          obtain ⟨e, he, ht⟩ := part_target (w := w) hx hxn (fun hd' => hd x hx hd' hxn)
          exact ⟨e, by rw [elems_parts]; exact List.mem_flatMap.2 ⟨x, hx, by rw [he]; exact List.mem_cons_self⟩, ht⟩
      · by_cases hi : IsImport s
        · have hrun := kept_partial w h s n hi hn hm
          rw [hrun]
          refine ⟨ih1, fun hl => ?_⟩
          cases hl with
          | here _ hn' _ => exact (hn hn').elim
          | later _ hl => exact ih2 hl
        · by_cases hdel : s = .del n
          · subst hdel
            have hrun : recorded (run w (.del n :: h)) n = none := by
              show Assoc.get (Assoc.erase (run w h).syms (none, .plain n)) (none, .plain n) = none
              rw [Assoc.get_erase, if_pos rfl]
            rw [hrun]
            refine ⟨fun y hy => (by cases hy), fun hl => ?_⟩
            cases hl with
            | here h' _ _ => exact (hi h').elim
            | later h' _ => exact (h' (Or.inr rfl)).elim
          · have hl2 : LastImport w n (s :: h) → LastImport w n h := by
              intro hl
              cases hl with
              | here h' _ _ => exact (hi h').elim
              | later _ hl => exact hl
            rcases recorded_other (w := w) (h := h) hi hn hdel with hrun | ⟨o, y, h1, hrun⟩
            · rw [hrun]; exact ⟨ih1, fun hl => ih2 (hl2 hl)⟩
            · rw [hrun]
              exact ⟨fun y' hy' => (by injection hy' with hy'; rw [← hy']; exact ih1 y h1), fun _ => ⟨_, rfl⟩⟩
  obtain ⟨y, hy⟩ := main.2 hl
  exact listed_iff.2 ⟨y, hy, main.1 y hy⟩

/-- C162 is violated: once a variable is known but not listed as an import, it never is, whatever imports follow, until it is deleted. -/
theorem never_listed (w : World) (n : String) (h : List Stmt) (y : Sym) (hy : recorded (run w h) n = some y) (hl : listed (run w h) n = false) :
    ∀ l : List Stmt, .del n ∉ l → listed (run w (l ++ h)) n = false := by
  have hk : y.kind ≠ .import := fun hk => by rw [listed_iff.2 ⟨y, hy, hk⟩] at hl; cases hl
  have main : ∀ l : List Stmt, .del n ∉ l → ∃ y, recorded (run w (l ++ h)) n = some y ∧ y.kind ≠ .import := by
    intro l hd
    induction l with
    | nil => exact ⟨y, hy, hk⟩
    | cons s l ih =>
      simp only [List.mem_cons, not_or] at hd
      obtain ⟨y', h1, h2⟩ := ih hd.2
      rw [List.cons_append]
      have up : ∀ (vars : List (String × Obj)) (n' : String) (o : Obj) (k : Kind), k ≠ .import → ∃ z, recorded
          ⟨vars, upsert (run w (l ++ h)).syms (none, .plain n') o k false ((run w (l ++ h)).now + 1), (run w (l ++ h)).now + 1⟩ n = some z ∧ z.kind ≠ .import := by
        intro vars n' o k hk'
        by_cases hn : n = n'
        · subst hn
          refine ⟨_, recorded_upsert_self, ?_⟩
          rw [h1]
          simp only [updated, newKind]
          split
          · exact hk'
          · exact h2
        · exact ⟨y', by rw [recorded_upsert_ne hn, h1], h2⟩
      by_cases hi : IsImport s
      · unfold recorded
        rw [run, step_import w _ hi]
        cases bound w s with
        | none => exact ⟨y', h1, h2⟩
        | some bs => exact elems_not ⟨y', h1, h2⟩
      · by_cases hb : n ∈ boundNames s
        · cases s with
          | assign n' o => exact up _ _ _ _ (by unfold assignKind; split <;> simp)
          | define n' o c => exact up _ _ _ _ (by split <;> simp)
          | del n' => simp [boundNames] at hb
          | imports _ => exact (hi trivial).elim
          | froms _ _ => exact (hi trivial).elim
          | use o => simp [boundNames] at hb
          | check n' => simp [boundNames] at hb
        · rcases recorded_other (w := w) (h := l ++ h) hi hb (fun h' => hd.1 h'.symm) with hrun | ⟨o, z, h3, hrun⟩
          · exact ⟨y', by rw [hrun, h1], h2⟩
          · rw [h1] at h3
            injection h3 with h3
            subst h3
            exact ⟨_, hrun, h2⟩
  intro l hd
  obtain ⟨z, h1, h2⟩ := main l hd
  cases hb : listed (run w (l ++ h)) n with
  | false => rfl
  | true =>
    obtain ⟨z', h3, h4⟩ := listed_iff.1 hb
    rw [h1] at h3
    injection h3 with h3
    subst h3
    exact (h2 h4).elim

/-- C162 is violated: a variable that was assigned is never listed as an import afterwards, whatever imports follow, until it is deleted. -/
theorem assigned_lost (w : World) (n : String) (o : Obj) (h l : List Stmt) (hl : .del n ∉ l) : listed (run w (l ++ .assign n o :: h)) n = false := by
  have hg : recorded (run w (.assign n o :: h)) n = some (updated (recorded (run w h) n) o (assignKind w o) ((run w h).now + 1)) := recorded_upsert_self
  refine never_listed w n _ _ hg ?_ l hl
  cases hb : listed (run w (.assign n o :: h)) n with
  | false => rfl
  | true =>
    have := listed_sound w n _ hb
    cases this with
    | here hi _ _ => exact hi.elim
    | later hc _ => exact (hc (Or.inl ⟨by simp [boundNames], trivial⟩)).elim

/-- C162 is violated: if nothing referred to a module before `import c`, then `c` is not listed as an import afterwards, whatever imports follow, until it is deleted. -/
theorem plain_lost (w : World) (c : String) (m : Obj) (h l : List Stmt) (hm : w.sys [c] = some m) (hname : w.name m = [c]) (hb : c ≠ "builtins") (hb' : c ≠ "__main__")
    (hr : ¬ Referred (run w h) m) (hl : .del c ∉ l) : LastImport w c (.imports [([c], none)] :: h) ∧ listed (run w (l ++ .imports [([c], none)] :: h)) c = false := by
  have hi : IsImport (.imports [([c], none)]) := trivial
  have hs : Succeeds w (.imports [([c], none)]) := by
    intro x hx
    simp only [List.mem_singleton] at hx
    subst hx
    exact ⟨by simp, ⟨m, hm⟩, fun _ c' hc' => by simp at hc'; subst hc'; exact ⟨m, hm⟩⟩
  refine ⟨.here hi (by simp [boundNames, importName]) hs, ?_⟩
  have hbs : bound w (.imports [([c], none)]) = some [(c, m)] := by simp [bound, values, importValue, hm]
  have hv : Assoc.get (bindAll (run w h).vars [(c, m)]) c = some m := Assoc.get_set_self _ _ _
  have hg : ∃ y, recorded (run w (.imports [([c], none)] :: h)) c = some y ∧ y.kind ≠ .import := by
    unfold recorded
    rw [run, step_import w _ hi, hbs]
    simp only [elems, List.map_cons, List.map_nil, List.foldl_cons, List.foldl_nil]
    refine ⟨_, elem_target (by simp [ofImport]) hv, ?_⟩
    have hmm : Assoc.get (maybeModule w (ofImport w ([c], none)).named ((run w h).now + 1) (ofImport w ([c], none)).mod (run w h).syms) (none, .plain c)
        = some (updated (recorded (run w h) c) m .module ((run w h).now + 1)) := by
      simp only [ofImport, importedModule, hm, maybeModule, moduleSym, hname, Option.isNone_none]
      rw [if_neg (by simpa using hb), if_neg (by simp [hb, hb'])]
      exact get_chain_head w _ rfl hm (known_false.2 hr)
    rw [hmm]
    refine updated_ne ?_ (Or.inl rfl)
    cases recorded (run w h) c with
    | none => simp [updated]
    | some y =>
      simp only [updated, newKind]
      split
      · simp
      · rename_i hc
        intro h'
        exact hc ⟨by rw [h']; simp, by simp⟩
  obtain ⟨y, hy, hk⟩ := hg
  refine never_listed w c _ y hy ?_ l hl
  cases hb : listed (run w (.imports [([c], none)] :: h)) c with
  | false => rfl
  | true =>
    obtain ⟨z', h3, h4⟩ := listed_iff.1 hb
    rw [hy] at h3
    injection h3 with h3
    subst h3
    exact (hk h4).elim

end Verif.Imports
