import Verif.Addons.Spec

/-!
# Transformers of users, proofs
-/

namespace Verif.Addons

open Spec

theorem users_append (a b : List T) : users (a ++ b) = users a ++ users b := by
  induction a with
  | nil => rfl
  | cons x a ih => cases x <;> simp [users, ih]

theorem users_user (l : List Nat) : users (l.map .user) = l := by
  induction l with
  | nil => rfl
  | cons x a ih => simp [users, ih]

theorem users_own (l : List Nat) : users (l.map .own) = [] := by
  induction l with
  | nil => rfl
  | cons x a ih => simp [users, ih]

theorem erase_user (l : List Nat) (n : Nat) : (l.map T.user).erase (.user n) = (l.erase n).map .user := by
  induction l with
  | nil => rfl
  | cons x a ih =>
    by_cases h : x = n
    · subst h; simp
    · rw [List.map_cons, List.erase_cons_tail (by simpa using h), List.erase_cons_tail (by simpa using h), ih, List.map_cons]

theorem mem_user (l : List Nat) (n : Nat) : T.user n ∈ l.map T.user ↔ n ∈ l := by simp

/-- The state agrees with the one without ipyflow, except for ipyflow's own transformers in the lists that are wrapped. -/
structure Agree (wr : Which → Bool) (s : St) (p : Plain) : Prop where
  same : ∀ w, users (s.get w) = p.lists w
  clean : ∀ w, wr w = false → s.get w = (p.lists w).map .user
  loaded : s.loaded = p.loaded
  log : s.log.map (fun x => (users x.1, users x.2)) = p.seen

theorem get_set (s : St) (w v : Which) (l : List T) : (s.set w l).get v = if v = w then l else s.get v := by
  cases w <;> cases v <;> rfl

theorem agree_put {wr : Which → Bool} {s : St} {p : Plain} (h : Agree wr s p) (w : Which) (l : List Nat) :
    Agree wr (s.set w (l.map .user)) (p.put w l) where
  same v := by
    rw [get_set, Plain.put]
    by_cases hv : v = w <;> simp [hv, users_user, h.same]
  clean v q := by
    rw [get_set, Plain.put]
    by_cases hv : v = w <;> simp [hv]
    exact h.clean v q
  loaded := by cases w <;> exact h.loaded
  log := by cases w <;> exact h.log

theorem agree_enter {wr : Which → Bool} {s : St} {p : Plain} (h : Agree wr s p) (m : Mode) :
    Agree (fun w => wr w || Mode.wraps m w) (note (enter s m)) { p with seen := p.seen ++ [(p.lists .post, p.lists .ast)] } := by
  have hs : ∀ w, users ((enter s m).get w) = p.lists w := by
    intro w
    have := h.same w
    cases m <;> cases w <;> simp_all [enter, St.get, users_append, users_own, users]
  refine ⟨?_, ?_, ?_, ?_⟩
  · intro w
    have := hs w
    cases w <;> exact this
  · intro w q
    have q' : wr w = false ∧ Mode.wraps m w = false := by simpa using q
    have := h.clean w q'.1
    cases m <;> cases w <;> simp_all [enter, note, St.get, Mode.wraps]
  · have := h.loaded
    cases m <;> simpa [enter, note] using this
  · have hl : (enter s m).log = s.log := by cases m <;> rfl
    have h1 := hs .post
    have h2 := hs .ast
    simp only [note, List.map_append, hl, h.log, List.map_cons, List.map_nil]
    simp only [St.get] at h1 h2
    rw [h1, h2]

/-- The lists that are wrapped are not changed by code that stays outside. -/
theorem plain_wrapped : ∀ (c : Code) (wr : Which → Bool) (p : Plain), Outside wr c → ∀ w, wr w = true → (plain c p).lists w = p.lists w
  | .done, _, _, _, _, _ => rfl
  | .fail, _, _, _, _, _ => rfl
  | .add v n rest, wr, p, ho, w, hw => by
    have hv : w ≠ v := fun h => by rw [h, ho.1] at hw; cases hw
    rw [plain, plain_wrapped rest wr _ ho.2 w hw]
    simp [Plain.put, hv]
  | .remove v n rest, wr, p, ho, w, hw => by
    have hv : w ≠ v := fun h => by rw [h, ho.1] at hw; cases hw
    rw [plain]
    by_cases hm : n ∈ p.lists v
    · rw [if_pos hm, plain_wrapped rest wr _ ho.2 w hw]
      simp [Plain.put, hv]
    · rw [if_neg hm]
  | .assign v ns rest, wr, p, ho, w, hw => by
    have hv : w ≠ v := fun h => by rw [h, ho.1] at hw; cases hw
    rw [plain, plain_wrapped rest wr _ ho.2 w hw]
    simp [Plain.put, hv]
  | .load e v ns rest, wr, p, ho, w, hw => by
    have hv : w ≠ v := fun h => by rw [h, ho.1] at hw; cases hw
    rw [plain]
    by_cases hm : e ∈ p.loaded
    · rw [if_pos hm, plain_wrapped rest wr _ ho.2 w hw]
    · rw [if_neg hm, plain_wrapped rest wr _ ho.2 w hw]
      simp [Plain.put, hv]
  | .run m body rest, wr, p, ho, w, hw => by
    rw [plain, plain_wrapped rest wr _ ho.2 w hw, plain_wrapped body _ _ ho.1 w (by simp [hw])]

theorem agree_leave {wr : Which → Bool} {old s : St} {p q : Plain} (m : Mode) (h0 : Agree wr old p) (h : Agree (fun w => wr w || Mode.wraps m w) s q)
    (hq : ∀ w, (wr w || Mode.wraps m w) = true → q.lists w = p.lists w) : Agree wr (leave old s m) q := by
  refine ⟨?_, ?_, ?_, ?_⟩
  · intro w
    have a := h.same w
    have b := h0.same w
    have c := hq w
    cases m <;> cases w <;> simp_all [leave, St.get, Mode.wraps]
  · intro w hw
    have a := h.clean w
    have b := h0.clean w hw
    have c := hq w
    cases m <;> cases w <;> simp_all [leave, St.get, Mode.wraps]
  · have := h.loaded
    cases m <;> exact this
  · have := h.log
    cases m <;> exact this

theorem agree_exec : ∀ (c : Code) (wr : Which → Bool) (s : St) (p : Plain), Outside wr c → Agree wr s p → Agree wr (exec c s) (plain c p)
  | .done, _, _, _, _, h => h
  | .fail, _, _, _, _, h => h
  | .add w n rest, wr, s, p, ho, h => by
    rw [exec, plain]
    have := agree_put h w (p.lists w ++ [n])
    rw [List.map_append, ← h.clean w ho.1] at this
    exact agree_exec rest wr _ _ ho.2 this
  | .remove w n rest, wr, s, p, ho, h => by
    rw [exec, plain]
    have hg := h.clean w ho.1
    by_cases hm : n ∈ p.lists w
    · have hm' : T.user n ∈ s.get w := by rw [hg]; exact (mem_user _ _).mpr hm
      rw [if_pos hm, if_pos hm', hg, erase_user]
      exact agree_exec rest wr _ _ ho.2 (agree_put h w _)
    · have hm' : T.user n ∉ s.get w := by rw [hg]; exact fun q => hm ((mem_user _ _).mp q)
      rw [if_neg hm, if_neg hm']
      exact h
  | .assign w ns rest, wr, s, p, ho, h => by
    rw [exec, plain]
    exact agree_exec rest wr _ _ ho.2 (agree_put h w ns)
  | .load e w ns rest, wr, s, p, ho, h => by
    rw [exec, plain, h.loaded]
    by_cases hm : e ∈ p.loaded
    · rw [if_pos hm, if_pos hm]
      exact agree_exec rest wr _ _ ho.2 h
    · rw [if_neg hm, if_neg hm]
      have a := agree_put h w (p.lists w ++ ns)
      rw [List.map_append, ← h.clean w ho.1] at a
      exact agree_exec rest wr _ _ ho.2 ⟨fun v => by have := a.same v; cases v <;> exact this, fun v q => by have := a.clean v q; cases v <;> exact this, rfl, a.log⟩
  | .run m body rest, wr, s, p, ho, h => by
    rw [exec, plain]
    refine agree_exec rest wr _ _ ho.2 (agree_leave m h (agree_exec body _ _ _ ho.1 (agree_enter h m)) ?_)
    intro w hw
    rw [plain_wrapped body _ _ ho.1 w hw]

theorem agree_session : ∀ (cells : List (Mode × Code)) (s : St) (p : Plain), (∀ x ∈ cells, Outside (Mode.wraps x.1) x.2) → Agree (fun _ => false) s p →
    Agree (fun _ => false) (session cells s) (plainSession cells p)
  | [], _, _, _, h => h
  | (m, c) :: cs, s, p, ho, h => by
    rw [session, plainSession]
    refine agree_session cs _ _ (fun x hx => ho x (List.mem_cons_of_mem _ hx)) (agree_exec _ _ _ _ ⟨?_, trivial⟩ h)
    simpa using ho (m, c) (by simp)

theorem agree_start (post ast : List Nat) : Agree (fun _ => false) (start post ast) (plainStart post ast) where
  same w := by cases w <;> exact users_user _
  clean w _ := by cases w <;> rfl
  loaded := rfl
  log := rfl

/-- **C185, where it holds**: if the cells change the lists only in runs during which ipyflow has nothing of its own there, the lists are at the end as without ipyflow,
and the code of each run went through the same transformers of the user. Missing: changes during runs that are traced, see `traced_undone`. -/
theorem kept_partial (cells : List (Mode × Code)) (post ast : List Nat) (ho : ∀ x ∈ cells, Outside (Mode.wraps x.1) x.2) :
    (session cells (start post ast)).post = ((plainSession cells (plainStart post ast)).lists .post).map .user ∧
    (session cells (start post ast)).ast = ((plainSession cells (plainStart post ast)).lists .ast).map .user ∧
    (session cells (start post ast)).log.map (fun x => (users x.1, users x.2)) = (plainSession cells (plainStart post ast)).seen := by
  have h := agree_session cells _ _ ho (agree_start post ast)
  exact ⟨h.clean .post rfl, h.clean .ast rfl, h.log⟩

theorem exec_log : ∀ (c : Code) (s : St), ∃ l, (exec c s).log = s.log ++ l
  | .done, s => ⟨[], by simp [exec]⟩
  | .fail, s => ⟨[], by simp [exec]⟩
  | .add w n rest, s => by
    obtain ⟨l, h⟩ := exec_log rest (s.set w (s.get w ++ [.user n]))
    exact ⟨l, by rw [exec, h]; cases w <;> rfl⟩
  | .remove w n rest, s => by
    rw [exec]
    by_cases hm : T.user n ∈ s.get w
    · rw [if_pos hm]
      obtain ⟨l, h⟩ := exec_log rest (s.set w ((s.get w).erase (.user n)))
      exact ⟨l, by rw [h]; cases w <;> rfl⟩
    · rw [if_neg hm]; exact ⟨[], by simp⟩
  | .assign w ns rest, s => by
    obtain ⟨l, h⟩ := exec_log rest (s.set w (ns.map .user))
    exact ⟨l, by rw [exec, h]; cases w <;> rfl⟩
  | .load e w ns rest, s => by
    rw [exec]
    by_cases hm : e ∈ s.loaded
    · rw [if_pos hm]; exact exec_log rest s
    · rw [if_neg hm]
      obtain ⟨l, h⟩ := exec_log rest { s.set w (s.get w ++ ns.map .user) with loaded := s.loaded ++ [e] }
      exact ⟨l, by rw [h]; cases w <;> rfl⟩
  | .run m body rest, s => by
    rw [exec]
    obtain ⟨l, h⟩ := exec_log rest (leave s (exec body (note (enter s m))) m)
    obtain ⟨l', h'⟩ := exec_log body (note (enter s m))
    refine ⟨[((enter s m).post, (enter s m).ast)] ++ l' ++ l, ?_⟩
    have e1 : (leave s (exec body (note (enter s m))) m).log = (exec body (note (enter s m))).log := by cases m <;> rfl
    have e2 : (note (enter s m)).log = s.log ++ [((enter s m).post, (enter s m).ast)] := by cases m <;> rfl
    rw [h, e1, h', e2]
    simp

/-- **C185, violated**: whatever the code of traced cells does to the lists, after the cells both are as before them; with syntax transforms only, the first one is. -/
theorem traced_undone (cells : List (Mode × Code)) (s : St) (w : Which) (hc : ∀ x ∈ cells, Mode.wraps x.1 w = true) :
    (session cells s).get w = s.get w := by
  induction cells generalizing s with
  | nil => rfl
  | cons x cs ih =>
    rw [session, ih _ (fun y hy => hc y (List.mem_cons_of_mem _ hy))]
    have := hc x (by simp)
    obtain ⟨m, c⟩ := x
    cases m <;> cases w <;> simp_all [Mode.wraps, exec, leave, St.get]

/-- The code of each cell goes through what is in the lists before the cell, followed by ipyflow's own. -/
theorem goes_through (c : Code) (s : St) (own : List Nat) (k : Nat) :
    (∃ l, (session [(.full own k, c)] s).log = s.log ++ (s.post ++ own.map .own, s.ast ++ [.own k]) :: l) ∧
    (∃ l, (session [(.text own, c)] s).log = s.log ++ (s.post ++ own.map .own, s.ast) :: l) ∧
    (∃ l, (session [(.bare, c)] s).log = s.log ++ (s.post, s.ast) :: l) := by
  refine ⟨?_, ?_, ?_⟩
  · obtain ⟨l, h⟩ := exec_log c (note (enter s (.full own k)))
    exact ⟨l, by simpa [session, exec, leave, note, enter] using h⟩
  · obtain ⟨l, h⟩ := exec_log c (note (enter s (.text own)))
    exact ⟨l, by simpa [session, exec, leave, note, enter] using h⟩
  · obtain ⟨l, h⟩ := exec_log c (note (enter s .bare))
    exact ⟨l, by simpa [session, exec, leave, note, enter] using h⟩

/-- Nothing of ipyflow's own in a list. -/
def NoOwn (l : List T) : Prop := ∀ k, T.own k ∉ l

theorem own_bare : ∀ (c : Code) (s : St), (∀ w, NoOwn (s.get w)) → ∀ w, NoOwn ((exec c s).get w)
  | .done, _, h => h
  | .fail, _, h => h
  | .add v n rest, s, h => by
    rw [exec]
    refine own_bare rest _ fun w k => ?_
    rw [get_set]
    by_cases hv : w = v
    · have := h v k
      simp [hv, this]
    · simpa [hv] using h w k
  | .remove v n rest, s, h => by
    rw [exec]
    by_cases hm : T.user n ∈ s.get v
    · rw [if_pos hm]
      refine own_bare rest _ fun w k => ?_
      rw [get_set]
      by_cases hv : w = v
      · simp only [hv, if_true]
        exact fun q => h v k (List.mem_of_mem_erase q)
      · simpa [hv] using h w k
    · rw [if_neg hm]; exact h
  | .assign v ns rest, s, h => by
    rw [exec]
    refine own_bare rest _ fun w k => ?_
    rw [get_set]
    by_cases hv : w = v
    · simp [hv]
    · simpa [hv] using h w k
  | .load e v ns rest, s, h => by
    rw [exec]
    by_cases hm : e ∈ s.loaded
    · rw [if_pos hm]; exact own_bare rest s h
    · rw [if_neg hm]
      refine own_bare rest _ fun w k => ?_
      have e1 : St.get { s.set v (s.get v ++ ns.map .user) with loaded := s.loaded ++ [e] } w = (s.set v (s.get v ++ ns.map .user)).get w := by cases w <;> rfl
      rw [e1, get_set]
      by_cases hv : w = v
      · have := h v k
        simp [hv, this]
      · simpa [hv] using h w k
  | .run m body rest, s, h => by
    rw [exec]
    refine own_bare rest _ fun w => ?_
    have hb := h w
    cases m with
    | bare => exact own_bare body (note s) (fun v => by have := h v; cases v <;> exact this) w
    | full own k => cases w <;> exact hb
    | text own =>
      cases w with
      | post => exact hb
      | ast =>
        exact own_ast body (note (enter s (.text own))) (h .ast)
where
  own_ast : ∀ (c : Code) (s : St), NoOwn s.ast → NoOwn (exec c s).ast
  | .done, _, h => h
  | .fail, _, h => h
  | .add v n rest, s, h => by
    rw [exec]
    refine own_ast rest _ fun k => ?_
    have := h k
    cases v <;> simp [St.set, St.get, this]
  | .remove v n rest, s, h => by
    rw [exec]
    by_cases hm : T.user n ∈ s.get v
    · rw [if_pos hm]
      refine own_ast rest _ fun k => ?_
      have := h k
      cases v
      · exact this
      · exact fun q => this (List.mem_of_mem_erase q)
    · rw [if_neg hm]; exact h
  | .assign v ns rest, s, h => by
    rw [exec]
    refine own_ast rest _ fun k => ?_
    have := h k
    cases v <;> simp [St.set, this]
  | .load e v ns rest, s, h => by
    rw [exec]
    by_cases hm : e ∈ s.loaded
    · rw [if_pos hm]; exact own_ast rest s h
    · rw [if_neg hm]
      refine own_ast rest _ fun k => ?_
      have := h k
      cases v <;> simp [St.set, St.get, this]
  | .run m body rest, s, h => by
    rw [exec]
    refine own_ast rest _ ?_
    cases m with
    | bare => exact own_ast body (note s) h
    | full own k => exact h
    | text own => exact own_ast body (note (enter s (.text own))) h

/-- **C185, nothing is left behind**: after any session, whatever the cells do and whether or not they fail, none of ipyflow's own transformers is in the lists. -/
theorem none_left (cells : List (Mode × Code)) (post ast : List Nat) (k : Nat) :
    T.own k ∉ (session cells (start post ast)).post ∧ T.own k ∉ (session cells (start post ast)).ast := by
  have : ∀ (cells : List (Mode × Code)) (s : St), (∀ w, NoOwn (s.get w)) → ∀ w, NoOwn ((session cells s).get w) := by
    intro cells
    induction cells with
    | nil => exact fun s h => h
    | cons x cs ih => exact fun s h => ih _ (own_bare _ _ h)
  have h := this cells (start post ast) (fun w => by cases w <;> simp [NoOwn, St.get, start])
  exact ⟨h .post k, h .ast k⟩

theorem exec_loaded : ∀ (c : Code) (s : St) (e : Nat), e ∈ s.loaded → e ∈ (exec c s).loaded
  | .done, _, _, h => h
  | .fail, _, _, h => h
  | .add v n rest, s, e, h => by
    rw [exec]; exact exec_loaded rest _ e (by cases v <;> exact h)
  | .remove v n rest, s, e, h => by
    rw [exec]
    by_cases hm : T.user n ∈ s.get v
    · rw [if_pos hm]; exact exec_loaded rest _ e (by cases v <;> exact h)
    · rw [if_neg hm]; exact h
  | .assign v ns rest, s, e, h => by
    rw [exec]; exact exec_loaded rest _ e (by cases v <;> exact h)
  | .load e' v ns rest, s, e, h => by
    rw [exec]
    by_cases hm : e' ∈ s.loaded
    · rw [if_pos hm]; exact exec_loaded rest s e h
    · rw [if_neg hm]; exact exec_loaded rest _ e (by simp [h])
  | .run m body rest, s, e, h => by
    rw [exec]
    refine exec_loaded rest _ e ?_
    have : e ∈ (exec body (note (enter s m))).loaded := exec_loaded body _ e (by cases m <;> exact h)
    cases m <;> exact this

theorem loads_nothing : ∀ (c : Code) (e : Nat) (s : St), Loads e c → e ∈ s.loaded → (exec c s).post = s.post ∧ (exec c s).ast = s.ast
  | .done, _, _, _, _ => ⟨rfl, rfl⟩
  | .load e' v ns rest, e, s, hl, h => by
    rw [exec, if_pos (by rw [hl.1]; exact h)]
    exact loads_nothing rest e s hl.2 h
  | .run m body rest, e, s, hl, h => by
    rw [exec]
    have h1 : e ∈ (note (enter s m)).loaded := by cases m <;> exact h
    have hb := loads_nothing body e (note (enter s m)) hl.1 h1
    have h2 := exec_loaded body _ e h1
    have hr := loads_nothing rest e (leave s (exec body (note (enter s m))) m) hl.2 (by cases m <;> exact h2)
    rw [hr.1, hr.2]
    cases m with
    | bare => exact hb
    | text own => exact ⟨rfl, hb.2⟩
    | full own k => exact ⟨rfl, rfl⟩
  | .fail, _, _, hl, _ => hl.elim
  | .add _ _ _, _, _, hl, _ => hl.elim
  | .remove _ _ _, _, _, hl, _ => hl.elim
  | .assign _ _ _, _, _, hl, _ => hl.elim

/-- **C185, violated for extensions**: once an extension was loaded in a traced cell, its transformers are gone, and loading it again does not help, not even in runs that are
not traced: the lists are those of before the extension was loaded. -/
theorem extension_lost (e : Nat) (w : Which) (ns : List Nat) (own : List Nat) (k : Nat) (s : St) (more : List (Mode × Code)) (hm : ∀ x ∈ more, Loads e x.2) :
    (session ((.full own k, .load e w ns .done) :: more) s).post = s.post ∧ (session ((.full own k, .load e w ns .done) :: more) s).ast = s.ast := by
  have : ∀ (more : List (Mode × Code)) (s : St), (∀ x ∈ more, Loads e x.2) → e ∈ s.loaded → (session more s).post = s.post ∧ (session more s).ast = s.ast := by
    intro more
    induction more with
    | nil => exact fun s _ _ => ⟨rfl, rfl⟩
    | cons x cs ih =>
      intro s hx he
      rw [session]
      have hl : Loads e (.run x.1 x.2 .done) := ⟨hx x (by simp), trivial⟩
      have h1 := loads_nothing _ e s hl he
      have h2 := ih (exec (.run x.1 x.2 .done) s) (fun y hy => hx y (List.mem_cons_of_mem _ hy)) (exec_loaded _ s e he)
      exact ⟨h2.1.trans h1.1, h2.2.trans h1.2⟩
  rw [session]
  refine this more _ hm ?_
  simp only [exec, leave, note, enter]
  by_cases he : e ∈ s.loaded <;> simp [he]

end Verif.Addons
