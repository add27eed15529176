import Verif.Rebind.Lemmas

/-!
# C113: a variable that is given another object takes along what was known of the parts
-/

namespace Verif.Rebind
open Verif

variable {w : Nat → Obj} {st st' : St} {x c n : Nat}

/-- The four ways an update of a symbol whose object changes can go. -/
theorem rebind_cases (hc : (st.sym x).cached = some c) (hcn : c ≠ n) (h : rebind w st x n = .ok st') :
    ∃ st1, st' = settle st1 x c n (st.path c).isSome ∧
      ((st.path c = some (st.sym x).path ∧ st.path n = none ∧ transfer w c n (fresh st c n) = .ok st1) ∨
       ((st.path c ≠ some (st.sym x).path ∨ st.path n ≠ none) ∧ st1.tab = st.tab ∧ st1.sym = st.sym ∧
          st1.names = st.names ∧ st1.dead = st.dead)) := by
  unfold rebind at h
  rw [hc] at h
  dsimp only at h
  rw [if_neg hcn] at h
  cases h1 : renewNs w st (st.sym x).path c n with
  | error e => rw [h1] at h; simp at h
  | ok st1 =>
    rw [h1] at h
    dsimp only at h
    injection h with h
    refine ⟨st1, h.symm, ?_⟩
    unfold renewNs at h1
    by_cases hp : st.path c = some (st.sym x).path
    · rw [if_pos hp] at h1
      cases hn : st.path n with
      | none => rw [hn] at h1; exact .inl ⟨hp, rfl, h1⟩
      | some q =>
        rw [hn] at h1
        dsimp only at h1
        injection h1 with h1
        subst h1
        exact .inr ⟨.inr (by simp), rfl, rfl, rfl, rfl⟩
    · rw [if_neg hp] at h1
      injection h1 with h1
      subst h1
      exact .inr ⟨.inl hp, rfl, rfl, rfl, rfl⟩

theorem known_fresh {b : Bool} {k s : Nat} (hcn : c ≠ n) : Known (fresh st c n) c b k s ↔ Known st c b k s := by
  simp [Known, fresh, hcn]

theorem sym_settle {st1 : St} {s : Nat} {o : Bool} (h : s ≠ x) : (settle st1 x c n o).sym s = st1.sym s := by
  simp [settle, h]

/-- The variable itself is not one of the parts of the object it is called after. -/
theorem not_part (hw : Wf st) (hp : st.path c = some (st.sym x).path) {b : Bool} {k : Nat} : ¬ Known st c b k x := by
  intro h
  have := congrArg List.length (hw.path c b k x _ h hp)
  simp at this

/-- After the assignment, what is known about the parts of an object that was not known before is
right: the part is there, and its symbol stands for it. -/
theorem moved_right (hw : Wf st) (hc : (st.sym x).cached = some c) (hcn : c ≠ n) (hn : st.path n = none)
    (h : rebind w st x n = .ok st') {b : Bool} {k s : Nat} (hk : Known st' n b k s) :
    Has w n b k (st'.sym s).obj ∧ (st'.sym s).home = some n ∧ (st'.sym s).path = (st.sym s).path ∧
      Known st c b k s := by
  obtain ⟨st1, rfl, ⟨hp, -, ht⟩ | ⟨-, htab, -⟩⟩ := rebind_cases hc hcn h
  · obtain ⟨inv, -⟩ := transfer_inv hw hcn ht
    have hk1 : Known st1 n b k s := hk
    have hkc : Known st c b k s := (known_fresh hcn).1 ((inv.parts _ _ _).2 (.inr hk1))
    have hsx : s ≠ x := by rintro rfl; exact not_part hw hp hkc
    obtain ⟨v, hv, ho, -, hh, hpa⟩ := inv.right _ _ _ hk1
    rw [sym_settle hsx, ho]
    exact ⟨hv, hh, hpa, hkc⟩
  · have : Known st n b k s := by
      have hk1 : (k, s) ∈ st1.tab n b := hk
      rw [htab] at hk1; exact hk1
    exact absurd hn (hw.none _ _ _ _ this)

/-- No part that was known is forgotten altogether. -/
theorem nothing_lost (hw : Wf st) (hc : (st.sym x).cached = some c) (hcn : c ≠ n)
    (h : rebind w st x n = .ok st') {b : Bool} {k s : Nat} (hk : Known st c b k s) :
    Known st' c b k s ∨ Known st' n b k s := by
  obtain ⟨st1, rfl, ⟨hp, -, ht⟩ | ⟨-, htab, -⟩⟩ := rebind_cases hc hcn h
  · obtain ⟨inv, -⟩ := transfer_inv hw hcn ht
    exact (inv.parts _ _ _).1 ((known_fresh hcn).2 hk)
  · left
    have : (k, s) ∈ st1.tab c b := by rw [htab]; exact hk
    exact this

/-- Parts that the new object has not stay with the old one, unchanged. -/
theorem absent_stays (hw : Wf st) (hc : (st.sym x).cached = some c) (hcn : c ≠ n)
    (h : rebind w st x n = .ok st') {b : Bool} {k s : Nat} (hk : Known st c b k s) (hsx : s ≠ x)
    (hm : ∀ v, ¬ Has w n b k v) : Known st' c b k s ∧ st'.sym s = st.sym s := by
  obtain ⟨st1, rfl, ⟨hp, -, ht⟩ | ⟨-, htab, hsym, -⟩⟩ := rebind_cases hc hcn h
  · obtain ⟨inv, -⟩ := transfer_inv hw hcn ht
    have hno : ¬ Known st1 n b k s := by
      intro hn
      obtain ⟨v, hv, -⟩ := inv.right _ _ _ hn
      exact hm v hv
    refine ⟨((inv.parts _ _ _).1 ((known_fresh hcn).2 hk)).resolve_right hno, ?_⟩
    rw [sym_settle hsx, inv.kept s ?_]
    · rfl
    · intro b' k' hk'
      have := (known_fresh hcn).1 ((inv.parts _ _ _).2 (.inr hk'))
      obtain ⟨-, rfl, rfl⟩ := hw.apart _ _ _ _ _ _ _ hk this
      exact hno hk'
  · refine ⟨?_, ?_⟩
    · have : (k, s) ∈ st1.tab c b := by rw [htab]; exact hk
      exact this
    · rw [sym_settle hsx, hsym]

/-- Nothing changes for other objects and for symbols other than the variable and the parts of
its old object. -/
theorem others_kept (hw : Wf st) (hc : (st.sym x).cached = some c) (hcn : c ≠ n)
    (h : rebind w st x n = .ok st') :
    (∀ o b, o ≠ c → o ≠ n → st'.tab o b = st.tab o b) ∧
      (∀ s, s ≠ x → (∀ b k, ¬ Known st c b k s) → st'.sym s = st.sym s) ∧
      (∀ y o, y ≠ x → (∀ b k, ¬ Known st c b k y) → (y ∈ st'.names o ↔ y ∈ st.names o)) := by
  obtain ⟨st1, rfl, ⟨hp, -, ht⟩ | ⟨-, htab, hsym, hnam, -⟩⟩ := rebind_cases hc hcn h
  · obtain ⟨inv, -⟩ := transfer_inv hw hcn ht
    refine ⟨?_, ?_, ?_⟩
    · intro o b ho ho'
      have e : (settle st1 x c n (st.path c).isSome).tab o b = st1.tab o b := rfl
      rw [e, inv.others o b ho ho']
      simp [fresh, ho']
    · intro s hs hk
      rw [sym_settle hs, inv.kept s fun b k hk' => hk b k ((known_fresh hcn).1 ((inv.parts _ _ _).2 (.inr hk')))]
      rfl
    · intro y o hy hk
      have e : (settle st1 x c n (st.path c).isSome).names = rename st1.names c n x := rfl
      rw [e, mem_rename hy, inv.names y o fun b k hk' => hk b k ((known_fresh hcn).1 hk')]
      exact Iff.rfl
  · refine ⟨?_, ?_, ?_⟩
    · intro o b _ _
      have e : (settle st1 x c n (st.path c).isSome).tab o b = st1.tab o b := rfl
      rw [e, htab]
    · intro s hs _
      rw [sym_settle hs, hsym]
    · intro y o hy _
      have e : (settle st1 x c n (st.path c).isSome).names = rename st1.names c n x := rfl
      rw [e, mem_rename hy, hnam]

/-- What is known about the parts of the old object stays, for its other names to use, if the
object is not called after this variable or if the parts of the new one are known already. The
claim is that it stays whenever the old object has another name; see `shared_lost`. -/
theorem kept_partial (hc : (st.sym x).cached = some c) (hcn : c ≠ n)
    (h : rebind w st x n = .ok st') (hk : st.path c ≠ some (st.sym x).path ∨ st.path n ≠ none) :
    (∀ b, st'.tab c b = st.tab c b ∧ st'.tab n b = st.tab n b) ∧ ∀ s, s ≠ x → st'.sym s = st.sym s := by
  obtain ⟨st1, rfl, ⟨hp, hn, ht⟩ | ⟨-, htab, hsym, -⟩⟩ := rebind_cases hc hcn h
  · rcases hk with hk | hk
    · exact absurd hp hk
    · exact absurd hn hk
  · refine ⟨fun b => ?_, fun s hs => ?_⟩
    · have e : ∀ o, (settle st1 x c n (st.path c).isSome).tab o b = st1.tab o b := fun _ => rfl
      rw [e, e, htab]; exact ⟨rfl, rfl⟩
    · rw [sym_settle hs, hsym]

/-- If the old object is called after the variable and nothing is known about the new one, then
every part that the new object has too is taken away from the old one, although that may have
another name `y`: the symbol that stood for the part of `y`, with all that depends on it, now
stands for the part of the new object. -/
theorem shared_lost (hw : Wf st) (hc : (st.sym x).cached = some c) (hcn : c ≠ n)
    (h : rebind w st x n = .ok st') (hp : st.path c = some (st.sym x).path) (hn : st.path n = none)
    (hr : ∀ b k s, Known st c b k s → ¬ Refuses w n b k) {b : Bool} {k s v : Nat} (hk : Known st c b k s)
    (hv : Has w n b k v) {y : Nat} (hy : y ∈ st.names c) (hyx : y ≠ x) (hyp : ∀ b k, ¬ Known st c b k y) :
    y ∈ st'.names c ∧ (∀ s', ¬ Known st' c b k s') ∧ Known st' n b k s ∧ (st'.sym s).obj = v := by
  refine ⟨((others_kept hw hc hcn h).2.2 y c hyx hyp).2 hy, ?_⟩
  obtain ⟨st1, rfl, ⟨-, -, ht⟩ | ⟨hk, -⟩⟩ := rebind_cases hc hcn h
  · obtain ⟨inv, all⟩ := transfer_inv hw hcn ht
    have hk' : Known st1 n b k s := all hr b k s v hk hv
    have hsx : s ≠ x := by rintro rfl; exact not_part hw hp hk
    refine ⟨fun s' hs' => inv.excl b k s' s hs' hk', hk', ?_⟩
    obtain ⟨v', hv', ho, -⟩ := inv.right _ _ _ hk'
    rw [sym_settle hsx, ho]
    rw [has_iff] at hv hv'
    rw [hv] at hv'
    exact (Res.val.inj hv').symm
  · rcases hk with hk | hk
    · exact absurd hp hk
    · exact absurd hn hk

/-- The old object is not given up while it has another name. -/
theorem named_alive (hw : Wf st) (hc : (st.sym x).cached = some c) (hcn : c ≠ n)
    (h : rebind w st x n = .ok st') {y : Nat} (hy : y ∈ st.names c) (hyx : y ≠ x)
    (hyp : ∀ b k, ¬ Known st c b k y) : st'.dead c = st.dead c := by
  have hy' := ((others_kept hw hc hcn h).2.2 y c hyx hyp).2 hy
  obtain ⟨st1, rfl, hcase⟩ := rebind_cases hc hcn h
  have hne : rename st1.names c n x c ≠ [] := by
    intro e
    have e' : (settle st1 x c n (st.path c).isSome).names c = [] := e
    rw [e'] at hy'; simp at hy'
  have hd : (settle st1 x c n (st.path c).isSome).dead c = st1.dead c := by
    simp [settle, hne]
  rw [hd]
  rcases hcase with ⟨-, -, ht⟩ | ⟨-, -, -, -, hdead⟩
  · obtain ⟨inv, -⟩ := transfer_inv hw hcn ht
    rw [inv.dead]; simp [fresh, hcn]
  · rw [hdead]

/-- The old object is given up when the variable was its only name, and the new object does not
contain it. -/
theorem nameless_dead (hw : Wf st) (hc : (st.sym x).cached = some c) (hcn : c ≠ n)
    (h : rebind w st x n = .ok st') (hon : ∀ y ∈ st.names c, y = x) (hns : st.path c ≠ none)
    (hin : ∀ b k, ¬ Has w n b k c) : st'.dead c = true := by
  obtain ⟨st1, rfl, hcase⟩ := rebind_cases hc hcn h
  have hsub : ∀ y ∈ st1.names c, y = x := by
    rcases hcase with ⟨-, -, ht⟩ | ⟨-, -, -, hnam, -⟩
    · obtain ⟨inv, -⟩ := transfer_inv hw hcn ht
      intro y hy
      rcases inv.grown y c hy with hy | ⟨b, k, hh⟩
      · exact hon y hy
      · exact absurd hh (hin b k)
    · rw [hnam]; exact hon
  have he : rename st1.names c n x c = [] := by
    rw [List.eq_nil_iff_forall_not_mem]
    intro y hy
    rcases mem_rename_sub hy with ⟨h1, h2⟩ | ⟨h1, -⟩
    · exact h2 rfl (hsub y h1)
    · exact hcn h1
  have hs : (st.path c).isSome = true := Option.isSome_iff_ne_none.2 hns
  simp [settle, he, hs]

/-- The assignment is recorded if no part of the new object that is looked at raises an error of
its own. -/
theorem recorded_partial (hw : Wf st)
    (hr : ∀ c b k s, (st.sym x).cached = some c → Known st c b k s →
      (∃ v, Has w n b k v) ∨ Misses w n b k ∨ Refuses w n b k) :
    ∃ st', rebind w st x n = .ok st' ∧ (st'.sym x).obj = n ∧ (st'.sym x).cached = some n := by
  unfold rebind
  cases hc : (st.sym x).cached with
  | none => exact ⟨_, rfl, by simp, by simp⟩
  | some c =>
    dsimp only
    by_cases hcn : c = n
    · rw [if_pos hcn]; exact ⟨_, rfl, by simp, by simp⟩
    · rw [if_neg hcn]
      have hok : ∃ st1, renewNs w st (st.sym x).path c n = .ok st1 := by
        unfold renewNs
        by_cases hp : st.path c = some (st.sym x).path
        · rw [if_pos hp]
          cases hn : st.path n with
          | some q => exact ⟨_, rfl⟩
          | none =>
            dsimp only
            unfold transfer
            have hr' : ∀ b k s, Known (fresh st c n) c b k s →
                (∃ v, Has w n b k v) ∨ Misses w n b k ∨ retrieve w n k b = .typeErr := by
              intro b k s hk
              rcases hr c b k s hc ((known_fresh hcn).1 hk) with h | h | h
              · exact .inl h
              · exact .inr (.inl h)
              · exact .inr (.inr ((refuses_iff ..).1 h))
            obtain ⟨st1, h1⟩ := moveTable_ok (c := c) ((fresh st c n).tab c false) (fresh st c n) (hr' false)
            rw [h1]
            dsimp only
            have hap : ∀ b k s b' k', Known (fresh st c n) c b k s → Known (fresh st c n) c b' k' s → b = b' ∧ k = k' := by
              intro b k s b' k' h1 h2
              exact (hw.apart _ _ _ _ _ _ _ ((known_fresh hcn).1 h1) ((known_fresh hcn).1 h2)).2
            have h0 : Inv w c n (fresh st c n) (fresh st c n) := by
              refine inv_refl ?_ ?_
              · intro b; simpa [fresh, hcn] using hw.once c b
              · intro b; simp [fresh]
            obtain ⟨i1, -⟩ := moveTable_inv (b' := true) hcn hap _ _ _ h0 (fun k s h => h) (h0.once false) h1
            exact moveTable_ok (c := c) (st1.tab c true) st1 fun k s hk => hr' true k s ((i1.parts _ _ _).2 (.inl hk))
        · rw [if_neg hp]; exact ⟨_, rfl⟩
      obtain ⟨st1, h1⟩ := hok
      rw [h1]
      exact ⟨_, rfl, by simp [settle], by simp [settle]⟩

/-- If an attribute that was known of the old object is, in the new one, a property that raises
an error of its own, the assignment to the variable is not recorded. -/
theorem property_fails (hc : (st.sym x).cached = some c) (hcn : c ≠ n)
    (hp : st.path c = some (st.sym x).path) (hn : st.path n = none) {k s : Nat} (hk : Known st c false k s)
    (hr : Raises w n false k) (ht : ∀ k s, Known st c false k s → ¬ Refuses w n false k) :
    rebind w st x n = .error .crash := by
  unfold rebind
  rw [hc]
  dsimp only
  rw [if_neg hcn]
  unfold renewNs
  rw [if_pos hp, hn]
  dsimp only
  unfold transfer
  rw [moveTable_fails _ _ (fun k s hm e => ht k s ((known_fresh hcn).1 hm) ((refuses_iff ..).2 e)) k s
    ((known_fresh hcn).2 hk) ((raises_iff ..).1 hr)]

end Verif.Rebind
