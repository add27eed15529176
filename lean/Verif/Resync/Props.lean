import Verif.Resync.Spec

/-!
# Variables are up to date after a cell has run
-/

namespace Verif.Resync
open Verif

/-- Fields of symbols that never change here. -/
def SameKind (a b : Sym) : Prop :=
  a.name = b.name ∧ a.isGlobal = b.isGlobal ∧ a.isVirtual = b.isVirtual ∧ a.home = b.home ∧
    a.cell = b.cell

theorem SameKind.refl (a : Sym) : SameKind a a := ⟨rfl, rfl, rfl, rfl, rfl⟩

theorem SameKind.trans {a b c : Sym} (h : SameKind a b) (h' : SameKind b c) : SameKind a c := by
  obtain ⟨h1, h2, h3, h4, h5⟩ := h
  obtain ⟨k1, k2, k3, k4, k5⟩ := h'
  exact ⟨h1.trans k1, h2.trans k2, h3.trans k3, h4.trans k4, h5.trans k5⟩

theorem sym_relist (st : St) (s o : Nat) : (relist st s o).sym = st.sym := by
  unfold relist; split <;> rfl

theorem sub_relist (st : St) (s o : Nat) : (relist st s o).sub = st.sub := by
  unfold relist; split <;> rfl

theorem sym_updateObjRef (st : St) (s o k : Nat) : (updateObjRef st s o).sym k =
    if k = s then { st.sym k with obj := o, cached := some o } else st.sym k := by
  simp only [updateObjRef, modify, sym_relist]

theorem sub_updateObjRef (st : St) (s o : Nat) : (updateObjRef st s o).sub = st.sub :=
  sub_relist st s o

theorem mem_updateObjRef (st : St) (s o : Nat) (c : Nat)
    (hc : (st.sym s).cached = some c) (x k : Nat) :
    x ∈ (updateObjRef st s o).names k ↔
      if c = o then x ∈ st.names k
      else (x ∈ st.names k ∧ ¬ (x = s ∧ k = c)) ∨ (x = s ∧ k = o) := by
  simp only [updateObjRef, modify]
  unfold relist
  rw [hc]
  by_cases h : c = o
  · simp [h]
  · simp only [h, if_false, ne_eq, reduceCtorEq, not_false_eq_true, Option.some.injEq, and_self,
      if_true, add, discard]
    by_cases hk : k = o
    · subst hk
      have hkc : ¬ k = c := fun e => h e.symm
      simp only [if_true, hkc, if_false, and_false, not_false_eq_true, and_true]
      split
      · constructor
        · exact .inl
        · rintro (h | rfl) <;> assumption
      · simp
    · simp only [hk, if_false, and_false, or_false]
      by_cases hkc : k = c
      · subst hkc; simp
      · simp [hkc]

/-- What one step of the loop over other names may change. -/
structure Moved (w : World) (o : Nat) (st st' : St) : Prop where
  kind : ∀ k, SameKind (st'.sym k) (st.sym k)
  globals : ∀ k, (st.sym k).home = none → st'.sym k = st.sym k

theorem moveOne_moved (w : World) (o : Nat) (st st' : St) (a : Nat)
    (h : moveOne w o st a = .ok st') : Moved w o st st' := by
  have same : Moved w o st st := ⟨fun k => SameKind.refl _, fun k _ => rfl⟩
  unfold moveOne at h
  simp only at h
  split at h
  · cases h; exact same
  · split at h
    · cases h; exact same
    · rename_i hh
      split at h
      · cases h; exact same
      · split at h
        · cases h
        · split at h
          · cases h
            constructor
            · intro k
              simp only [setSub, sym_updateObjRef, modify]
              by_cases hk : k = a <;> simp [hk, SameKind]
            · intro k hk
              have : k ≠ a := by rintro rfl; rw [hk] at hh; cases hh
              simp only [setSub, sym_updateObjRef, modify]
              simp [this]
          · cases h; exact same

theorem moveAll_moved (w : World) (o : Nat) (as : List Nat) : ∀ (st st' : St),
    moveAll w o st as = .ok st' → Moved w o st st' := by
  induction as with
  | nil => intro st st' h; cases h; exact ⟨fun k => SameKind.refl _, fun k _ => rfl⟩
  | cons a as ih =>
    intro st st' h
    unfold moveAll at h
    split at h
    · cases h
    · rename_i st1 h1
      have m1 := moveOne_moved w o st st1 a h1
      have m2 := ih st1 st' h
      exact ⟨fun k => (m2.kind k).trans (m1.kind k), fun k hk => by
        rw [m2.globals k (by rw [(m1.kind k).2.2.2.1]; exact hk), m1.globals k hk]⟩

theorem sym_rebind (st : St) (s o k : Nat) : (rebind st s o).sym k =
    if k = s then { st.sym k with obj := o, cached := some o } else st.sym k := by
  unfold rebind; rw [sym_updateObjRef]; rfl

/-- What `resync` does to the symbols themselves. -/
theorem resync_sym (w : World) (st st' : St) (s : Nat)
    (h : resync w st s = .ok st') :
    (∀ k, SameKind (st'.sym k) (st.sym k)) ∧
    (∀ k, (st.sym k).home = none → k ≠ s → st'.sym k = st.sym k) ∧
    ((st.sym s).isGlobal = true → ∀ o, w.var (st.sym s).name = some o → (st'.sym s).obj = o) ∧
    ((st.sym s).home = none → (st.sym s).isGlobal = false → st' = st) := by
  unfold resync at h
  simp only at h
  by_cases hg : (st.sym s).isGlobal = true
  · rw [if_pos hg] at h
    cases hv : w.var (st.sym s).name with
    | none =>
      rw [hv] at h
      cases h
      exact ⟨fun k => SameKind.refl _, fun k _ _ => rfl, fun _ o ho => (nomatch ho),
        fun _ _ => rfl⟩
    | some o =>
      rw [hv] at h
      simp only at h
      by_cases hne : (st.sym s).obj ≠ o
      · rw [if_pos hne] at h
        split at h
        · cases h
        · rename_i st1 h1
          cases h
          have m := moveAll_moved w o _ st st1 h1
          refine ⟨?_, ?_, ?_, ?_⟩
          · intro k
            have := m.kind k
            rw [sym_rebind]
            by_cases hk : k = s
            · rw [if_pos hk]; exact this
            · rw [if_neg hk]; exact this
          · intro k hk hks
            rw [sym_rebind, if_neg hks]
            exact m.globals k hk
          · intro _ o' ho'
            cases ho'
            rw [sym_rebind, if_pos rfl]
          · intro _ hg'; rw [hg] at hg'; cases hg'
      · rw [if_neg hne] at h
        have he : (st.sym s).obj = o := by simpa using hne
        split at h
        · cases h
          refine ⟨?_, ?_, ?_, ?_⟩
          · intro k
            by_cases hk : k = s <;> simp [modify, hk, SameKind]
          · intro k _ hks; simp [modify, hks]
          · intro _ o' ho'; cases ho'; simp [modify, he]
          · intro _ hg'; rw [hg] at hg'; cases hg'
        · cases h
          exact ⟨fun k => SameKind.refl _, fun k _ _ => rfl,
            fun _ o' ho' => by cases ho'; exact he, fun _ _ => rfl⟩
  · rw [if_neg hg] at h
    cases h
    exact ⟨fun k => SameKind.refl _, fun k _ _ => rfl, fun hg' => absurd hg' hg, fun _ _ => rfl⟩

theorem resyncAll_sym (w : World) (ss : List Nat) : ∀ (st st' : St),
    (∀ s, (st.sym s).isGlobal = true → (st.sym s).home = none) →
    resyncAll w st ss = .ok st' →
    (∀ k, SameKind (st'.sym k) (st.sym k)) ∧
    (∀ k, (st.sym k).home = none → k ∉ ss → st'.sym k = st.sym k) ∧
    (∀ s ∈ ss, (st.sym s).isGlobal = true → ∀ o, w.var (st.sym s).name = some o →
      (st'.sym s).obj = o) := by
  induction ss with
  | nil =>
    intro st st' _ h; cases h
    exact ⟨fun k => SameKind.refl _, fun k _ _ => rfl, fun s hs => by simp at hs⟩
  | cons s ss ih =>
    intro st st' hw h
    unfold resyncAll at h
    split at h
    · cases h
    · rename_i st1 h1
      obtain ⟨a1, a2, a3, _⟩ := resync_sym w st st1 s h1
      have hw1 : ∀ k, (st1.sym k).isGlobal = true → (st1.sym k).home = none := by
        intro k hk
        rw [(a1 k).2.2.2.1]; exact hw k (by rw [← (a1 k).2.1]; exact hk)
      obtain ⟨b1, b2, b3⟩ := ih st1 st' hw1 h
      refine ⟨fun k => (b1 k).trans (a1 k), ?_, ?_⟩
      · intro k hk hks
        simp only [List.mem_cons, not_or] at hks
        rw [b2 k (by rw [(a1 k).2.2.2.1]; exact hk) hks.2, a2 k hk hks.1]
      · intro k hk hg o ho
        by_cases hks : k ∈ ss
        · exact b3 k hks (by rw [(a1 k).2.1]; exact hg) o (by rw [(a1 k).1]; exact ho)
        · have : k = s := by simpa [hks] using hk
          subst this
          have h1 := a3 hg o ho
          rw [b2 k (by rw [(a1 k).2.2.2.1]; exact hw k hg) hks]
          exact h1

/-- After a cell has run, each global variable that counts as updated by it is known with the
object that the variable has. -/
theorem synced (w : World) (now : Nat) (all : List Nat) (st st' : St) (known : Nat → Prop)
    (hw : Wf st known) (h : afterRun w now all st = .ok st') (s o : Nat) (hs : s ∈ all)
    (hc : (st.sym s).cell = now) (hg : (st.sym s).isGlobal = true)
    (ho : w.var (st.sym s).name = some o) : (st'.sym s).obj = o :=
  (resyncAll_sym w _ st st' hw.home h).2.2 s (List.mem_filter.2 ⟨hs, by simpa using hc⟩) hg o ho

/-! ## The names of objects -/

/-- Both invariants of the table of names. -/
structure Inv (st : St) (known : Nat → Prop) : Prop where
  listed : Listed st known
  cached : ∀ s, known s → (st.sym s).cached = some (st.sym s).obj

theorem inv_update (st : St) (known : Nat → Prop) (hi : Inv st known) (s o : Nat)
    (hk : known s) (st' : St) (hsym : ∀ k, (st'.sym k).obj = if k = s then o else (st.sym k).obj)
    (hcac : ∀ k, (st'.sym k).cached = if k = s then some o else (st.sym k).cached)
    (hn : ∀ x k, x ∈ st'.names k ↔ if (st.sym s).obj = o then x ∈ st.names k
      else (x ∈ st.names k ∧ ¬ (x = s ∧ k = (st.sym s).obj)) ∨ (x = s ∧ k = o)) :
    Inv st' known := by
  constructor
  · intro x k
    rw [hn, hsym]
    by_cases hc : (st.sym s).obj = o
    · rw [if_pos hc, hi.listed]
      by_cases hx : x = s
      · subst hx; rw [if_pos rfl, hc]
      · rw [if_neg hx]
    · rw [if_neg hc, hi.listed]
      by_cases hx : x = s
      · subst hx
        simp only [true_and, if_true]
        constructor
        · rintro (⟨⟨_, h1⟩, h2⟩ | h1)
          · exact absurd h1.symm h2
          · exact ⟨hk, h1.symm⟩
        · rintro ⟨_, h1⟩; exact .inr h1.symm
      · simp [hx]
  · intro k hk'
    rw [hsym, hcac]
    by_cases hks : k = s
    · rw [if_pos hks, if_pos hks]
    · rw [if_neg hks, if_neg hks]; exact hi.cached k hk'

theorem moveOne_inv (w : World) (o : Nat) (st st' : St) (a : Nat) (known : Nat → Prop)
    (hi : Inv st known) (ha : known a) (h : moveOne w o st a = .ok st') : Inv st' known := by
  unfold moveOne at h
  simp only at h
  split at h
  · cases h; exact hi
  · split at h
    · cases h; exact hi
    · rename_i hd hh
      split at h
      · cases h; exact hi
      · rename_i l hl
        split at h
        · cases h
        · split at h
          · cases h
            refine inv_update st known hi a o ha _ ?_ ?_ ?_
            · intro k
              simp only [setSub, sym_updateObjRef, modify]
              by_cases hk : k = a <;> simp [hk]
            · intro k
              simp only [setSub, sym_updateObjRef, modify]
              by_cases hk : k = a <;> simp [hk]
            · intro x k
              have := mem_updateObjRef (modify (setSub st hd (st.sym a).pos none) a
                fun y => { y with pos := l.length - 1 }) a o (st.sym a).obj
                (by simp [modify, setSub, hi.cached a ha]) x k
              simpa [setSub, modify] using this
          · cases h; exact hi

theorem moveAll_inv (w : World) (o : Nat) (known : Nat → Prop) (as : List Nat)
    (ha : ∀ a ∈ as, known a) : ∀ (st st' : St), Inv st known →
    moveAll w o st as = .ok st' → Inv st' known := by
  induction as with
  | nil => intro st st' hi h; cases h; exact hi
  | cons a as ih =>
    intro st st' hi h
    unfold moveAll at h
    split at h
    · cases h
    · rename_i st1 h1
      exact ih (fun b hb => ha b (by simp [hb])) st1 st'
        (moveOne_inv w o st st1 a known hi (ha a (by simp)) h1) h

theorem toCheck_known (st : St) (known : Nat → Prop) (hi : Inv st known) (s o : Nat) :
    ∀ a ∈ toCheck st s o, known a := by
  intro a ha
  unfold toCheck at ha
  split at ha
  · rcases List.mem_append.1 ha with h | h
    · split at h
      · simp at h
      · exact ((hi.listed a _).1 h).1
    · exact ((hi.listed a _).1 (List.mem_filter.1 h).1).1
  · simp at ha

theorem mem_rebind (st : St) (s o : Nat) (hc : (st.sym s).cached = some (st.sym s).obj)
    (hne : (st.sym s).obj ≠ o) (x k : Nat) :
    x ∈ (rebind st s o).names k ↔
      (x ∈ st.names k ∧ ¬ (x = s ∧ k = (st.sym s).obj)) ∨ (x = s ∧ k = o) := by
  unfold rebind
  have := mem_updateObjRef (add (discard (discard st (st.sym s).cached s)
    (some (st.sym s).obj) s) o s) s o (st.sym s).obj hc x k
  rw [this, if_neg hne]
  simp only [add, discard, hc, Option.some.injEq]
  by_cases hk : k = o
  · subst hk
    have : ¬ k = (st.sym s).obj := fun e => hne e.symm
    simp only [this, if_true, if_false, and_false, not_false_eq_true, and_true]
    split
    · rfl
    · simp
  · by_cases hk' : k = (st.sym s).obj
    · simp only [hk, hk', if_false, if_true, and_true, and_false, or_false]
      have : ¬ (st.sym s).obj = o := hne
      simp [this]
    · simp [hk, hk']

theorem resync_inv (w : World) (st st' : St) (s : Nat) (known : Nat → Prop) (hi : Inv st known)
    (hs : known s) (hw : ∀ s, (st.sym s).isGlobal = true → (st.sym s).home = none)
    (h : resync w st s = .ok st') : Inv st' known := by
  unfold resync at h
  simp only at h
  split at h
  · rename_i hg
    split at h
    · cases h; exact hi
    · rename_i o _
      split at h
      · rename_i hne
        split at h
        · cases h
        · rename_i st1 h1
          cases h
          have i1 := moveAll_inv w o known _ (toCheck_known st known hi s o) st st1 hi h1
          have hsym := (moveAll_moved w o _ st st1 h1).globals s (hw s hg)
          have hne1 : (st1.sym s).obj ≠ o := by rw [hsym]; exact hne
          refine inv_update st1 known i1 s o hs _ ?_ ?_ ?_
          · intro k; rw [sym_rebind]; by_cases hk : k = s <;> simp [hk]
          · intro k; rw [sym_rebind]; by_cases hk : k = s <;> simp [hk]
          · intro x k
            rw [if_neg hne1]
            exact mem_rebind st1 s o (i1.cached s hs) hne1 x k
      · split at h
        · cases h
          constructor
          · intro x k
            simp only [modify]
            rw [hi.listed x k]
            by_cases hx : x = s <;> simp [hx]
          · intro k hk
            by_cases hx : k = s
            · simp [modify, hx]
            · simpa [modify, hx] using hi.cached k hk
        · cases h; exact hi
  · cases h; exact hi

theorem resyncAll_inv (w : World) (known : Nat → Prop) (ss : List Nat) : ∀ (st st' : St),
    Inv st known → (∀ s ∈ ss, known s) →
    (∀ s, (st.sym s).isGlobal = true → (st.sym s).home = none) →
    resyncAll w st ss = .ok st' → Inv st' known := by
  induction ss with
  | nil => intro st st' hi _ _ h; cases h; exact hi
  | cons s ss ih =>
    intro st st' hi hk hw h
    unfold resyncAll at h
    split at h
    · cases h
    · rename_i st1 h1
      obtain ⟨a1, _⟩ := resync_sym w st st1 s h1
      refine ih st1 st' (resync_inv w st st1 s known hi (hk s (by simp)) hw h1)
        (fun t ht => hk t (by simp [ht])) ?_ h
      intro k hk
      rw [(a1 k).2.2.2.1]; exact hw k (by rw [← (a1 k).2.1]; exact hk)

/-- If each symbol was listed as a name of exactly its object, it still is, with the new
objects. -/
theorem listed (w : World) (now : Nat) (all : List Nat) (st st' : St) (known : Nat → Prop)
    (hw : Wf st known) (hl : Listed st known) (ha : ∀ s ∈ all, known s)
    (h : afterRun w now all st = .ok st') : Listed st' known :=
  (resyncAll_inv w known _ st st' ⟨hl, hw.cached⟩
    (fun s hs => ha s (List.mem_filter.1 hs).1) hw.home h).listed

/-! ## Elements of lists -/

/-- What is found for elements after one step: what was found before, or what is there. -/
theorem moveOne_right (w : World) (o : Nat) (st st' : St) (a : Nat) (hp : Placed st)
    (h : moveOne w o st a = .ok st') :
    Placed st' ∧ ∀ hd k s, st'.sub hd k = some s →
      (st.sub hd k = some s ∧ (st'.sym s).obj = (st.sym s).obj) ∨ Right w st' hd k s := by
  have same : Placed st ∧ ∀ hd k s, st.sub hd k = some s →
      (st.sub hd k = some s ∧ (st.sym s).obj = (st.sym s).obj) ∨ Right w st hd k s :=
    ⟨hp, fun hd k s hs => .inl ⟨hs, rfl⟩⟩
  unfold moveOne at h
  simp only at h
  split at h
  · cases h; exact same
  · split at h
    · cases h; exact same
    · rename_i hd0 hh
      split at h
      · cases h; exact same
      · rename_i l hl
        split at h
        · cases h
        · rename_i e he
          split at h
          · rename_i heo
            subst heo
            cases h
            have hlast : l[l.length - 1]? = some e := by
              rw [← List.getLast?_eq_getElem?]; exact he
            have hne : l ≠ [] := by rintro rfl; simp at he
            have key : ∀ hd k s, (setSub (updateObjRef (modify (setSub st hd0 (st.sym a).pos none) a
                fun y => { y with pos := l.length - 1 }) a e) hd0 (l.length - 1)
                (some a)).sub hd k = some s →
                (hd = hd0 ∧ k = l.length - 1 ∧ s = a) ∨
                (st.sub hd k = some s ∧ ¬ (hd = hd0 ∧ k = (st.sym a).pos) ) := by
              intro hd k s hs
              simp only [setSub, sub_updateObjRef, modify] at hs
              by_cases h1 : hd = hd0 ∧ k = l.length - 1
              · rw [if_pos h1] at hs; cases hs; exact .inl ⟨h1.1, h1.2, rfl⟩
              · rw [if_neg h1] at hs
                by_cases h2 : hd = hd0 ∧ k = (st.sym a).pos
                · rw [if_pos h2] at hs; cases hs
                · rw [if_neg h2] at hs; exact .inr ⟨hs, h2⟩
            have notA : ∀ hd k, st.sub hd k = some a → hd = hd0 ∧ k = (st.sym a).pos := by
              intro hd k hs
              obtain ⟨p1, p2⟩ := hp hd k a hs
              rw [hh] at p1; cases p1
              exact ⟨rfl, p2.symm⟩
            constructor
            · intro hd k s hs
              rcases key hd k s hs with ⟨rfl, rfl, rfl⟩ | ⟨h1, h2⟩
              · simp [setSub, sym_updateObjRef, modify, hh]
              · have hsa : s ≠ a := by rintro rfl; exact h2 (notA hd k h1)
                have := hp hd k s h1
                simpa [setSub, sym_updateObjRef, modify, hsa] using this
            · intro hd k s hs
              rcases key hd k s hs with ⟨rfl, rfl, rfl⟩ | ⟨h1, h2⟩
              · refine .inr ⟨l, hl, ?_⟩
                simp [setSub, sym_updateObjRef, modify, hlast]
              · have hsa : s ≠ a := by rintro rfl; exact h2 (notA hd k h1)
                exact .inl ⟨h1, by simp [setSub, sym_updateObjRef, modify, hsa]⟩
          · cases h; exact same

theorem right_trans (w : World) (st st1 st2 : St)
    (h1 : ∀ hd k s, st1.sub hd k = some s →
      (st.sub hd k = some s ∧ (st1.sym s).obj = (st.sym s).obj) ∨ Right w st1 hd k s)
    (h2 : ∀ hd k s, st2.sub hd k = some s →
      (st1.sub hd k = some s ∧ (st2.sym s).obj = (st1.sym s).obj) ∨ Right w st2 hd k s) :
    ∀ hd k s, st2.sub hd k = some s →
      (st.sub hd k = some s ∧ (st2.sym s).obj = (st.sym s).obj) ∨ Right w st2 hd k s := by
  intro hd k s hs
  rcases h2 hd k s hs with ⟨a1, a2⟩ | h
  · rcases h1 hd k s a1 with ⟨b1, b2⟩ | ⟨l, b1, b2⟩
    · exact .inl ⟨b1, a2.trans b2⟩
    · exact .inr ⟨l, b1, by rw [a2]; exact b2⟩
  · exact .inr h

theorem moveAll_right (w : World) (o : Nat) (as : List Nat) : ∀ (st st' : St), Placed st →
    moveAll w o st as = .ok st' →
    Placed st' ∧ ∀ hd k s, st'.sub hd k = some s →
      (st.sub hd k = some s ∧ (st'.sym s).obj = (st.sym s).obj) ∨ Right w st' hd k s := by
  induction as with
  | nil => intro st st' hp h; cases h; exact ⟨hp, fun hd k s hs => .inl ⟨hs, rfl⟩⟩
  | cons a as ih =>
    intro st st' hp h
    unfold moveAll at h
    split at h
    · cases h
    · rename_i st1 h1
      obtain ⟨p1, r1⟩ := moveOne_right w o st st1 a hp h1
      obtain ⟨p2, r2⟩ := ih st1 st' p1 h
      exact ⟨p2, right_trans w st st1 st' r1 r2⟩

theorem sub_rebind (st : St) (s o : Nat) : (rebind st s o).sub = st.sub := by
  unfold rebind; rw [sub_updateObjRef]; rfl

theorem resync_right (w : World) (st st' : St) (s : Nat) (hp : Placed st)
    (hw : ∀ s, (st.sym s).isGlobal = true → (st.sym s).home = none)
    (h : resync w st s = .ok st') :
    Placed st' ∧ ∀ hd k s, st'.sub hd k = some s →
      (st.sub hd k = some s ∧ (st'.sym s).obj = (st.sym s).obj) ∨ Right w st' hd k s := by
  have same : Placed st ∧ ∀ hd k s, st.sub hd k = some s →
      (st.sub hd k = some s ∧ (st.sym s).obj = (st.sym s).obj) ∨ Right w st hd k s :=
    ⟨hp, fun hd k s hs => .inl ⟨hs, rfl⟩⟩
  unfold resync at h
  simp only at h
  split at h
  · rename_i hg
    split at h
    · cases h; exact same
    · rename_i o _
      split at h
      · split at h
        · cases h
        · rename_i st1 h1
          cases h
          obtain ⟨p1, r1⟩ := moveAll_right w o _ st st1 hp h1
          have hhome : (st1.sym s).home = none := by
            rw [((moveAll_moved w o _ st st1 h1).kind s).2.2.2.1]; exact hw s hg
          have hns : ∀ hd k t, st1.sub hd k = some t → t ≠ s := by
            rintro hd k t ht rfl
            rw [(p1 hd k t ht).1] at hhome; cases hhome
          have hsym : ∀ hd k t, st1.sub hd k = some t → (rebind st1 s o).sym t = st1.sym t := by
            intro hd k t ht
            rw [sym_rebind, if_neg (hns hd k t ht)]
          constructor
          · intro hd k t ht
            rw [sub_rebind] at ht
            rw [hsym hd k t ht]
            exact p1 hd k t ht
          · refine right_trans w st st1 _ r1 ?_
            intro hd k t ht
            rw [sub_rebind] at ht
            exact .inl ⟨ht, by rw [hsym hd k t ht]⟩
      · split at h
        · cases h
          have hobj : ∀ t, ((modify st s fun y => { y with cached := some y.obj }).sym t).obj =
              (st.sym t).obj := by
            intro t; by_cases ht : t = s <;> simp [modify, ht]
          constructor
          · intro hd k t ht
            have := hp hd k t ht
            by_cases hts : t = s
            · subst hts; simpa [modify] using this
            · simpa [modify, hts] using this
          · intro hd k t ht
            exact .inl ⟨ht, hobj t⟩
        · cases h; exact same
  · cases h; exact same

theorem resyncAll_right (w : World) (ss : List Nat) : ∀ (st st' : St), Placed st →
    (∀ s, (st.sym s).isGlobal = true → (st.sym s).home = none) →
    resyncAll w st ss = .ok st' →
    Placed st' ∧ ∀ hd k s, st'.sub hd k = some s →
      (st.sub hd k = some s ∧ (st'.sym s).obj = (st.sym s).obj) ∨ Right w st' hd k s := by
  induction ss with
  | nil => intro st st' hp _ h; cases h; exact ⟨hp, fun hd k s hs => .inl ⟨hs, rfl⟩⟩
  | cons a as ih =>
    intro st st' hp hw h
    unfold resyncAll at h
    split at h
    · cases h
    · rename_i st1 h1
      obtain ⟨a1, _⟩ := resync_sym w st st1 a h1
      obtain ⟨p1, r1⟩ := resync_right w st st1 a hp hw h1
      obtain ⟨p2, r2⟩ := ih st1 st' p1 (by
        intro k hk
        rw [(a1 k).2.2.2.1]; exact hw k (by rw [← (a1 k).2.1]; exact hk)) h
      exact ⟨p2, right_trans w st st1 st' r1 r2⟩

/-- What is found for an element of a list afterwards is what was found before, for the same
object, or it stands for what is there. -/
theorem elements_right (w : World) (now : Nat) (all : List Nat) (st st' : St)
    (known : Nat → Prop) (hw : Wf st known) (hp : Placed st)
    (h : afterRun w now all st = .ok st') :
    Placed st' ∧ ∀ hd k s, st'.sub hd k = some s →
      (st.sub hd k = some s ∧ (st'.sym s).obj = (st.sym s).obj) ∨ Right w st' hd k s :=
  resyncAll_right w _ st st' hp hw.home h

/-! ## Failure -/

theorem moveOne_ok (w : World) (o : Nat) (st : St) (a : Nat)
    (hh : ∀ h, (st.sym a).home = some h → w.elems h ≠ some []) :
    ∃ st', moveOne w o st a = .ok st' := by
  unfold moveOne
  simp only
  split
  · exact ⟨_, rfl⟩
  · split
    · exact ⟨_, rfl⟩
    · rename_i hd hhd
      split
      · exact ⟨_, rfl⟩
      · rename_i l hl
        split
        · rename_i hn
          rw [List.getLast?_eq_none_iff.1 hn] at hl
          exact absurd hl (hh hd hhd)
        · split <;> exact ⟨_, rfl⟩

theorem moveAll_ok (w : World) (o : Nat) (as : List Nat) : ∀ st : St,
    (∀ a ∈ as, ∀ h, (st.sym a).home = some h → w.elems h ≠ some []) →
    ∃ st', moveAll w o st as = .ok st' := by
  induction as with
  | nil => intro st _; exact ⟨st, rfl⟩
  | cons a as ih =>
    intro st hh
    obtain ⟨st1, h1⟩ := moveOne_ok w o st a (hh a (by simp))
    have m := moveOne_moved w o st st1 a h1
    obtain ⟨st2, h2⟩ := ih st1 (fun b hb h hb' =>
      hh b (by simp [hb]) h (by rw [← (m.kind b).2.2.2.1]; exact hb'))
    exact ⟨st2, by unfold moveAll; rw [h1]; exact h2⟩

theorem resync_ok (w : World) (st : St) (s : Nat) (known : Nat → Prop) (hi : Inv st known)
    (hh : ∀ a h, known a → (st.sym a).home = some h → w.elems h ≠ some []) :
    ∃ st', resync w st s = .ok st' := by
  unfold resync
  simp only
  split
  · split
    · exact ⟨_, rfl⟩
    · rename_i o _
      split
      · obtain ⟨st1, h1⟩ := moveAll_ok w o (toCheck st s o) st
          (fun a ha h hb => hh a h (toCheck_known st known hi s o a ha) hb)
        rw [h1]
        exact ⟨_, rfl⟩
      · split <;> exact ⟨_, rfl⟩
  · exact ⟨_, rfl⟩

theorem resyncAll_ok (w : World) (known : Nat → Prop) (ss : List Nat) : ∀ st : St,
    Inv st known → (∀ s ∈ ss, known s) →
    (∀ s, (st.sym s).isGlobal = true → (st.sym s).home = none) →
    (∀ a h, known a → (st.sym a).home = some h → w.elems h ≠ some []) →
    ∃ st', resyncAll w st ss = .ok st' := by
  induction ss with
  | nil => intro st _ _ _ _; exact ⟨st, rfl⟩
  | cons s ss ih =>
    intro st hi hk hw hh
    obtain ⟨st1, h1⟩ := resync_ok w st s known hi hh
    obtain ⟨a1, _⟩ := resync_sym w st st1 s h1
    obtain ⟨st2, h2⟩ := ih st1 (resync_inv w st st1 s known hi (hk s (by simp)) hw h1)
      (fun t ht => hk t (by simp [ht]))
      (fun k hk => by rw [(a1 k).2.2.2.1]; exact hw k (by rw [← (a1 k).2.1]; exact hk))
      (fun a h ha hb => hh a h ha (by rw [← (a1 a).2.2.2.1]; exact hb))
    exact ⟨st2, by unfold resyncAll; rw [h1]; exact h2⟩

/-- Bringing things up to date does not fail, if no list of which elements are known is now
empty. -/
theorem succeeds_partial (w : World) (now : Nat) (all : List Nat) (st : St)
    (known : Nat → Prop) (hw : Wf st known) (hl : Listed st known) (ha : ∀ s ∈ all, known s)
    (hh : ∀ a h, known a → (st.sym a).home = some h → w.elems h ≠ some []) :
    ∃ st', afterRun w now all st = .ok st' :=
  resyncAll_ok w known _ st ⟨hl, hw.cached⟩
    (fun s hs => ha s (List.mem_filter.1 hs).1) hw.home hh

/-! ## What is not brought up to date -/

/-- A variable that does not count as updated by the cell stays as it was known, whatever it
is now. -/
theorem others_kept (w : World) (now : Nat) (all : List Nat) (st st' : St)
    (known : Nat → Prop) (hw : Wf st known) (h : afterRun w now all st = .ok st') (s : Nat)
    (hg : (st.sym s).isGlobal = true) (hc : (st.sym s).cell ≠ now) : st'.sym s = st.sym s := by
  refine (resyncAll_sym w _ st st' hw.home h).2.1 s (hw.home s hg) ?_
  intro hm
  exact hc (by simpa using (List.mem_filter.1 hm).2)

end Verif.Resync
