import Verif.Age.Lemmas
import Mathlib.Data.List.Basic

/-! # How new objects are: properties (C89, C90, C91) -/

namespace Verif.Age

variable {S O T : Type} [DecidableEq S] [DecidableEq O] [LinearOrder T]
variable {H : Heap S O}

/-! ## Specification -/

/-- Variables, attributes and elements other than imported and module-valued ones. -/
def Plain (H : Heap S O) (s : S) : Prop := H.isImport s = false ∧ H.isModule s = false

/-- `p` is an attribute or element of the object of `q`. -/
def Held (H : Heap S O) (st : St S O T) (p q : S) : Prop := Plain H p ∧ H.holder p = some (st.obj q)

/-- `p` is somewhere inside the object of `q`. -/
def Inside (H : Heap S O) (st : St S O T) : S → S → Prop := Relation.TransGen (Held H st)

/-- Only what has a namespace holds symbols, members are held, and modules are only held by variables. -/
structure Heap.Wf (H : Heap S O) : Prop where
  ns : ∀ q o, H.holder q = some o → H.hasNs o = true
  plain : ∀ q o, H.holder q = some o → Plain H q
  own : ∀ o, ∀ m ∈ H.own o, H.holder m = some o
  members : ∀ o, ∀ m ∈ H.own o, m ∈ H.members o

/-- Nothing has been updated. -/
def Fresh (t : T) (st : St S O T) : Prop := (∀ q, st.ts q = t) ∧ ∀ o, st.md o = t

/-- The table of aliases knows every symbol. -/
def Names (st : St S O T) : Prop := ∀ q, q ∈ st.aliases (st.obj q)

/-- The objects below the one that is assigned are not held by anything else. -/
def Private (H : Heap S O) (st : St S O T) (s : S) : Prop :=
  ∀ r q, Below H st.obj s r → H.holder r = some (st.obj q) → q = s ∨ H.holder q = none ∨ Below H st.obj s q

/-- Updates for which versions are kept right: attributes and elements are really exchanged, and whole objects that are assigned do not share
parts with others. -/
structure EvOk (H : Heap S O) (st : St S O T) (e : Upd S O T) : Prop where
  settled : e.propagate = true ∨ H.holder e.sym = none
  notShared : e.refresh = true → e.propagate = true → e.simple = false →
    (e.mutated = true ∧ e.descend = false) ∨ (e.descend = true ∧ H.isImport e.sym = false) ∨ Private H st e.sym

/-- Runs of such updates at growing times. -/
def OkRun (H : Heap S O) (n : Nat) : T → List (Upd S O T) → St S O T → Prop
  | _, [], _ => True
  | t, e :: es, st => t ≤ e.now ∧ EvOk H (start e st) e ∧ ∀ st', update H n e st = .ok st' → OkRun H n e.now es st'

/-- The table of aliases is right. -/
def Exact (st : St S O T) : Prop := ∀ q o, q ∈ st.aliases o ↔ st.obj q = o

/-- The symbols an update is about: the one named; the other names of the object, if the object itself was changed; for data frames the attribute or
element of the same name. -/
def Directly (H : Heap S O) (e : Upd S O T) (st : St S O T) (q : S) : Prop :=
  q = e.sym ∨ (e.propagate = true ∧ ((e.mutated = true ∧ st.obj q = st.obj e.sym) ∨ q ∈ H.dup e.sym))

/-- What an update ought to make newer: what it is about (unless that waits for something else), and what contains it. -/
def Concerned (H : Heap S O) (e : Upd S O T) (st : St S O T) (q : S) : Prop :=
  (e.refresh = true ∧ (q = e.sym ∨ (Directly H e st q ∧ e.waiting q = false))) ∨ ∃ p, Directly H e st p ∧ Inside H st p q

/-! ## Proofs -/

/-- The invariant. -/
structure Cov (H : Heap S O) (t : T) (st : St S O T) : Prop where
  own : ∀ q o, H.holder q = some o → st.ts q ≤ st.md o
  link : ∀ q o, H.holder q = some o → H.hasNs (st.obj q) = true → st.md (st.obj q) ≤ st.md o
  tops : ∀ q, st.ts q ≤ t
  topm : ∀ o, st.md o ≤ t

theorem start_ts (e : Upd S O T) (st : St S O T) : (start e st).ts = st.ts := by
  unfold start; cases e.target <;> rfl

theorem start_md (e : Upd S O T) (st : St S O T) : (start e st).md = st.md := by
  unfold start; cases e.target <;> rfl

theorem start_obj (e : Upd S O T) (st : St S O T) {q : S} (h : q ≠ e.sym) : (start e st).obj q = st.obj q := by
  unfold start
  cases e.target with
  | none => rfl
  | some o => show (if q = e.sym then o else st.obj q) = _; rw [if_neg h]

theorem start_names (e : Upd S O T) {st : St S O T} (h : Names st) : Names (start e st) := by
  unfold start
  cases e.target with
  | none => exact h
  | some o =>
    have key : ∀ (o' : O) (q : S), (q ∈ (if o' = st.obj e.sym then (st.aliases o').filter (fun q => decide (q ≠ e.sym)) else st.aliases o') ∨
        (o' = o ∧ q = e.sym)) → q ∈ (relink st e.sym o).aliases o' := by
      intro o' q hq
      show q ∈ (if o' = o ∧ e.sym ∉ (if o' = st.obj e.sym then (st.aliases o').filter (fun q => decide (q ≠ e.sym)) else st.aliases o') then
        (if o' = st.obj e.sym then (st.aliases o').filter (fun q => decide (q ≠ e.sym)) else st.aliases o') ++ [e.sym] else
        (if o' = st.obj e.sym then (st.aliases o').filter (fun q => decide (q ≠ e.sym)) else st.aliases o'))
      generalize (if o' = st.obj e.sym then (st.aliases o').filter (fun q => decide (q ≠ e.sym)) else st.aliases o') = l at hq
      by_cases hc : o' = o ∧ e.sym ∉ l
      · rw [if_pos hc]
        rcases hq with hq | ⟨_, rfl⟩
        · exact List.mem_append_left _ hq
        · simp
      · rw [if_neg hc]
        rcases hq with hq | ⟨h1, rfl⟩
        · exact hq
        · by_contra hn
          exact hc ⟨h1, hn⟩
    intro q
    apply key
    show _ ∨ ((if q = e.sym then o else st.obj q) = o ∧ q = e.sym)
    by_cases hq : q = e.sym
    · right
      rw [if_pos hq]
      exact ⟨rfl, hq⟩
    · left
      have h1 := h q
      have e1 : (relink st e.sym o).obj q = st.obj q := if_neg hq
      show q ∈ (if (relink st e.sym o).obj q = st.obj e.sym then (st.aliases ((relink st e.sym o).obj q)).filter (fun q => decide (q ≠ e.sym))
        else st.aliases ((relink st e.sym o).obj q))
      rw [e1]
      by_cases h2 : st.obj q = st.obj e.sym
      · rw [if_pos h2]; simp [h1, hq]
      · rw [if_neg h2]; exact h1

theorem mem_union {a b : List S} {q : S} : q ∈ union a b ↔ q ∈ a ∨ q ∈ b := by
  unfold union
  simp only [List.mem_append, List.mem_filter, decide_eq_true_eq]
  by_cases h : q ∈ a <;> simp [h]

theorem sym_direct (e : Upd S O T) {st : St S O T} (h : Names st) : e.sym ∈ direct H e st := by
  unfold direct
  rw [mem_union]
  left
  cases e.mutated
  · simp
  · simpa using h e.sym

theorem pollute_names (e : Upd S O T) {st : St S O T} (h : Names st) : Names (pollute H e st) := by
  unfold pollute
  cases hm : e.mutated
  · simpa using h
  · simp only [if_true]
    intro q
    show q ∈ (if st.obj q = st.obj e.sym then direct H e st else st.aliases (st.obj q))
    by_cases hq : st.obj q = st.obj e.sym
    · rw [if_pos hq]
      unfold direct
      rw [mem_union, hm]
      left
      simp only [if_true]
      rw [← hq]
      exact h q
    · rw [if_neg hq]; exact h q

theorem pollute_obj (e : Upd S O T) (st : St S O T) : (pollute H e st).obj = st.obj := by
  unfold pollute; cases e.mutated <;> rfl

theorem pollute_ts (e : Upd S O T) (st : St S O T) : (pollute H e st).ts = st.ts := by
  unfold pollute; cases e.mutated <;> rfl

theorem pollute_md (e : Upd S O T) (st : St S O T) : (pollute H e st).md = st.md := by
  unfold pollute; cases e.mutated <;> rfl

/-- What `refresh` reaches in an update. -/
def Reach (H : Heap S O) (e : Upd S O T) (st : St S O T) (q : S) : Prop :=
  e.refresh = true ∧ (q = e.sym ∨ (deepRefresh e = true ∧ Below H st.obj e.sym q))

theorem refresh_part {n : Nat} {e : Upd S O T} {st0 : St S O T} {x : St S O T × List S}
    (h : (if e.refresh then refresh H e.now n (deepRefresh e) e.sym (st0, []) else .ok (st0, [])) = .ok x) :
    Grow H e.now (Reach H e st0) st0 x.1 ∧ ∀ q, Reach H e st0 q → x.1.ts q = e.now := by
  cases hr : e.refresh with
  | false =>
    rw [hr] at h
    simp only [Bool.false_eq_true, if_false, Except.ok.injEq] at h
    subst h
    exact ⟨.refl _ _, fun q hq => by simp [Reach, hr] at hq⟩
  | true =>
    rw [hr] at h
    simp only [if_true] at h
    cases hd : deepRefresh e with
    | false =>
      rw [hd] at h
      cases n with
      | zero => simp [refresh] at h
      | succ n =>
        simp only [refresh, List.not_mem_nil, if_false, Bool.false_eq_true, Except.ok.injEq] at h
        subst h
        refine ⟨bump_grow ⟨hr, .inl rfl⟩ _, fun q hq => ?_⟩
        have : q = e.sym := by simpa [Reach, hr, hd] using hq
        subst this
        show (bump H e.now e.sym st0).ts e.sym = e.now
        rw [bump_ts, if_pos rfl]
    | true =>
      rw [hd] at h
      have hp := refresh_post (H := H) (now := e.now) (R := Reach H e st0) (D := fun m => m = e.sym ∨ H.rest m = true) st0.obj
        (fun m hm => .inr hm) (by
          intro x m hx hD hns hm
          refine ⟨hr, .inr ⟨hd, ?_⟩⟩
          rcases hx.2 with rfl | ⟨_, hb⟩
          · exact .base hns hm
          · rcases hD with rfl | hD
            · exact .base hns hm
            · exact .step hb hD hns hm) n true e.sym (st0, []) x ⟨hr, .inl rfl⟩ (fun _ => .inl rfl) rfl (by simp) h
      obtain ⟨h1, h2, h3⟩ := hp
      refine ⟨h1.grow, fun q hq => ?_⟩
      rcases hq.2 with rfl | ⟨_, hb⟩
      · exact h2
      · have : x.1.ts q = e.now ∧ (H.rest q = true → q ∈ x.2) := by
          induction hb with
          | base hns hm => exact h1.closed e.sym (h3 rfl) (by simp) hns _ hm
          | step hb hrest hns hm ih => exact h1.closed _ ((ih ⟨hr, .inr ⟨hd, hb⟩⟩).2 hrest) (by simp) hns _ hm
        exact this.1

/-- What the second half of an update does. -/
theorem protocol_part {n : Nat} {e : Upd S O T} {st1 st' : St S O T} (R : S → Prop)
    (hup : ∀ q o a, R q → H.isImport q = false → upOf H q = some o → a ∈ (pollute H e st1).aliases o → R a)
    (hdown : e.descend = true → ∀ q a, R q → H.isImport q = false → H.hasNs (st1.obj q) = true → a ∈ H.members (st1.obj q) → R a)
    (hdir : ∀ q ∈ direct H e st1, R q)
    (h : protocol H n e st1 = .ok st') :
    ∃ y : St S O T × List S, CPost H e.now e.descend R (pollute H e st1, []) y ∧
      (∀ q ∈ direct H e st1, H.isImport q = false → q ∈ y.2) ∧ st' = if e.refresh then others H e (direct H e st1) y.1 else y.1 := by
  unfold protocol at h
  cases hc : (direct H e st1).foldlM (fun x a => collect H e.now e.descend n a x) (pollute H e st1, []) with
  | error err => rw [hc] at h; simp at h
  | ok y =>
    rw [hc] at h
    simp only [Except.ok.injEq] at h
    obtain ⟨h1, h2⟩ := fold_cpost (H := H) (now := e.now) (desc := e.descend) (R := R) (direct H e st1) (pollute H e st1, []) y
      (fun m hm z z' hz hz' hzz => collect_post (H := H) (now := e.now) st1.obj (pollute H e st1).aliases hup hdown n m z z' (hdir m hm)
        (by rw [hz]; exact pollute_obj e st1) hz' hzz) hc
    exact ⟨y, h1, h2, h.symm⟩

theorem update_cov {n : Nat} {e : Upd S O T} {st st' : St S O T} {t : T} (hH : H.Wf) (hc : Cov H t st) (hn : Names st) (ht : t ≤ e.now)
    (ho : EvOk H (start e st) e) (h : update H n e st = .ok st') : Cov H e.now st' ∧ Names st' := by
  unfold update at h
  cases hx : (if e.refresh then refresh H e.now n (deepRefresh e) e.sym (start e st, []) else .ok (start e st, [])) with
  | error err => rw [hx] at h; simp at h
  | ok x =>
    rw [hx] at h
    simp only at h
    obtain ⟨hg, hreach⟩ := refresh_part hx
    have hn0 := start_names e hn
    have hnx : Names x.1 := by
      intro q; rw [hg.obj, hg.aliases]; exact hn0 q
    have h0own : ∀ q o, H.holder q = some o → (start e st).ts q ≤ (start e st).md o := by
      intro q o hq; rw [start_ts, start_md]; exact hc.own q o hq
    have h0ts : ∀ q, (start e st).ts q ≤ e.now := by intro q; rw [start_ts]; exact le_trans (hc.tops q) ht
    have h0md : ∀ o, (start e st).md o ≤ e.now := by intro o; rw [start_md]; exact le_trans (hc.topm o) ht
    have hxts : ∀ q, x.1.ts q ≤ e.now := by
      intro q
      rcases hg.ts q with e1 | ⟨e1, _⟩
      · rw [e1]; exact h0ts q
      · rw [e1]
    have hxmd' : ∀ o, x.1.md o = (start e st).md o ∨ (x.1.md o = e.now ∧ ∃ r, Reach H e (start e st) r ∧ H.holder r = some o) := by
      intro o
      rcases hg.md o with e1 | ⟨e1, r⟩
      · exact .inl e1
      · exact .inr ⟨by rw [e1]; exact max_eq_right (h0md o), r⟩
    have hxmd : ∀ o, x.1.md o ≤ e.now := by
      intro o
      rcases hxmd' o with e1 | ⟨e1, _⟩
      · rw [e1]; exact h0md o
      · rw [e1]
    have hxown : ∀ q o, H.holder q = some o → x.1.ts q ≤ x.1.md o := fun q o hq => hg.held q o hq (h0own q o hq)
    cases hp : e.propagate with
    | false =>
      rw [hp] at h
      simp only [Bool.false_eq_true, if_false, Except.ok.injEq] at h
      subst h
      have hnone : H.holder e.sym = none := by
        rcases ho.settled with h1 | h1
        · rw [hp] at h1; cases h1
        · exact h1
      have hsame : ∀ o, x.1.md o = (start e st).md o := by
        intro o
        rcases hxmd' o with e1 | ⟨_, r, hr, hro⟩
        · exact e1
        · rcases hr.2 with rfl | ⟨hd, _⟩
          · rw [hnone] at hro; cases hro
          · simp [deepRefresh, hp] at hd
      refine ⟨⟨hxown, ?_, hxts, hxmd⟩, hnx⟩
      intro q o hq hns
      have hqs : q ≠ e.sym := by rintro rfl; rw [hnone] at hq; cases hq
      rw [hg.obj] at hns ⊢
      rw [hsame, hsame, start_md, start_obj e st hqs]
      rw [start_obj e st hqs] at hns
      exact hc.link q o hq hns
    | true =>
      rw [hp] at h
      simp only [if_true] at h
      obtain ⟨y, hy, hdir, hst'⟩ := protocol_part (H := H) (fun _ => True) (fun _ _ _ _ _ _ _ => trivial) (fun _ _ _ _ _ _ _ => trivial)
        (fun _ _ => trivial) h
      have hyobj : y.1.obj = x.1.obj := hy.obj.trans (pollute_obj e x.1)
      have hyts : y.1.ts = x.1.ts := hy.ts.trans (pollute_ts e x.1)
      have hyal : y.1.aliases = (pollute H e x.1).aliases := hy.aliases
      have hst : ∀ q ∈ y.2, ∀ o, upOf H q = some o → y.1.md o = e.now := hy.stamped (by simp)
      have hymd : ∀ o, y.1.md o = x.1.md o ∨ (y.1.md o = e.now ∧ ∃ q ∈ y.2, upOf H q = some o) := by
        intro o
        rcases hy.md o with e1 | ⟨e1, q, hq, _, hqo⟩
        · left; rw [e1, pollute_md]
        · exact .inr ⟨e1, q, hq, hqo⟩
      have hyle : ∀ o, y.1.md o ≤ e.now := by
        intro o
        rcases hymd o with e1 | ⟨e1, _⟩
        · rw [e1]; exact hxmd o
        · rw [e1]
      have hyown : ∀ q o, H.holder q = some o → y.1.ts q ≤ y.1.md o := by
        intro q o hq
        rw [hyts]
        rcases hymd o with e1 | ⟨e1, _⟩
        · rw [e1]; exact hxown q o hq
        · rw [e1]; exact hxts q
      -- the last loop
      have hzg : Grow H e.now (fun q => q ∈ direct H e x.1) y.1 st' := by
        rw [hst']
        cases e.refresh
        · exact .refl _ _
        · exact others_grow _ _ (fun _ hq => hq)
      have hzts : ∀ q, st'.ts q ≤ e.now := by
        intro q
        rcases hzg.ts q with e1 | ⟨e1, _⟩
        · rw [e1, hyts]; exact hxts q
        · rw [e1]
      have hzmd : ∀ o, st'.md o = y.1.md o ∨ (st'.md o = e.now ∧ ∃ q ∈ direct H e x.1, H.holder q = some o) := by
        intro o
        rcases hzg.md o with e1 | ⟨e1, q, hq, hqo⟩
        · exact .inl e1
        · exact .inr ⟨by rw [e1]; exact max_eq_right (hyle o), q, hq, hqo⟩
      have hzle : ∀ o, st'.md o ≤ e.now := by
        intro o
        rcases hzmd o with e1 | ⟨e1, _⟩
        · rw [e1]; exact hyle o
        · rw [e1]
      have hzobj : st'.obj = (start e st).obj := by rw [hzg.obj, hyobj, hg.obj]
      have hzn : Names st' := by
        intro q
        rw [hzg.obj, hzg.aliases, hyal, hyobj, ← pollute_obj (H := H) e x.1]
        exact pollute_names e hnx q
      have upHolder : ∀ q o, H.holder q = some o → upOf H q = some o := by
        intro q o hq
        unfold upOf
        rw [(hH.plain q o hq).2]
        simpa using hq
      refine ⟨⟨fun q o hq => hzg.held q o hq (hyown q o hq), ?_, hzts, hzle⟩, hzn⟩
      intro q o hq hns
      rw [hzobj] at hns ⊢
      by_cases hnow : st'.md o = e.now
      · rw [hnow]; exact hzle _
      -- the container was not stamped, so neither was the object
      have hynow : y.1.md o ≠ e.now := by
        intro h1
        apply hnow
        apply le_antisymm (hzle o)
        rw [← h1]; exact hzg.mdle o
      have hynew : y.1.md o = x.1.md o := by
        rcases hymd o with e1 | ⟨e1, _⟩
        · exact e1
        · exact absurd e1 hynow
      have hxnow : x.1.md o ≠ e.now := by rw [← hynew]; exact hynow
      have hqnot : q ∉ y.2 := fun h1 => hynow (hst q h1 o (upHolder q o hq))
      have hA : ∀ r ∈ y.2, upOf H r ≠ some ((start e st).obj q) := by
        intro r hr hro
        apply hqnot
        apply hy.closed r hr (by simp) _ hro q _ (hH.plain q o hq).1
        have := pollute_names (H := H) e hnx q
        rw [pollute_obj, hg.obj] at this
        exact this
      have hsdir : e.sym ∈ direct H e x.1 := sym_direct e hnx
      have hB : ∀ r ∈ direct H e x.1, H.holder r ≠ some ((start e st).obj q) := by
        intro r hr hro
        exact hA r (hdir r hr (hH.plain r _ hro).1) (upHolder r _ hro)
      have hqs : q ≠ e.sym := by
        rintro rfl
        exact hqnot (hdir _ hsdir (hH.plain _ o hq).1)
      have h1 : st'.md ((start e st).obj q) = y.1.md ((start e st).obj q) := by
        rcases hzmd ((start e st).obj q) with e1 | ⟨_, r, hr, hro⟩
        · exact e1
        · exact absurd hro (hB r hr)
      have h2 : y.1.md ((start e st).obj q) = x.1.md ((start e st).obj q) := by
        rcases hymd ((start e st).obj q) with e1 | ⟨_, r, hr, hro⟩
        · exact e1
        · exact absurd hro (hA r hr)
      have h3 : x.1.md ((start e st).obj q) = (start e st).md ((start e st).obj q) := by
        rcases hxmd' ((start e st).obj q) with e1 | ⟨_, r, hr, hro⟩
        · exact e1
        · exfalso
          rcases hr.2 with rfl | ⟨hd, hb⟩
          · exact hB _ hsdir hro
          · have hd' := hd
            simp only [deepRefresh, Bool.and_eq_true, Bool.not_eq_true', hp, true_and] at hd'
            rcases ho.notShared hr.1 hp hd'.2 with ⟨hmu, hde⟩ | ⟨hdesc, himp⟩ | hpriv
            · rw [hmu, hde] at hd'; simp at hd'
            · -- `collect` goes down as well
              have hdown : ∀ {m}, Below H (start e st).obj e.sym m → m ∈ y.2 := by
                have hmem : ∀ z m, z ∈ y.2 → H.hasNs ((start e st).obj z) = true → m ∈ H.own ((start e st).obj z) → m ∈ y.2 := by
                  intro z m hz hzn hm
                  apply hy.down hdesc z hz (by simp) _ m _ (hH.plain m _ (hH.own _ m hm)).1
                  · show H.hasNs ((pollute H e x.1).obj z) = true
                    rw [pollute_obj, hg.obj]; exact hzn
                  · show m ∈ H.members ((pollute H e x.1).obj z)
                    rw [pollute_obj, hg.obj]; exact hH.members _ m hm
                intro m hb
                induction hb with
                | base hns' hm =>
                  exact hmem _ _ (hdir _ hsdir himp) hns' hm
                | step hb _ hns' hm ih => exact hmem _ _ ih hns' hm
              exact hA r (hdown hb) (upHolder r _ hro)
            · rcases hpriv r q hb hro with rfl | hnone | hbq
              · exact hqs rfl
              · rw [hnone] at hq; cases hq
              · have h4 := hreach q ⟨hr.1, .inr ⟨hd, hbq⟩⟩
                have h5 := hxown q o hq
                rw [h4] at h5
                exact hxnow (le_antisymm (hxmd o) h5)
      rw [h1, h2, h3, start_md, start_obj e st hqs]
      rw [start_obj e st hqs] at hns
      exact le_trans (hc.link q o hq hns) (by
        have : st.md o = (start e st).md o := by rw [start_md]
        rw [this]
        exact le_trans (hg.mdle o) (by rw [← hynew]; exact hzg.mdle o))

/-- C89. After any run of updates of variables, attributes and elements at growing times, in which objects are assigned and mutated, an object is at least as
new as everything inside it. -/
theorem covers_partial {n : Nat} {t : T} {es : List (Upd S O T)} {st st' : St S O T} (hH : H.Wf) (hf : Fresh t st) (hn : Names st)
    (ho : OkRun H n t es st) (h : run H n es st = .ok st') {p q : S} (hpq : Inside H st' p q) (hq : Plain H q) : st'.ts p ≤ deep H st' q := by
  have hc : Cov H t st := ⟨fun q o _ => by rw [hf.1, hf.2], fun q o _ _ => by rw [hf.2, hf.2], fun q => by rw [hf.1], fun o => by rw [hf.2]⟩
  clear hf
  have key : ∃ t', Cov H t' st' := by
    induction es generalizing st t with
    | nil =>
      simp only [run, List.foldlM_nil, pure, Except.pure, Except.ok.injEq] at h
      subst h
      exact ⟨t, hc⟩
    | cons e es ih =>
      simp only [run, List.foldlM_cons] at h
      cases hu : update H n e st with
      | error err => rw [hu] at h; simp [bind, Except.bind] at h
      | ok st1 =>
        rw [hu] at h
        simp only [bind, Except.bind] at h
        obtain ⟨h1, h2, h3⟩ := ho
        obtain ⟨h4, h5⟩ := update_cov hH hc hn h1 h2 hu
        exact ih h5 (h3 st1 hu) h h4
  obtain ⟨t', hc'⟩ := key
  have hmd : ∀ {p q : S}, Inside H st' p q → st'.ts p ≤ st'.md (st'.obj q) := by
    intro p q hpq
    induction hpq with
    | single h1 => exact hc'.own _ _ h1.2
    | tail _ h1 ih => exact le_trans ih (hc'.link _ _ h1.2 (by
        rename_i b _ h0
        cases h0 with
        | single h0 => exact hH.ns _ _ h0.2
        | tail _ h0 => exact hH.ns _ _ h0.2))
  have hns : H.hasNs (st'.obj q) = true := by
    cases hpq with
    | single h0 => exact hH.ns _ _ h0.2
    | tail _ h0 => exact hH.ns _ _ h0.2
  unfold deep
  rw [hq.1, hq.2, hns]
  simp only [Bool.or_self, Bool.false_eq_true, if_false, if_true]
  exact le_trans (hmd hpq) (le_max_right _ _)

theorem pollute_exact (e : Upd S O T) {st : St S O T} (h : Exact st) (hd : e.mutated = true → H.dup e.sym = []) : Exact (pollute H e st) := by
  unfold pollute
  cases hm : e.mutated
  · simpa using h
  · simp only [if_true]
    intro q o
    show q ∈ (if o = st.obj e.sym then direct H e st else st.aliases o) ↔ st.obj q = o
    by_cases ho : o = st.obj e.sym
    · rw [if_pos ho]
      unfold direct
      rw [mem_union, hm, hd hm, ho]
      simpa using h q (st.obj e.sym)
    · rw [if_neg ho]; exact h q o

theorem mem_direct (e : Upd S O T) {st : St S O T} (h : Exact st) (hp : e.propagate = true) (q : S) : q ∈ direct H e st ↔ Directly H e st q := by
  unfold direct Directly
  rw [mem_union, hp]
  cases hm : e.mutated
  · simp
  · simp only [if_true, true_and]
    rw [h q]
    constructor
    · rintro (h1 | h1)
      · exact .inr (.inl h1)
      · exact .inr (.inr h1)
    · rintro (rfl | h1 | h1)
      · exact .inl rfl
      · exact .inl h1
      · exact .inr h1

/-- C90. An update of an attribute, an element or a variable (without going down into what is assigned) makes newer what it is about and what contains it,
and nothing else. -/
theorem update_exact_partial {n : Nat} {e : Upd S O T} {st st' : St S O T} (hH : H.Wf) (he : Exact (start e st))
    (hs : e.propagate = true ∨ H.holder e.sym = none) (hts : ∀ q, st.ts q ≤ e.now) (hmd : ∀ o, st.md o ≤ e.now)
    (hkind : e.propagate = false ∨ e.mutated = true ∨ e.simple = true) (hdesc : e.descend = false) (hdup : e.mutated = true → H.dup e.sym = [])
    (h : update H n e st = .ok st') {q : S} (hq : Plain H q) :
    (Concerned H e (start e st) q → deep H st' q = e.now) ∧ (¬ Concerned H e (start e st) q → deep H st' q = deep H (start e st) q) := by
  have hdeep : deepRefresh e = false := by
    unfold deepRefresh
    rcases hkind with h1 | h1 | h1 <;> simp [h1, hdesc]
  unfold update at h
  cases hx : (if e.refresh then refresh H e.now n (deepRefresh e) e.sym (start e st, []) else .ok (start e st, [])) with
  | error err => rw [hx] at h; simp at h
  | ok x =>
    rw [hx] at h
    simp only at h
    obtain ⟨hg, hreach⟩ := refresh_part hx
    have hR : ∀ r, Reach H e (start e st) r ↔ e.refresh = true ∧ r = e.sym := by
      intro r; simp [Reach, hdeep]
    have h0ts : ∀ q, (start e st).ts q ≤ e.now := by intro q; rw [start_ts]; exact hts q
    have h0md : ∀ o, (start e st).md o ≤ e.now := by intro o; rw [start_md]; exact hmd o
    have hxts : ∀ q, x.1.ts q ≤ e.now := by
      intro q
      rcases hg.ts q with e1 | ⟨e1, _⟩
      · rw [e1]; exact h0ts q
      · rw [e1]
    have hxmd' : ∀ o, x.1.md o = (start e st).md o ∨ (x.1.md o = e.now ∧ e.refresh = true ∧ H.holder e.sym = some o) := by
      intro o
      rcases hg.md o with e1 | ⟨e1, r, hr, hro⟩
      · exact .inl e1
      · rw [hR] at hr
        obtain ⟨hr, rfl⟩ := hr
        exact .inr ⟨by rw [e1]; exact max_eq_right (h0md o), hr, hro⟩
    have hxmd : ∀ o, x.1.md o ≤ e.now := by
      intro o
      rcases hxmd' o with e1 | ⟨e1, _⟩
      · rw [e1]; exact h0md o
      · rw [e1]
    -- it is enough to know the versions
    have fin : ∀ z : St S O T, z.obj = (start e st).obj →
        (e.refresh = true ∧ (q = e.sym ∨ (Directly H e (start e st) q ∧ e.waiting q = false)) → z.ts q = e.now) →
        (¬ (e.refresh = true ∧ (q = e.sym ∨ (Directly H e (start e st) q ∧ e.waiting q = false))) → z.ts q = (start e st).ts q) →
        ((∃ p, Directly H e (start e st) p ∧ Inside H (start e st) p q) → z.md ((start e st).obj q) = e.now) →
        (¬ (∃ p, Directly H e (start e st) p ∧ Inside H (start e st) p q) → z.md ((start e st).obj q) = (start e st).md ((start e st).obj q)) →
        (Concerned H e (start e st) q → deep H z q = e.now) ∧ (¬ Concerned H e (start e st) q → deep H z q = deep H (start e st) q) := by
      intro z hz f1 f2 f3 f4
      have htop : z.ts q ≤ e.now := by
        by_cases hc : e.refresh = true ∧ (q = e.sym ∨ (Directly H e (start e st) q ∧ e.waiting q = false))
        · rw [f1 hc]
        · rw [f2 hc]; exact h0ts q
      have htopm : z.md ((start e st).obj q) ≤ e.now := by
        by_cases hc : ∃ p, Directly H e (start e st) p ∧ Inside H (start e st) p q
        · rw [f3 hc]
        · rw [f4 hc]; exact h0md _
      unfold deep
      rw [hq.1, hq.2, hz]
      simp only [Bool.or_self, Bool.false_eq_true, if_false]
      constructor
      · rintro (hc | hc)
        · rw [f1 hc]
          split
          · exact max_eq_left htopm
          · rfl
        · have hns : H.hasNs ((start e st).obj q) = true := by
            obtain ⟨p, _, hpq⟩ := hc
            cases hpq with
            | single h0 => exact hH.ns _ _ h0.2
            | tail _ h0 => exact hH.ns _ _ h0.2
          rw [if_pos hns, f3 hc]
          exact max_eq_right htop
      · intro hc
        unfold Concerned at hc
        rw [not_or] at hc
        rw [f2 hc.1, f4 hc.2]
    cases hp : e.propagate with
    | false =>
      rw [hp] at h
      simp only [Bool.false_eq_true, if_false, Except.ok.injEq] at h
      subst h
      have hnone : H.holder e.sym = none := by
        rcases hs with h1 | h1
        · rw [hp] at h1; cases h1
        · exact h1
      have hD : ∀ p, Directly H e (start e st) p ↔ p = e.sym := by intro p; simp [Directly, hp]
      apply fin x.1 hg.obj
      · rintro ⟨hr, hc⟩
        apply hreach
        rw [hR]
        refine ⟨hr, ?_⟩
        rcases hc with hc | ⟨hc, _⟩
        · exact hc
        · exact (hD q).1 hc
      · intro hc
        rcases hg.ts q with e1 | ⟨_, hr⟩
        · exact e1
        · rw [hR] at hr
          exact absurd ⟨hr.1, .inl hr.2⟩ hc
      · rintro ⟨p, hd, hi⟩
        rw [hD] at hd
        subst hd
        exfalso
        rcases Relation.TransGen.head'_iff.1 hi with ⟨c, hc, _⟩
        rw [hc.2] at hnone
        cases hnone
      · intro _
        rcases hxmd' ((start e st).obj q) with e1 | ⟨_, _, hh⟩
        · exact e1
        · rw [hnone] at hh; cases hh
    | true =>
      rw [hp] at h
      simp only [if_true] at h
      have hex : Exact x.1 := by intro q o; rw [hg.obj, hg.aliases]; exact he q o
      have hpe : Exact (pollute H e x.1) := pollute_exact e hex hdup
      have hmem : ∀ r, r ∈ direct H e x.1 ↔ Directly H e (start e st) r := by
        intro r
        rw [mem_direct e hex hp]
        unfold Directly
        rw [hg.obj]
      obtain ⟨y, hy, hdir, hst'⟩ := protocol_part (H := H)
        (fun r => Directly H e (start e st) r ∨ ∃ p, Directly H e (start e st) p ∧ Inside H (start e st) p r)
        (by
          intro r o a hr hi hup ha
          have ha' := (hpe a o).1 ha
          rw [pollute_obj, hg.obj] at ha'
          have hheld : Held H (start e st) r a := by
            unfold upOf at hup
            cases hmod : H.isModule r with
            | true => rw [hmod] at hup; simp at hup
            | false =>
              rw [hmod] at hup
              exact ⟨⟨hi, hmod⟩, by rw [ha']; simpa using hup⟩
          rcases hr with hr | ⟨p, hr, hpr⟩
          · exact .inr ⟨r, hr, .single hheld⟩
          · exact .inr ⟨p, hr, .tail hpr hheld⟩)
        (by intro hd; rw [hdesc] at hd; cases hd) (fun r hr => .inl ((hmem r).1 hr)) h
      have hyobj : y.1.obj = (start e st).obj := by rw [hy.obj]; show (pollute H e x.1).obj = _; rw [pollute_obj, hg.obj]
      have hyts : y.1.ts = x.1.ts := hy.ts.trans (pollute_ts e x.1)
      have hst : ∀ r ∈ y.2, ∀ o, upOf H r = some o → y.1.md o = e.now := hy.stamped (by simp)
      have hymd : ∀ o, y.1.md o = x.1.md o ∨ (y.1.md o = e.now ∧ ∃ r, (Directly H e (start e st) r ∨ ∃ p, Directly H e (start e st) p ∧
          Inside H (start e st) p r) ∧ H.isImport r = false ∧ upOf H r = some o) := by
        intro o
        rcases hy.md o with e1 | ⟨e1, r, hr, hRr, hro⟩
        · left; rw [e1]; show (pollute H e x.1).md o = _; rw [pollute_md]
        · refine .inr ⟨e1, r, hRr, ?_, hro⟩
          rcases hy.seen r hr with h1 | h1
          · simp at h1
          · exact h1.2
      have hyle : ∀ o, y.1.md o ≤ e.now := by
        intro o
        rcases hymd o with e1 | ⟨e1, _⟩
        · rw [e1]; exact hxmd o
        · rw [e1]
      have upHolder : ∀ r o, H.isImport r = false → (upOf H r = some o) → Plain H r ∧ H.holder r = some o := by
        intro r o hi hup
        unfold upOf at hup
        cases hmod : H.isModule r with
        | true => rw [hmod] at hup; simp at hup
        | false => rw [hmod] at hup; exact ⟨⟨hi, hmod⟩, by simpa using hup⟩
      have hzg : Grow H e.now (fun q => q ∈ direct H e x.1) y.1 st' := by
        rw [hst']
        cases e.refresh
        · exact .refl _ _
        · exact others_grow _ _ (fun _ hq => hq)
      have hzts : st'.ts q = if e.refresh = true ∧ q ∈ direct H e x.1 ∧ e.waiting q = false ∧ q ≠ e.sym then e.now else y.1.ts q := by
        rw [hst']
        cases hr : e.refresh
        · simp
        · simp only [if_true, true_and]
          rw [others_ts]
      have hins : ∀ {p r : S}, Inside H (start e st) p r → Directly H e (start e st) p → y.1.md ((start e st).obj r) = e.now ∧
          (H.isImport r = false → r ∈ y.2) := by
        intro p r hpr hd
        have stepUp : ∀ a b, a ∈ y.2 → Held H (start e st) a b → y.1.md ((start e st).obj b) = e.now ∧ (H.isImport b = false → b ∈ y.2) := by
          intro a b ha hab
          have hup : upOf H a = some ((start e st).obj b) := by
            unfold upOf
            rw [hab.1.2]
            simpa using hab.2
          refine ⟨hst a ha _ hup, fun hb => ?_⟩
          apply hy.closed a ha (by simp) _ hup b _ hb
          exact (hpe b _).2 (by rw [pollute_obj, hg.obj])
        induction hpr with
        | single h1 => exact stepUp _ _ (hdir _ ((hmem _).2 hd) h1.1.1) h1
        | tail _ h1 ih => exact stepUp _ _ (ih.2 h1.1.1) h1
      apply fin st' (by rw [hzg.obj, hyobj])
      · rintro ⟨hr, hc⟩
        rw [hzts]
        by_cases hqs : q = e.sym
        · rw [if_neg (fun h => h.2.2.2 hqs), hyts]
          exact hreach q ((hR q).2 ⟨hr, hqs⟩)
        · rcases hc with hc | ⟨hc, hw⟩
          · exact absurd hc hqs
          · rw [if_pos ⟨hr, (hmem q).2 hc, hw, hqs⟩]
      · intro hc
        rw [hzts, if_neg (fun h => hc ⟨h.1, .inr ⟨(hmem q).1 h.2.1, h.2.2.1⟩⟩), hyts]
        rcases hg.ts q with e1 | ⟨_, hr⟩
        · exact e1
        · rw [hR] at hr
          exact absurd ⟨hr.1, .inl hr.2⟩ hc
      · rintro ⟨p, hd, hi⟩
        rcases hzg.md ((start e st).obj q) with e1 | ⟨e1, _⟩
        · rw [e1]; exact (hins hi hd).1
        · rw [e1]; exact max_eq_right (hyle _)
      · intro hc
        have hno : ∀ r, Plain H r → H.holder r = some ((start e st).obj q) →
            ¬ (Directly H e (start e st) r ∨ ∃ p, Directly H e (start e st) p ∧ Inside H (start e st) p r) := by
          rintro r hr hro (hd | ⟨p, hd, hpr⟩)
          · exact hc ⟨r, hd, .single ⟨hr, hro⟩⟩
          · exact hc ⟨p, hd, .tail hpr ⟨hr, hro⟩⟩
        have h1 : st'.md ((start e st).obj q) = y.1.md ((start e st).obj q) := by
          rcases hzg.md ((start e st).obj q) with e1 | ⟨_, r, hr, hro⟩
          · exact e1
          · exact absurd (.inl ((hmem r).1 hr)) (hno r (hH.plain r _ hro) hro)
        have h2 : y.1.md ((start e st).obj q) = x.1.md ((start e st).obj q) := by
          rcases hymd ((start e st).obj q) with e1 | ⟨_, r, hr, hi, hup⟩
          · exact e1
          · obtain ⟨h3, h4⟩ := upHolder r _ hi hup
            exact absurd hr (hno r h3 h4)
        rw [h1, h2]
        rcases hxmd' ((start e st).obj q) with e1 | ⟨_, _, hh⟩
        · exact e1
        · exact absurd (.inl (.inl rfl)) (hno e.sym (hH.plain _ _ hh) hh)

theorem start_exact (e : Upd S O T) {st : St S O T} (he : Exact st) : Exact (start e st) := by
  unfold start
  cases e.target with
  | none => exact he
  | some o =>
    intro q o'
    show q ∈ (if o' = o ∧ e.sym ∉ (if o' = st.obj e.sym then (st.aliases o').filter (fun q => decide (q ≠ e.sym)) else st.aliases o') then
      (if o' = st.obj e.sym then (st.aliases o').filter (fun q => decide (q ≠ e.sym)) else st.aliases o') ++ [e.sym] else
      (if o' = st.obj e.sym then (st.aliases o').filter (fun q => decide (q ≠ e.sym)) else st.aliases o')) ↔ (if q = e.sym then o else st.obj q) = o'
    have hl : ∀ q, q ∈ (if o' = st.obj e.sym then (st.aliases o').filter (fun q => decide (q ≠ e.sym)) else st.aliases o') ↔
        st.obj q = o' ∧ q ≠ e.sym := by
      intro q
      by_cases ho : o' = st.obj e.sym
      · rw [if_pos ho]
        simp only [List.mem_filter, decide_eq_true_eq, he q o']
      · rw [if_neg ho, he q o']
        constructor
        · intro h1
          refine ⟨h1, ?_⟩
          rintro rfl
          exact ho h1.symm
        · exact fun h1 => h1.1
    generalize (if o' = st.obj e.sym then (st.aliases o').filter (fun q => decide (q ≠ e.sym)) else st.aliases o') = l at hl
    have hs : e.sym ∉ l := fun h1 => ((hl _).1 h1).2 rfl
    by_cases ho : o' = o
    · rw [if_pos ⟨ho, hs⟩, List.mem_append, hl, List.mem_singleton]
      by_cases hq : q = e.sym
      · simp [hq, ho]
      · simp [hq]
    · rw [if_neg (fun h1 => ho h1.1), hl]
      by_cases hq : q = e.sym
      · simp only [hq, ne_eq, not_true_eq_false, and_false, if_true, false_iff]
        exact fun h1 => ho h1.symm
      · simp [hq]

/-- C91. Updates keep the table of names right, if no data frame column is changed in place. -/
theorem names_partial {n : Nat} {e : Upd S O T} {st st' : St S O T} (he : Exact st) (hdup : e.mutated = true → H.dup e.sym = [])
    (h : update H n e st = .ok st') : Exact st' := by
  have h0 := start_exact e he
  unfold update at h
  cases hx : (if e.refresh then refresh H e.now n (deepRefresh e) e.sym (start e st, []) else .ok (start e st, [])) with
  | error err => rw [hx] at h; simp at h
  | ok x =>
    rw [hx] at h
    simp only at h
    obtain ⟨hg, _⟩ := refresh_part hx
    have hex : Exact x.1 := by intro q o; rw [hg.obj, hg.aliases]; exact h0 q o
    cases hp : e.propagate with
    | false =>
      rw [hp] at h
      simp only [Bool.false_eq_true, if_false, Except.ok.injEq] at h
      subst h
      exact hex
    | true =>
      rw [hp] at h
      simp only [if_true] at h
      obtain ⟨y, hy, _, hst'⟩ := protocol_part (H := H) (fun _ => True) (fun _ _ _ _ _ _ _ => trivial) (fun _ _ _ _ _ _ _ => trivial)
        (fun _ _ => trivial) h
      have hzg : Grow H e.now (fun q => q ∈ direct H e x.1) y.1 st' := by
        rw [hst']
        cases e.refresh
        · exact .refl _ _
        · exact others_grow _ _ (fun _ hq => hq)
      intro q o
      rw [hzg.obj, hzg.aliases, hy.obj, hy.aliases]
      exact pollute_exact e hex hdup q o

end Verif.Age
