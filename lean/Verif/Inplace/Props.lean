import Verif.Inplace.Sim

/-! The code of a variable, run on its own. -/

namespace Verif.Inplace
open Verif

/-! ### The slice -/

theorem stamp_mono (a b : Nat) (h : a < b) : stamp a ≤ stamp b ∧ stamp a ≠ stamp b := by
  constructor
  · rw [Timestamp.le_def]; simp only [stamp]; omega
  · intro e; simp only [stamp, Timestamp.mk.injEq] at e; omega

theorem code_ok {h : List Stmt} {σ : State} (i : Inv h σ) {x : Nat} (hx : (σ.py.env x).isSome) :
    ∃ C, code σ x = .ok C ∧ C.Pairwise (· < ·) ∧ ∀ c, c ∈ C ↔ ∃ t ∈ useName σ x, Slice.Order.Reach σ.dyn σ.stat t c := by
  obtain ⟨t, ht⟩ := Option.isSome_iff_exists.1 ((i.known x).2 hx)
  obtain ⟨C, hC, h1, h2⟩ := Slice.Order.slice_ok σ.time stamp σ.dyn σ.stat (fun a b hab _ => stamp_mono a b hab)
    (fun t _ u hu => by have := i.dynLt t u hu; omega) (fun t _ u hu => by have := i.statLt t u hu; omega) (useName σ x)
    (fun t ht => i.useLt x t ht)
  refine ⟨C, ?_, h1, h2⟩
  unfold code
  rw [ht]
  exact hC

theorem reach_lt {h : List Stmt} {σ : State} (i : Inv h σ) {t c : Nat} (hr : Slice.Order.Reach σ.dyn σ.stat t c) : c ≤ t := by
  induction hr with
  | refl => exact Nat.le_refl _
  | step _ hu ih =>
    rcases hu with hu | hu
    · have := i.dynLt _ _ hu; omega
    · have := i.statLt _ _ hu; omega

theorem closed_of {σ : State} {C T : List Nat} (h : ∀ c, c ∈ C ↔ ∃ t ∈ T, Slice.Order.Reach σ.dyn σ.stat t c) : Closed C σ := by
  intro t ht u hu
  obtain ⟨s, hs, hr⟩ := (h t).1 ht
  exact (h u).2 ⟨s, hs, .step hr hu⟩

/-! ### The text -/

theorem runCode_append (σ : State) (a b : List Nat) (p : Py) : runCode σ (a ++ b) p = (runCode σ a p).bind (runCode σ b) := by
  induction a generalizing p with
  | nil => rfl
  | cons t a ih =>
    simp only [List.cons_append, runCode]
    cases σ.text t with
    | none => rfl
    | some s =>
      simp only [Option.bind_some]
      cases exec t s p with
      | none => rfl
      | some q => simp only [Option.bind_some, ih]

theorem runCode_congr (σ σ' : State) (l : List Nat) (p : Py) (h : ∀ t ∈ l, σ.text t = σ'.text t) : runCode σ l p = runCode σ' l p := by
  induction l generalizing p with
  | nil => rfl
  | cons t l ih =>
    simp only [runCode, h t List.mem_cons_self]
    congr 1
    funext s
    congr 1
    funext q
    exact ih q fun t ht => h t (List.mem_cons_of_mem _ ht)

theorem split_last {l : List Nat} {n : Nat} (hl : l.Pairwise (· < ·)) (hn : ∀ t ∈ l, t < n + 1) (hm : n ∈ l) :
    ∃ l', l = l' ++ [n] ∧ ∀ t ∈ l', t < n := by
  rcases List.eq_nil_or_concat l with rfl | ⟨l', a, rfl⟩
  · cases hm
  · rw [List.concat_eq_append] at *
    have hp := List.pairwise_append.1 hl
    have ha := hn a (by simp)
    rcases List.mem_append.1 hm with h | h
    · have := hp.2.2 n h a (by simp); omega
    · have : n = a := by simpa using h
      subst this
      exact ⟨l', rfl, fun t ht => hp.2.2 t ht n (by simp)⟩

theorem only_congr (C C' : List Nat) (h : List Stmt) (hC : ∀ t, t < h.length → (t ∈ C ↔ t ∈ C')) : Spec.only C h = Spec.only C' h := by
  induction h with
  | nil => rfl
  | cons s h ih =>
    simp only [Spec.only, ih fun t ht => hC t (by simp only [List.length_cons]; omega)]
    have := hC h.length (by simp)
    simp only [this]

theorem track_text {s : Stmt} {h : List Stmt} {σ : State} (ht : track (s :: h) = some σ) :
    σ.text h.length = some s ∧ ∃ σ₀, track h = some σ₀ ∧ ∀ t, t < h.length → σ.text t = σ₀.text t := by
  unfold track at ht
  rw [Option.bind_eq_some_iff] at ht
  obtain ⟨σ₀, h0, hs⟩ := ht
  obtain ⟨p, _, rfl⟩ := step_eq hs
  have := (inv_track h0).time
  refine ⟨by dsimp only; rw [← this, upd_self], σ₀, h0, fun t ht => ?_⟩
  dsimp only; rw [upd_ne _ _ (by omega)]

theorem runCode_eq {C : List Nat} {h : List Stmt} {σ : State} (ht : track h = some σ) (hs : C.Pairwise (· < ·)) (hC : ∀ c ∈ C, c < h.length) :
    runCode σ C Spec.empty = Spec.only C h := by
  induction h generalizing σ C with
  | nil =>
    cases C with
    | nil => rfl
    | cons c C => exact absurd (hC c List.mem_cons_self) (by simp)
  | cons s h ih =>
    obtain ⟨htx, σ₀, h0, he⟩ := track_text ht
    by_cases hm : h.length ∈ C
    · obtain ⟨C', rfl, hlt⟩ := split_last hs (by simpa using hC) hm
      have hs' := (List.pairwise_append.1 hs).1
      rw [runCode_append, runCode_congr σ σ₀ C' _ fun t ht => he t (hlt t ht), ih h0 hs' hlt]
      simp only [Spec.only]
      rw [only_congr (C' ++ [h.length]) C' h fun t ht => by simp; omega]
      congr 1
      funext p
      simp [runCode, htx]
    · have hlt : ∀ c ∈ C, c < h.length := fun c hc => by
        have := hC c hc
        simp only [List.length_cons] at this
        have : c ≠ h.length := fun e => hm (e ▸ hc)
        omega
      rw [runCode_congr σ σ₀ C _ fun t ht => he t (hlt t ht), ih h0 hs hlt]
      simp only [Spec.only, if_neg hm]
      cases Spec.only C h <;> rfl

/-! ### The code makes the value -/

/-- Whatever the notebook: if no statement reads a name that is lost, then the code of a name that is not lost runs on its own and gives what it is.
Partial: names that are lost are excluded, see `alias_lost`. -/
theorem code_makes_partial {h : List Stmt} {p : Py} (hr : Spec.run h = some p) (hf : Spec.Fine h) {x : Nat} {w : Spec.View}
    (hx : Spec.view p x = some w) (hl : ¬ Spec.Lost x h) :
    ∃ σ C q, track h = some σ ∧ code σ x = .ok C ∧ runCode σ C Spec.empty = some q ∧ Spec.view q x = some w := by
  obtain ⟨σ, ht, rfl⟩ := track_of_run hr
  have i := inv_track ht
  obtain ⟨v, hv⟩ : ∃ v, σ.py.env x = some v := by
    cases hv : σ.py.env x with
    | none => simp [Spec.view, hv] at hx
    | some v => exact ⟨v, rfl⟩
  obtain ⟨C, hC, hs, hm⟩ := code_ok i (x := x) (by rw [hv]; rfl)
  obtain ⟨ρ, hρ, a⟩ := agree ht (closed_of hm) hf
  refine ⟨σ, C, ρ, ht, hC, ?_, ?_⟩
  · rw [runCode_eq ht hs, hρ]
    intro c hc
    obtain ⟨t, htx, hr⟩ := (hm c).1 hc
    have := reach_lt i hr
    have := i.useLt x t htx
    have := i.time
    omega
  · obtain ⟨h1, h2⟩ := a.use i hv (fun u hu => (hm u).2 ⟨u, hu, .refl u⟩) hl
    unfold Spec.view at hx ⊢
    rw [hv] at hx
    rw [h1]
    cases v with
    | num k => exact hx
    | ref o => dsimp only at hx ⊢; rw [h2 o rfl]; exact hx

theorem from_self {h : List Stmt} {σ : State} (ht : track h = some σ) {n : Nat} (hn : (σ.py.env n).isSome) : Spec.From n n h := by
  induction h generalizing σ with
  | nil => cases ht; simp [State.init] at hn
  | cons s h ih =>
    unfold track at ht
    rw [Option.bind_eq_some_iff] at ht
    obtain ⟨σ₀, h0, hs⟩ := ht
    obtain ⟨p, he, rfl⟩ := step_eq hs
    unfold Spec.From
    by_cases hb : Spec.binds s = some n
    · rw [if_pos hb]; exact .inl rfl
    · rw [if_neg hb, if_neg hb]
      refine ih h0 ?_
      cases he with
      | num _ => dsimp only at hn; rwa [upd_ne _ _ (fun e => hb (by rw [e]; rfl))] at hn
      | fresh => dsimp only at hn; rwa [upd_ne _ _ (fun e => hb (by rw [e]; rfl))] at hn
      | same _ _ => dsimp only at hn; rwa [upd_ne _ _ (fun e => hb (by rw [e]; rfl))] at hn
      | change _ _ _ => exact hn

theorem late_unique {h : List Stmt} {σ : State} (ht : track h = some σ) (hl : Spec.Late h) {o m n : Nat} (hv : σ.virt o = none)
    (hm : σ.py.env m = some (.ref o)) (hn : σ.py.env n = some (.ref o)) : m = n := by
  induction h generalizing σ with
  | nil => cases ht; simp [State.init] at hm
  | cons s h ih =>
    unfold track at ht
    rw [Option.bind_eq_some_iff] at ht
    obtain ⟨σ₀, h0, hs⟩ := ht
    have i := inv_track h0
    obtain ⟨p, he, rfl⟩ := step_eq hs
    cases he with
    | @num x ops c k hk =>
      dsimp only [newVirt] at hm hn hv
      have h1 : m ≠ x := by rintro rfl; rw [upd_self] at hm; cases hm
      have h2 : n ≠ x := by rintro rfl; rw [upd_self] at hn; cases hn
      rw [upd_ne _ _ h1] at hm
      rw [upd_ne _ _ h2] at hn
      exact ih h0 hl.1 hv hm hn
    | @fresh x =>
      dsimp only [newVirt] at hm hn hv
      by_cases e : o = σ₀.time
      · have key : ∀ a, upd σ₀.py.env x (some (.ref σ₀.time)) a = some (.ref o) → a = x := by
          intro a ha
          by_contra hne
          rw [upd_ne _ _ hne] at ha
          have := (i.valid a o ha).1; omega
        rw [key m hm, key n hn]
      · rw [upd_ne _ _ e] at hv
        have h1 : m ≠ x := by rintro rfl; rw [upd_self] at hm; cases hm; exact e rfl
        have h2 : n ≠ x := by rintro rfl; rw [upd_self] at hn; cases hn; exact e rfl
        rw [upd_ne _ _ h1] at hm
        rw [upd_ne _ _ h2] at hn
        exact ih h0 hl.1 hv hm hn
    | @same y x v hx hy =>
      dsimp only at hm hn hv
      have hne : v ≠ .ref o := by
        rintro rfl
        have hch := hl.2 y x o rfl ((i.obj x o).2 hx)
        rw [← i.changed] at hch
        dsimp only [newVirt] at hv
        rw [hx] at hv
        dsimp only at hv
        rw [upd_self] at hv
        cases hw : σ₀.virt o with
        | none => rw [hw] at hch; cases hch
        | some w => rw [hw] at hv; cases hv
      have hv' : σ₀.virt o = none := by
        dsimp only [newVirt] at hv
        rw [hx] at hv
        cases v with
        | num k => exact hv
        | ref o' => dsimp only at hv; rwa [upd_ne _ _ (fun e => hne (by rw [e]))] at hv
      have h1 : m ≠ y := by rintro rfl; rw [upd_self] at hm; cases hm; exact hne rfl
      have h2 : n ≠ y := by rintro rfl; rw [upd_self] at hn; cases hn; exact hne rfl
      rw [upd_ne _ _ h1] at hm
      rw [upd_ne _ _ h2] at hn
      exact ih h0 hl.1 hv' hm hn
    | @change x put ops c o' l k ho hl' hk =>
      dsimp only [newVirt] at hm hn hv
      rw [ho] at hv
      dsimp only at hv
      have e : o ≠ o' := by rintro rfl; rw [upd_self] at hv; cases hv
      rw [upd_ne _ _ e] at hv
      exact ih h0 hl.1 hv hm hn

theorem late_not_lost {h : List Stmt} {p : Py} (hr : Spec.run h = some p) (hl : Spec.Late h) (n : Nat) : ¬ Spec.Lost n h := by
  induction h generalizing p with
  | nil => exact id
  | cons s h ih =>
    have hr' := hr
    unfold Spec.run at hr'
    rw [Option.bind_eq_some_iff] at hr'
    obtain ⟨q, hq, _⟩ := hr'
    rintro ⟨_, h' | ⟨x, put, ops, c, o, rfl, hx, hn, hc, hf⟩⟩
    · exact ih hq hl.1 h'
    · obtain ⟨σ, hσ, rfl⟩ := track_of_run hq
      have i := inv_track hσ
      have hv : σ.virt o = none := by
        cases hv : σ.virt o with
        | none => rfl
        | some w => exact absurd ((i.changed o).1 (by rw [hv]; rfl)) hc
      have := late_unique hσ hl.1 hv ((i.obj n o).1 hn) ((i.obj x o).1 hx)
      subst this
      exact hf (from_self hσ (by rw [(i.obj _ _).1 hn]; rfl))

theorem late_fine {h : List Stmt} {p : Py} (hr : Spec.run h = some p) (hl : Spec.Late h) : Spec.Fine h := by
  induction h generalizing p with
  | nil => trivial
  | cons s h ih =>
    unfold Spec.run at hr
    rw [Option.bind_eq_some_iff] at hr
    obtain ⟨q, hq, _⟩ := hr
    exact ⟨ih hq hl.1, fun n _ => late_not_lost hq hl.1 n⟩

/-- If names are given to a set only after a method has changed it, the code of every variable runs on its own and gives what it is. -/
theorem code_makes_late {h : List Stmt} {p : Py} (hr : Spec.run h = some p) (hl : Spec.Late h) {x : Nat} {w : Spec.View}
    (hx : Spec.view p x = some w) :
    ∃ σ C q, track h = some σ ∧ code σ x = .ok C ∧ runCode σ C Spec.empty = some q ∧ Spec.view q x = some w :=
  code_makes_partial hr (late_fine hr hl) hx (late_not_lost hr hl x)

/-! ### Names that are lost -/

theorem track_cons {s : Stmt} {h : List Stmt} {τ : State} (ht : track (s :: h) = some τ) :
    ∃ σ p, track h = some σ ∧ Inv h σ ∧ Eff σ.time σ.py s p ∧
    τ = { py := p, time := σ.time + 1, ts := newTs σ s, virt := newVirt σ s,
          dyn := upd σ.dyn σ.time (dynLinks σ s), stat := upd σ.stat σ.time (statLinks σ s), text := upd σ.text σ.time (some s) } := by
  unfold track at ht
  rw [Option.bind_eq_some_iff] at ht
  obtain ⟨σ, h0, hs⟩ := ht
  obtain ⟨p, he, e⟩ := step_eq hs
  exact ⟨σ, p, h0, inv_track h0, he, e⟩

/-- A variable that no selected statement binds is not there. -/
theorem only_unbound {C : List Nat} {y : Nat} {h : List Stmt} {q : Py} (hq : Spec.only C h = some q)
    (hb : ∀ l s g, h = l ++ s :: g → g.length ∈ C → Spec.binds s ≠ some y) : q.env y = none := by
  induction h generalizing q with
  | nil => cases hq; rfl
  | cons s h ih =>
    unfold Spec.only at hq
    rw [Option.bind_eq_some_iff] at hq
    obtain ⟨r, hr, he⟩ := hq
    have := ih hr fun l s' g e => hb (s :: l) s' g (by rw [e]; rfl)
    split at he
    · next hC =>
      have hy := hb [] s h rfl hC
      have he' := (exec_iff _ _ _ _).1 he
      cases he' with
      | num _ => dsimp only; rw [upd_ne _ _ (fun e => hy (by rw [e]; rfl))]; exact this
      | fresh => dsimp only; rw [upd_ne _ _ (fun e => hy (by rw [e]; rfl))]; exact this
      | same _ _ => dsimp only; rw [upd_ne _ _ (fun e => hy (by rw [e]; rfl))]; exact this
      | change _ _ _ => exact this
    · cases he; exact this

theorem not_bound {y : Nat} {h : List Stmt} {p : Py} (hr : Spec.run h = some p) (hy : p.env y = none) :
    ∀ l s g, h = l ++ s :: g → Spec.binds s ≠ some y := by
  induction h generalizing p with
  | nil => intro l s g e; simp at e
  | cons s h ih =>
    unfold Spec.run at hr
    rw [Option.bind_eq_some_iff] at hr
    obtain ⟨q, hq, he⟩ := hr
    have he' := (exec_iff _ _ _ _).1 he
    have key : Spec.binds s ≠ some y ∧ q.env y = none := by
      cases he' with
      | @num x _ _ _ _ =>
        by_cases e : y = x
        · subst e; simp [upd_self] at hy
        · simp only [upd_ne _ _ e] at hy; exact ⟨by intro h'; cases h'; exact e rfl, hy⟩
      | @fresh x =>
        by_cases e : y = x
        · subst e; simp [upd_self] at hy
        · simp only [upd_ne _ _ e] at hy; exact ⟨by intro h'; cases h'; exact e rfl, hy⟩
      | @same x _ _ _ _ =>
        by_cases e : y = x
        · subst e; simp [upd_self] at hy
        · simp only [upd_ne _ _ e] at hy; exact ⟨by intro h'; cases h'; exact e rfl, hy⟩
      | change _ _ _ => exact ⟨by simp [Spec.binds], hy⟩
    intro l s' g e
    cases l with
    | nil => cases e; exact key.1
    | cons a l => cases e; exact ih hq key.2 l s' g rfl

/-- Nothing is linked to statement `k`. -/
structure Unref (k : Nat) (σ : State) : Prop where
  old : k < σ.time
  ts : ∀ n, σ.ts n ≠ some k
  virt : ∀ o, σ.virt o ≠ some k
  dyn : ∀ t, k ∉ σ.dyn t
  stat : ∀ t, k ∉ σ.stat t

theorem use_ne {k n : Nat} {σ : State} (h1 : σ.ts n ≠ some k) (h2 : ∀ o, σ.virt o ≠ some k) : k ∉ useName σ n := by
  unfold useName whole
  rw [List.mem_append]
  rintro (h | h)
  · exact h1 (by simpa using h)
  · split at h
    · exact h2 _ (by simpa using h)
    · cases h

theorem virt_ne {k : Nat} {s : Stmt} {σ : State} (h : ∀ o, σ.virt o ≠ some k) (hk : k ≠ σ.time) (o : Nat) : newVirt σ s o ≠ some k := by
  cases s with
  | num x ops c => exact h o
  | fresh x =>
    dsimp only [newVirt]
    by_cases e : o = σ.time
    · subst e; rw [upd_self]; simp
    · rw [upd_ne _ _ e]; exact h o
  | same y x =>
    dsimp only [newVirt]
    rcases hx : σ.py.env x with _ | _ | o'
    · exact h o
    · exact h o
    · dsimp only
      by_cases e : o = o'
      · subst e
        rw [upd_self]
        intro h'
        obtain ⟨_, _, h'⟩ := Option.map_eq_some_iff.1 h'
        exact hk h'.symm
      · rw [upd_ne _ _ e]; exact h o
  | change x put ops c =>
    dsimp only [newVirt]
    rcases hx : σ.py.env x with _ | _ | o'
    · exact h o
    · exact h o
    · dsimp only
      by_cases e : o = o'
      · subst e
        rw [upd_self]
        intro h'
        exact hk (Option.some.inj h').symm
      · rw [upd_ne _ _ e]; exact h o

theorem unref_step {k : Nat} {s : Stmt} {σ τ : State} (hs : step s σ = some τ) (u : Unref k σ) : Unref k τ := by
  obtain ⟨p, _, rfl⟩ := step_eq hs
  have hu : ∀ n, k ∉ useName σ n := fun n => use_ne (u.ts n) u.virt
  have hops : ∀ ops : List Op, k ∉ ops.flatMap fun o => useName σ o.var := by
    intro ops h
    obtain ⟨o, _, ho⟩ := List.mem_flatMap.1 h
    exact hu _ ho
  have hk : k ≠ σ.time := by have := u.old; omega
  refine ⟨by have := u.old; dsimp only; omega, ?_, virt_ne u.virt hk, ?_, ?_⟩
  · intro n
    have key : ∀ x, upd σ.ts x (some σ.time) n ≠ some k := by
      intro x
      by_cases e : n = x
      · subst e; rw [upd_self]; intro h; exact hk (Option.some.inj h).symm
      · rw [upd_ne _ _ e]; exact u.ts n
    cases s with
    | num x ops c => exact key x
    | fresh x => exact key x
    | same y x => exact key y
    | change x put ops c =>
      dsimp only [newTs]
      split
      · intro h; exact hk (Option.some.inj h).symm
      · exact u.ts n
  · intro t
    dsimp only
    by_cases e : t = σ.time
    · subst e
      rw [upd_self]
      cases s with
      | num x ops c => exact hops ops
      | fresh x => exact List.not_mem_nil
      | same y x => exact hu x
      | change x put ops c =>
        intro h
        rcases List.mem_append.1 h with h | h
        · exact hu x h
        · obtain ⟨o, _, ho⟩ := List.mem_flatMap.1 h
          split at ho
          · cases ho
          · exact hu _ ho
    · rw [upd_ne _ _ e]; exact u.dyn t
  · intro t
    dsimp only
    by_cases e : t = σ.time
    · subst e
      rw [upd_self]
      cases s with
      | num x ops c => exact hops ops
      | fresh x => exact List.not_mem_nil
      | same y x => exact hu x
      | change x put ops c =>
        intro h
        rcases List.mem_append.1 h with h | h
        · exact u.ts x (by simpa using h)
        · exact hops ops h
    · rw [upd_ne _ _ e]; exact u.stat t

theorem unref_change {h : List Stmt} {x y : Nat} {put : Bool} {ops : List Op} {c : Int} {σ : State}
    (ht : track (.change x put ops c :: .same y x :: .fresh x :: h) = some σ) (hy : ∀ o ∈ ops, o.var ≠ y) : Unref (h.length + 1) σ := by
  obtain ⟨σ2, p2, h2, i2, e2, rfl⟩ := track_cons ht
  obtain ⟨σ1, p1, h1, i1, e1, hσ2⟩ := track_cons h2
  obtain ⟨σ0, p0, h0, i0, e0, hσ1⟩ := track_cons h1
  have hlen := i0.time
  have ht1 : σ1.time = h.length + 1 := by rw [i1.time]; rfl
  have ht2 : σ2.time = h.length + 2 := by rw [i2.time]; rfl
  have hx1 : σ1.py.env x = some (.ref h.length) := by rw [hσ1]; cases e0; dsimp only; rw [upd_self, hlen]
  have hv1 : σ1.virt h.length = none := by rw [hσ1]; dsimp only [newVirt]; rw [← hlen, upd_self]
  obtain ⟨hxy, hx2, hy2⟩ : y ≠ x ∧ σ2.py.env x = some (.ref h.length) ∧ σ2.py.env y = some (.ref h.length) := by
    cases e1 with
    | same hx hfree =>
      rw [hx1] at hx
      cases hx
      have hxy : y ≠ x := by rintro rfl; rw [hx1] at hfree; cases hfree
      rw [hσ2]
      dsimp only
      rw [upd_ne _ _ (Ne.symm hxy), upd_self]
      exact ⟨hxy, hx1, rfl⟩
  have hts : ∀ n, n ≠ y → σ2.ts n ≠ some (h.length + 1) := by
    intro n hn
    rw [hσ2]
    dsimp only [newTs]
    rw [upd_ne _ _ hn]
    intro e
    have := i1.tsLt n _ e; omega
  have hvirt : ∀ o, σ2.virt o ≠ some (h.length + 1) := by
    intro o
    rw [hσ2]
    dsimp only [newVirt]
    rw [hx1]
    dsimp only
    by_cases e : o = h.length
    · subst e; rw [upd_self, hv1]; simp
    · rw [upd_ne _ _ e]; intro e'; have := i1.virtLt o _ e'; omega
  have hu : ∀ n, n ≠ y → h.length + 1 ∉ useName σ2 n := fun n hn => use_ne (hts n hn) hvirt
  refine ⟨by dsimp only; omega, ?_, fun o => virt_ne (s := .change x put ops c) hvirt (by omega) o, ?_, ?_⟩
  · intro n
    dsimp only [newTs]
    split
    · intro e; have := Option.some.inj e; omega
    · next ha =>
      refine hts n ?_
      rintro rfl
      exact ha ((isAlias_iff _ _ _).2 ⟨_, hx2, hy2⟩)
  · intro t
    dsimp only
    by_cases e : t = σ2.time
    · subst e
      rw [upd_self]
      intro h'
      rcases List.mem_append.1 h' with h' | h'
      · exact hu x (Ne.symm hxy) h'
      · obtain ⟨o, hmem, ho⟩ := List.mem_flatMap.1 h'
        split at ho
        · cases ho
        · exact hu _ (hy o hmem) ho
    · rw [upd_ne _ _ e]; intro h'; have := i2.dynLt t _ h'; omega
  · intro t
    dsimp only
    by_cases e : t = σ2.time
    · subst e
      rw [upd_self]
      intro h'
      rcases List.mem_append.1 h' with h' | h'
      · exact hts x (Ne.symm hxy) (by simpa using h')
      · obtain ⟨o, hmem, ho⟩ := List.mem_flatMap.1 h'
        exact hu _ (hy o hmem) ho
    · rw [upd_ne _ _ e]; intro h'; have := i2.statLt t _ h'; omega

theorem unref_more {k : Nat} {l h : List Stmt} (hu : ∀ σ, track h = some σ → Unref k σ) {σ : State} (ht : track (l ++ h) = some σ) :
    Unref k σ := by
  induction l generalizing σ with
  | nil => exact hu σ ht
  | cons s l ih =>
    rw [List.cons_append, track, Option.bind_eq_some_iff] at ht
    obtain ⟨σ', h', hs⟩ := ht
    exact unref_step hs (ih h')

theorem unref_reach {k t : Nat} {σ : State} (u : Unref k σ) (h : Slice.Order.Reach σ.dyn σ.stat t k) : t = k := by
  cases h with
  | refl => rfl
  | step _ hu => exact (hu.elim (u.dyn _) (u.stat _)).elim

/-- `x = set()`, `y = x`, `x.add(e)`, whatever came before and whatever comes after: `y = x` is not in the code of any variable. -/
theorem alias_never_in_code {l h : List Stmt} {x y : Nat} {put : Bool} {ops : List Op} {c : Int} {σ : State}
    (ht : track (l ++ .change x put ops c :: .same y x :: .fresh x :: h) = some σ) (hy : y ∉ ops.map Op.var) {z : Nat} {C : List Nat}
    (hC : code σ z = .ok C) : h.length + 1 ∉ C := by
  have u : Unref (h.length + 1) σ :=
    unref_more (fun σ' h' => unref_change h' fun o ho e => hy (List.mem_map.2 ⟨o, ho, e⟩)) ht
  have i := inv_track ht
  have hz : (σ.py.env z).isSome := by
    rw [← i.known z]
    unfold code at hC
    cases h' : σ.ts z with
    | none => rw [h'] at hC; cases hC
    | some t => rfl
  obtain ⟨C', hC', _, hm⟩ := code_ok i hz
  rw [hC] at hC'
  cases hC'
  intro hmem
  obtain ⟨t, ht', hr⟩ := (hm _).1 hmem
  have := unref_reach u hr
  subst this
  exact use_ne (u.ts z) u.virt ht'

theorem append_cons_cases {l l' g h : List Stmt} {s a : Stmt} (e : l ++ a :: h = l' ++ s :: g) :
    (∃ m, l = l' ++ s :: m) ∨ (s = a ∧ g = h) ∨ ∃ m, h = m ++ s :: g := by
  induction l generalizing l' with
  | nil =>
    cases l' with
    | nil => cases e; exact .inr (.inl ⟨rfl, rfl⟩)
    | cons b l' => cases e; exact .inr (.inr ⟨l', rfl⟩)
  | cons b l ih =>
    cases l' with
    | nil => cases e; exact .inl ⟨l, rfl⟩
    | cons b' l' =>
      injection e with e1 e2
      subst e1
      rcases ih e2 with ⟨m, rfl⟩ | h' | h'
      · exact .inl ⟨m, rfl⟩
      · exact .inr (.inl h')
      · exact .inr (.inr h')

/-- The name is lost: as long as it is not bound again, the code of no variable binds it, so the code of `y` itself leaves it undefined. -/
theorem alias_undefined {l h : List Stmt} {x y : Nat} {put : Bool} {ops : List Op} {c : Int} {σ : State}
    (ht : track (l ++ .change x put ops c :: .same y x :: .fresh x :: h) = some σ) (hy : y ∉ ops.map Op.var)
    (hl : ∀ s ∈ l, Spec.binds s ≠ some y) {z : Nat} {C : List Nat} (hC : code σ z = .ok C) {q : Py}
    (hq : runCode σ C Spec.empty = some q) : q.env y = none := by
  have i := inv_track ht
  have hn := alias_never_in_code ht hy hC
  have hz : (σ.py.env z).isSome := by
    rw [← i.known z]
    unfold code at hC
    cases h' : σ.ts z with
    | none => rw [h'] at hC; cases hC
    | some t => rfl
  obtain ⟨C', hC', hsort, hm⟩ := code_ok i hz
  rw [hC] at hC'
  cases hC'
  rw [runCode_eq ht hsort] at hq
  · obtain ⟨σ3, h3⟩ : ∃ σ3, track (.same y x :: .fresh x :: h) = some σ3 := by
      clear hq hn hm hC hsort hz i hl
      induction l generalizing σ with
      | nil =>
        rw [List.nil_append, track, Option.bind_eq_some_iff] at ht
        obtain ⟨σ', h', _⟩ := ht
        exact ⟨σ', h'⟩
      | cons s l ih =>
        rw [List.cons_append, track, Option.bind_eq_some_iff] at ht
        obtain ⟨σ', h', _⟩ := ht
        exact ih h'
    obtain ⟨σ2, p2, h2, i2, e2, _⟩ := track_cons h3
    have hfree : σ2.py.env y = none := by cases e2; assumption
    have hnb := not_bound i2.ran hfree
    refine only_unbound hq ?_
    intro l' s g e hg
    rcases append_cons_cases e with ⟨m, rfl⟩ | ⟨rfl, rfl⟩ | ⟨m, e'⟩
    · exact hl s (by simp)
    · simp [Spec.binds]
    · cases m with
      | nil => cases e'; exact absurd hg hn
      | cons b m =>
        injection e' with _ e''
        exact hnb m s g e''
  · intro c' hc
    obtain ⟨t, htx, hr⟩ := (hm c').1 hc
    have := reach_lt i hr
    have := i.useLt z t htx
    have := i.time
    omega

/-- A variable computed from the lost name: the notebook ran, but its code raises. -/
theorem alias_lost {h : List Stmt} {x y z : Nat} {put : Bool} {ops ops' : List Op} {c c' : Int} {σ : State}
    (ht : track (.num z ops' c' :: .change x put ops c :: .same y x :: .fresh x :: h) = some σ) (hy : y ∉ ops.map Op.var)
    (hz : Op.sum y ∈ ops') : ∃ C, code σ z = .ok C ∧ runCode σ C Spec.empty = none := by
  have i := inv_track ht
  obtain ⟨σ3, p, h3, i3, e, hσ⟩ := track_cons ht
  have hzts : σ.ts z = some σ3.time := by rw [hσ]; dsimp only [newTs]; rw [upd_self]
  obtain ⟨C, hC, hs, hm⟩ := code_ok i (x := z) (by rw [← i.known z, hzts]; rfl)
  refine ⟨C, hC, ?_⟩
  have hin : h.length + 3 ∈ C := by
    refine (hm _).2 ⟨h.length + 3, ?_, .refl _⟩
    unfold useName
    rw [hzts, i3.time]
    simp
  have hlt : ∀ k ∈ C, k < (Stmt.num z ops' c' :: .change x put ops c :: .same y x :: .fresh x :: h).length := by
    intro k hk
    obtain ⟨t, htx, hr⟩ := (hm k).1 hk
    have := reach_lt i hr
    have := i.useLt z t htx
    rw [← i.time]
    omega
  have hn := alias_never_in_code (l := [.num z ops' c']) ht hy hC
  rw [runCode_eq ht hs hlt]
  unfold Spec.only
  cases hq : Spec.only C (.change x put ops c :: .same y x :: .fresh x :: h) with
  | none => rfl
  | some q =>
    have hqy : q.env y = none := by
      obtain ⟨σ2, p2, h2, i2, e2, _⟩ := track_cons h3
      obtain ⟨σ1, p1, h1, i1, e1, _⟩ := track_cons h2
      have hfree : σ1.py.env y = none := by cases e1; assumption
      have hnb := not_bound i1.ran hfree
      refine only_unbound hq ?_
      intro l' s g e hg
      rcases append_cons_cases (l := []) e with ⟨m, e'⟩ | ⟨rfl, rfl⟩ | ⟨m, e'⟩
      · simp at e'
      · simp [Spec.binds]
      · cases m with
        | nil => cases e'; exact absurd hg hn
        | cons b m =>
        injection e' with _ e''
        exact hnb m s g e''
    rw [Option.bind_some, if_pos (show (Stmt.change x put ops c :: .same y x :: .fresh x :: h).length ∈ C from hin)]
    have hev : ∀ os : List Op, Op.sum y ∈ os → ∀ k, evalSum q os k = none := by
      intro os
      induction os with
      | nil => intro h'; cases h'
      | cons o os ih =>
        intro h' k
        unfold evalSum
        rcases List.mem_cons.1 h' with rfl | h'
        · simp [evalOp, hqy]
        · rw [ih h' k]
          cases evalOp q o <;> rfl
    simp only [exec, hev ops' hz, Option.map_none]

/-- A name given to a set that has been changed counts as a change of it: the statement is in the code of every name of the set. -/
theorem alias_kept {h : List Stmt} {x y o : Nat} {σ : State} (ht : track (.same y x :: h) = some σ) (ho : Spec.obj h x = some o)
    (hc : Spec.Changed o h) {n : Nat} (hn : Spec.obj h n = some o) : ∃ C, code σ n = .ok C ∧ h.length ∈ C := by
  have i := inv_track ht
  obtain ⟨σ0, p, h0, i0, e, hσ⟩ := track_cons ht
  rw [i0.obj] at ho hn
  rw [← i0.changed] at hc
  have hny : n ≠ y := by
    rintro rfl
    cases e with
    | same _ hf => rw [hn] at hf; cases hf
  have hn' : σ.py.env n = some (.ref o) := by
    cases e with
    | same _ hf => rw [hσ]; dsimp only; rw [upd_ne _ _ hny]; exact hn
  have hv : σ.virt o = some h.length := by
    rw [hσ]
    dsimp only [newVirt]
    rw [ho]
    dsimp only
    rw [upd_self]
    obtain ⟨w, hw⟩ := Option.isSome_iff_exists.1 hc
    rw [hw, i0.time]
    rfl
  obtain ⟨C, hC, _, hm⟩ := code_ok i (x := n) (by rw [hn']; rfl)
  refine ⟨C, hC, (hm _).2 ⟨h.length, ?_, .refl _⟩⟩
  unfold useName whole
  rw [hn']
  dsimp only
  rw [hv]
  simp

end Verif.Inplace
