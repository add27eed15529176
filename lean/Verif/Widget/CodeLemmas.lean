import Verif.Widget.Lemmas
import Mathlib.Tactic.SplitIfs

/-! # Lemmas about the code made for what is read from widgets -/

namespace Verif.Widget

theorem parents_append (l l' : List (Time × Time)) (t : Time) : parents (l ++ l') t = parents l t ++ parents l' t := by simp [parents]

theorem parents_addEdge_ne {c p t : Time} (σ : Sys) (h : t ≠ c) : parents (addEdge c p σ).edges t = parents σ.edges t := by
  unfold addEdge
  split
  · rfl
  · simp [parents, Ne.symm h]

theorem mem_parents {l : List (Time × Time)} {c p : Time} : p ∈ parents l c ↔ (c, p) ∈ l := by
  simp only [parents, List.mem_map, List.mem_filter, decide_eq_true_eq]
  constructor
  · rintro ⟨⟨a, b⟩, ⟨h1, rfl⟩, rfl⟩; exact h1
  · intro h; exact ⟨(c, p), ⟨h, rfl⟩, rfl⟩

theorem mem_addEdge {c p : Time} {σ : Sys} {e : Time × Time} (h : e ∈ (addEdge c p σ).edges) : e ∈ σ.edges ∨ e = (c, p) := by
  unfold addEdge at h
  split at h
  · exact .inl h
  · simpa using h

/-- The edges after one is added. -/
def withEdge (c p : Time) (l : List (Time × Time)) : List (Time × Time) := if (p, c) ∈ l ∨ (c, p) ∈ l ∨ c = p then l else l ++ [(c, p)]

theorem addEdge_edges (c p : Time) (σ : Sys) : (addEdge c p σ).edges = withEdge c p σ.edges := by unfold addEdge withEdge; split <;> rfl

/-- A statement that has been reached: its cell has one at that place, and it ran before (`i`: the next statement of the cell that runs). -/
def Real (i : Nat) (σ : Sys) (t : Time) : Prop := t.stmt < bodyLength σ t.cell ∧ (t.cell < σ.ctr ∨ t.cell = σ.ctr ∧ t.stmt < i)

theorem extra_not_real {i : Nat} {σ : Sys} {t : Time} (h : Real i σ t) : t.stmt ≠ bodyLength σ t.cell := Nat.ne_of_lt h.1

theorem Real.ne_extra {i : Nat} {σ : Sys} {t : Time} (h : Real i σ t) (p : Part) : t ≠ extraTime σ p := by
  rintro rfl
  exact extra_not_real h rfl

theorem Real.ne_next {i : Nat} {σ : Sys} {t : Time} (h : Real i σ t) : t ≠ ⟨σ.ctr, i⟩ := by
  rintro rfl
  rcases h.2 with h | ⟨-, h⟩
  · exact Nat.lt_irrefl _ h
  · exact Nat.lt_irrefl _ h

theorem Real.le {i : Nat} {σ : Sys} {t : Time} (h : Real i σ t) : t.cell ≤ σ.ctr := by
  rcases h.2 with h | ⟨h, -⟩ <;> omega

/-- The statement makes the widget of that name or sets its value. -/
def About (n : Name) : Stmt → Prop
  | .make w _ => w = n
  | .put w _ => w = n
  | .copy _ _ => False

/-- What is kept for a widget and was made from it. -/
structure WidI (i : Nat) (σ : Sys) (n : Name) (v : Val) (a m : Bool) (c : Nat) (p : Part) (v0 : Val) : Prop where
  part : Assoc.get σ.parts n = some p
  cell : p.home.cell = c
  home : Real i σ p.home
  time : Real i σ p.time
  made : ((Assoc.get σ.bodies c).getD [])[p.home.stmt]? = some (.make n v0)
  whose : ∃ s, Assoc.get σ.stmts p.time = some s ∧ About n s
  at_home : a = true → p.time = p.home
  single : a = true → (((Assoc.get σ.bodies c).getD []).filter Spec.makes).length ≤ 1
  stmt : a = true → Assoc.get σ.stmts p.home = some (.make n v0)
  par : a = true → parents σ.edges p.home = [] ∨ parents σ.edges p.home = [extraTime σ p]
  still : a = true → m = false → v = v0 ∧ parents σ.edges p.home = []
  moved : a = true → m = true → ∀ k, v = .num k → parents σ.edges p.home = [extraTime σ p] ∧ Assoc.get σ.stmts (extraTime σ p) = some (.put n (.lit v))

/-- What was made for a copy of the value of a widget. -/
def CopyI (i : Nat) (σ : Sys) (n w : Name) (p : Part) : Prop :=
  ∃ t, Assoc.get σ.homes n = some t ∧ Real i σ t ∧ Assoc.get σ.stmts t = some (.copy n w) ∧ p.home.cell < t.cell ∧ parents σ.edges t = [p.home]

/-- The state fits to what is expected of it. -/
structure Inv (i : Nat) (σ : Sys) (ctr : Nat) (f : Name → Option Spec.Origin) : Prop where
  ctr : σ.ctr = ctr
  wid : ∀ n v a m c, f n = some (.widget v a m c) → Assoc.get σ.env n = some (.wid v) ∧ ∃ p v0, WidI i σ n v a m c p v0
  val : ∀ n v, Assoc.get σ.env n = some (.wid v) → ∃ a m c, f n = some (.widget v a m c)
  cop : ∀ n w, f n = some (.copied w) → n ≠ w ∧ ∃ v a m c, f w = some (.widget v a m c) ∧ (a = true → ∀ p, Assoc.get σ.parts w = some p → CopyI i σ n w p)
  child : ∀ e ∈ σ.edges, Real i σ e.1
  parent : ∀ e ∈ σ.edges, Real i σ e.2 ∨ e.2.stmt = bodyLength σ e.2.cell ∧ e.2.cell ≤ σ.ctr

theorem getElem?_makes {l : List Stmt} {i j : Nat} {a b : Stmt} (h : (l.filter Spec.makes).length ≤ 1) (ha : l[i]? = some a) (hb : l[j]? = some b)
    (ma : Spec.makes a = true) (mb : Spec.makes b = true) : a = b := by
  induction l generalizing i j with
  | nil => simp at ha
  | cons s l ih =>
    by_cases hs : Spec.makes s = true
    · have hl : l.filter Spec.makes = [] := by
        rw [List.filter_cons, if_pos hs] at h
        simp only [List.length_cons] at h
        exact List.eq_nil_of_length_eq_zero (by omega)
      have hno : ∀ s' ∈ l, ¬ Spec.makes s' = true := List.filter_eq_nil_iff.mp hl
      cases i with
      | zero =>
        cases j with
        | zero => rw [ha] at hb; exact Option.some.inj hb
        | succ j => exact absurd mb (hno b (List.mem_of_getElem? (by simpa using hb)))
      | succ i => exact absurd ma (hno a (List.mem_of_getElem? (by simpa using ha)))
    · cases i with
      | zero => simp at ha; rw [ha] at hs; exact absurd ma hs
      | succ i =>
        cases j with
        | zero => simp at hb; rw [hb] at hs; exact absurd mb hs
        | succ j =>
          rw [List.filter_cons, if_neg hs] at h
          exact ih h (by simpa using ha) (by simpa using hb)

/-- Changes that leave what is known of a widget as it is. -/
theorem WidI.frame {i i' : Nat} {σ σ' : Sys} {n : Name} {v : Val} {a m : Bool} {c : Nat} {p : Part} {v0 : Val} (h : WidI i σ n v a m c p v0)
    (hR : ∀ t, Real i σ t → Real i' σ' t) (hB : ∀ c ≤ σ.ctr, Assoc.get σ'.bodies c = Assoc.get σ.bodies c) (hp : Assoc.get σ'.parts n = Assoc.get σ.parts n)
    (hs : ∀ t, Real i σ t → Assoc.get σ'.stmts t = Assoc.get σ.stmts t) (he : a = true → Assoc.get σ'.stmts (extraTime σ p) = Assoc.get σ.stmts (extraTime σ p))
    (hE : a = true → parents σ'.edges p.home = parents σ.edges p.home) : WidI i' σ' n v a m c p v0 := by
  have hc : c ≤ σ.ctr := h.cell ▸ h.home.le
  have hb : Assoc.get σ'.bodies c = Assoc.get σ.bodies c := hB c hc
  have hx : extraTime σ' p = extraTime σ p := by unfold extraTime bodyLength; rw [h.cell, hb]
  refine ⟨hp.trans h.part, h.cell, hR _ h.home, hR _ h.time, by rw [hb]; exact h.made, by rw [hs _ h.time]; exact h.whose, h.at_home, by rw [hb]; exact h.single,
    by rw [hs _ h.home]; exact h.stmt, fun ha => ?_, fun ha hm => ?_, fun ha hm k hk => ?_⟩
  · rw [hE ha, hx]; exact h.par ha
  · rw [hE ha]; exact h.still ha hm
  · rw [hE ha, hx, he ha]; exact h.moved ha hm k hk

theorem CopyI.frame {i i' : Nat} {σ σ' : Sys} {n w : Name} {p : Part} (h : CopyI i σ n w p) (hR : ∀ t, Real i σ t → Real i' σ' t)
    (hh : Assoc.get σ'.homes n = Assoc.get σ.homes n) (hs : ∀ t, Real i σ t → Assoc.get σ'.stmts t = Assoc.get σ.stmts t)
    (hE : ∀ t, Real i σ t → Assoc.get σ.stmts t = some (.copy n w) → parents σ'.edges t = parents σ.edges t) : CopyI i' σ' n w p := by
  obtain ⟨t, h1, h2, h3, h4, h5⟩ := h
  exact ⟨t, hh.trans h1, hR t h2, (hs t h2).trans h3, h4, (hE t h2 h3).trans h5⟩

/-- Changes that leave everything as it is. -/
theorem Inv.frame {i i' : Nat} {σ σ' : Sys} {ctr ctr' : Nat} {f : Name → Option Spec.Origin} (h : Inv i σ ctr f) (hctr : σ'.ctr = ctr') (hR : ∀ t, Real i σ t → Real i' σ' t)
    (hB : ∀ c ≤ σ.ctr, Assoc.get σ'.bodies c = Assoc.get σ.bodies c) (henv : σ'.env = σ.env) (hparts : σ'.parts = σ.parts) (hhomes : σ'.homes = σ.homes)
    (hedges : σ'.edges = σ.edges) (hs : ∀ t, Real i σ t → Assoc.get σ'.stmts t = Assoc.get σ.stmts t)
    (hx : ∀ t, t.cell ≤ σ.ctr → t.stmt = bodyLength σ t.cell → Assoc.get σ'.stmts t = Assoc.get σ.stmts t) (hle : σ.ctr ≤ σ'.ctr) :
    Inv i' σ' ctr' f := by
  refine ⟨hctr, fun n v a m c hf => ?_, fun n v hn => ?_, fun n w hf => ?_, fun e he => ?_, fun e he => ?_⟩
  · obtain ⟨h1, p, v0, h2⟩ := h.wid n v a m c hf
    exact ⟨by rw [henv]; exact h1, p, v0, h2.frame hR hB (by rw [hparts]) hs (fun _ => hx _ h2.home.le rfl) (fun _ => by rw [hedges])⟩
  · rw [henv] at hn; exact h.val n v hn
  · obtain ⟨h1, v, a, m, c, h2, h3⟩ := h.cop n w hf
    refine ⟨h1, v, a, m, c, h2, fun ha p hp => ?_⟩
    rw [hparts] at hp
    exact (h3 ha p hp).frame hR (by rw [hhomes]) hs (fun _ _ _ => by rw [hedges])
  · rw [hedges] at he; exact hR _ (h.child e he)
  · rw [hedges] at he
    rcases h.parent e he with hp | hp
    · exact .inl (hR _ hp)
    · refine .inr ⟨hp.1.trans ?_, Nat.le_trans hp.2 hle⟩
      unfold bodyLength
      rw [hB _ hp.2]

theorem Inv.congr {i : Nat} {σ : Sys} {ctr : Nat} {f g : Name → Option Spec.Origin} (h : Inv i σ ctr f) (e : ∀ n, f n = g n) : Inv i σ ctr g := by
  have : f = g := funext e
  exact this ▸ h

/-- One name gets another origin. -/
def upd (f : Name → Option Spec.Origin) (w : Name) (o : Spec.Origin) : Name → Option Spec.Origin := fun n => if n = w then some o else f n

theorem upd_self (f : Name → Option Spec.Origin) (w : Name) (o : Spec.Origin) : upd f w o w = some o := if_pos rfl

theorem upd_ne {f : Name → Option Spec.Origin} {w n : Name} (o : Spec.Origin) (h : n ≠ w) : upd f w o n = f n := if_neg h

/-- A statement is tracked before it runs. -/
theorem Inv.track {i : Nat} {σ : Sys} {ctr : Nat} {f : Name → Option Spec.Origin} (h : Inv i σ ctr f) (s : Stmt) (hi : i < bodyLength σ σ.ctr) :
    Inv i { σ with stmts := Assoc.set σ.stmts ⟨σ.ctr, i⟩ s } ctr f := by
  refine h.frame h.ctr (fun _ ht => ht) (fun _ _ => rfl) rfl rfl rfl rfl (fun t ht => Assoc.get_set_ne _ _ ht.ne_next) (fun t _ ht => Assoc.get_set_ne _ _ ?_) (Nat.le_refl _)
  rintro rfl
  simp only at ht
  omega

theorem Inv.next {i j : Nat} {σ : Sys} {ctr : Nat} {f : Name → Option Spec.Origin} (h : Inv i σ ctr f) (hj : i ≤ j) : Inv j σ ctr f :=
  h.frame h.ctr (fun t ht => ⟨ht.1, ht.2.imp id fun h => ⟨h.1, by omega⟩⟩) (fun _ _ => rfl) rfl rfl rfl rfl (fun _ _ => rfl) (fun _ _ _ => rfl) (Nat.le_refl _)

/-- The next cell. -/
theorem Inv.run {i : Nat} {σ : Sys} {ctr : Nat} {f : Name → Option Spec.Origin} (h : Inv i σ ctr f) (k : Nat) (b : List Stmt) :
    Inv 0 { σ with ctr := σ.ctr + 1, bodies := Assoc.set σ.bodies (σ.ctr + 1) b, last := Assoc.set σ.last k (σ.ctr + 1) } (ctr + 1) f := by
  have hB : ∀ c ≤ σ.ctr, Assoc.get (Assoc.set σ.bodies (σ.ctr + 1) b) c = Assoc.get σ.bodies c := fun c hc => Assoc.get_set_ne _ _ (by omega)
  refine h.frame (congrArg (· + 1) h.ctr) (fun t ht => ⟨?_, .inl (Nat.lt_succ_of_le ht.le)⟩) hB rfl rfl rfl rfl (fun _ _ => rfl) (fun _ _ _ => rfl) (Nat.le_succ _)
  have := ht.1
  unfold bodyLength at this ⊢
  simp only
  rw [hB _ ht.le]; exact this

/-- A widget shows another value that is not noticed and is no number. -/
theorem Inv.show {i : Nat} {σ : Sys} {ctr : Nat} {f : Name → Option Spec.Origin} (h : Inv i σ ctr f) {w : Name} {old v : Val} {a m : Bool} {c : Nat}
    (hw : f w = some (.widget old a m c)) (hv : ∀ k, v ≠ .num k) : Inv i { σ with env := Assoc.set σ.env w (.wid v) } ctr (upd f w (.widget v a true c)) := by
  refine ⟨h.ctr, fun n v' a' m' c' hf => ?_, fun n v' hn => ?_, fun n w' hf => ?_, h.child, h.parent⟩
  · by_cases hn : n = w
    · subst hn
      rw [upd_self] at hf
      cases hf
      refine ⟨Assoc.get_set_self _ _ _, ?_⟩
      obtain ⟨-, p, v0, hp⟩ := h.wid n old a m c hw
      exact ⟨p, v0, hp.part, hp.cell, hp.home, hp.time, hp.made, hp.whose, hp.at_home, hp.single, hp.stmt, hp.par, (fun _ h => by cases h),
        fun _ _ k hk => absurd hk (hv k)⟩
    · rw [upd_ne _ hn] at hf
      obtain ⟨h1, p, v0, hp⟩ := h.wid n v' a' m' c' hf
      refine ⟨?_, p, v0, ⟨hp.part, hp.cell, hp.home, hp.time, hp.made, hp.whose, hp.at_home, hp.single, hp.stmt, hp.par, hp.still, hp.moved⟩⟩
      show Assoc.get (Assoc.set σ.env w (.wid v)) n = _
      rw [Assoc.get_set_ne _ _ hn]; exact h1
  · have hn' : Assoc.get (Assoc.set σ.env w (.wid v)) n = some (.wid v') := hn
    by_cases hnw : n = w
    · subst hnw
      rw [Assoc.get_set_self] at hn'
      cases hn'
      exact ⟨a, true, c, upd_self _ _ _⟩
    · rw [Assoc.get_set_ne _ _ hnw] at hn'
      obtain ⟨a', m', c', h'⟩ := h.val n v' hn'
      exact ⟨a', m', c', by rw [upd_ne _ hnw]; exact h'⟩
  · have hnw : n ≠ w := by
      rintro rfl
      rw [upd_self] at hf; cases hf
    rw [upd_ne _ hnw] at hf
    obtain ⟨h1, v', a', m', c', h2, h3⟩ := h.cop n w' hf
    by_cases hw' : w' = w
    · subst hw'
      rw [hw] at h2
      cases h2
      exact ⟨h1, v, a, true, c, upd_self _ _ _, h3⟩
    · exact ⟨h1, v', a', m', c', by rw [upd_ne _ hw']; exact h2, h3⟩

/-- The edges after `_observe_widget`. -/
theorem take_edges {i : Nat} {σ : Sys} {ctr : Nat} {f : Name → Option Spec.Origin} (h : Inv i σ ctr f) (w : Name) {p : Part} (hp : Real i σ p.time) (c : Code) :
    (take w p c σ).edges = (addEdge p.time (extraTime σ p) σ).edges ∧ (∀ e ∈ (take w p c σ).edges, e ∈ σ.edges ∨ e = (p.time, extraTime σ p)) ∧
    (p.time, extraTime σ p) ∈ (take w p c σ).edges := by
  have h1 : (extraTime σ p, p.time) ∉ σ.edges := fun he => (h.child _ he).ne_extra p rfl
  have h2 : p.time ≠ extraTime σ p := hp.ne_extra p
  have key : (take w p c σ).edges = (addEdge p.time (extraTime σ p) σ).edges := by
    unfold take
    simp only [addEdge]
    by_cases h3 : (p.time, extraTime σ p) ∈ σ.edges
    · simp [h3]
    · simp [h1, h2, h3]
  refine ⟨key, fun e he => mem_addEdge (key ▸ he), ?_⟩
  rw [key]
  unfold addEdge
  by_cases h3 : (p.time, extraTime σ p) ∈ σ.edges
  · simp [h3]
  · simp [h1, h2, h3]

theorem take_fields (w : Name) (p : Part) (c : Code) (σ : Sys) : (take w p c σ).env = σ.env ∧ (take w p c σ).ctr = σ.ctr ∧ (take w p c σ).bodies = σ.bodies ∧
    (take w p c σ).homes = σ.homes ∧ (take w p c σ).stmts = Assoc.set σ.stmts (extraTime σ p) (.put w c) ∧
    (take w p c σ).parts = Assoc.set σ.parts w { p with over := some (extraTime σ p), ready := some (σ.ctr + 1) } := by
  simp [take]

/-- `_observe_widget` is right about widgets that are alone. -/
theorem Inv.take {i : Nat} {σ : Sys} {ctr : Nat} {f : Name → Option Spec.Origin} (h : Inv i σ ctr f) {w : Name} {old v : Val} {a m : Bool} {c : Nat} {p : Part}
    (hw : f w = some (.widget old a m c)) (hp : Assoc.get σ.parts w = some p) (cd : Code) (hcd : ∀ k, v = .num k → cd = .lit v) :
    Inv i (Verif.Widget.take w p cd { σ with env := Assoc.set σ.env w (.wid v) }) ctr (upd f w (.widget v a true c)) := by
  obtain ⟨-, p', v0, hW⟩ := h.wid w old a m c hw
  obtain rfl : p = p' := Option.some.inj (hp.symm.trans hW.part)
  obtain ⟨s, hs1, hs2⟩ := hW.whose
  set σ1 : Sys := { σ with env := Assoc.set σ.env w (.wid v) } with hσ1
  have hx : ∀ q, extraTime σ1 q = extraTime σ q := fun _ => rfl
  obtain ⟨t1, t2, t3, t4, t5, t6⟩ := take_fields w p cd σ1
  have hedges : (Verif.Widget.take w p cd σ1).edges = (addEdge p.time (extraTime σ p) σ).edges ∧
      (∀ e ∈ (Verif.Widget.take w p cd σ1).edges, e ∈ σ.edges ∨ e = (p.time, extraTime σ p)) ∧ (p.time, extraTime σ p) ∈ (Verif.Widget.take w p cd σ1).edges := by
    have e0 : (Verif.Widget.take w p cd σ1).edges = (Verif.Widget.take w p cd σ).edges := by
      simp only [Verif.Widget.take, addEdge_edges, hσ1]
      rfl
    rw [e0]
    exact take_edges h w hW.time cd
  obtain ⟨e1, e2, e3⟩ := hedges
  have hR : ∀ t, Real i σ t → Real i (Verif.Widget.take w p cd σ1) t := fun t ht => by
    unfold Real bodyLength
    rw [t2, t3]; exact ht
  have hS : ∀ t, Real i σ t → Assoc.get (Verif.Widget.take w p cd σ1).stmts t = Assoc.get σ.stmts t := fun t ht => by
    rw [t5]; exact Assoc.get_set_ne _ _ (ht.ne_extra p)
  have hX : extraTime (Verif.Widget.take w p cd σ1) p = extraTime σ p := by unfold extraTime bodyLength; rw [t3]
  have hP : ∀ n, n ≠ w → Assoc.get (Verif.Widget.take w p cd σ1).parts n = Assoc.get σ.parts n := fun n hn => by rw [t6]; exact Assoc.get_set_ne _ _ hn
  have hE : ∀ t, t ≠ p.time → parents (Verif.Widget.take w p cd σ1).edges t = parents σ.edges t := fun t ht => by rw [e1]; exact parents_addEdge_ne σ ht
  refine ⟨t2.trans h.ctr, fun n v' a' m' c' hf => ?_, fun n v' hn => ?_, fun n w' hf => ?_, fun e he => ?_, fun e he => ?_⟩
  · rw [t1]
    by_cases hn : n = w
    · subst hn
      rw [upd_self] at hf
      cases hf
      refine ⟨Assoc.get_set_self _ _ _, { p with over := some (extraTime σ p), ready := some (σ.ctr + 1) }, v0, ?_⟩
      have hpar : a = true → parents (Verif.Widget.take n p cd σ1).edges p.home = [extraTime σ p] := fun ha => by
        have hth := hW.at_home ha
        rw [e1]
        unfold addEdge
        rcases hW.par ha with h0 | h0
        · have hne : p.time ≠ extraTime σ p := hW.time.ne_extra p
          have h1 : (extraTime σ p, p.time) ∉ σ.edges := fun he => (h.child _ he).ne_extra p rfl
          have h2 : (p.time, extraTime σ p) ∉ σ.edges := fun he => by
            have := mem_parents.mpr he
            rw [hth, h0] at this; cases this
          rw [if_neg (by rintro (h | h | h); exacts [h1 h, h2 h, hne h])]
          rw [parents_append, h0]
          simp [parents, hth]
        · have h2 : (p.time, extraTime σ p) ∈ σ.edges := mem_parents.mp (by rw [hth, h0]; simp)
          rw [if_pos (.inr (.inl h2))]; exact h0
      refine ⟨by rw [t6]; exact Assoc.get_set_self _ _ _, hW.cell, hR _ hW.home, hR _ hW.time, by rw [t3]; exact hW.made, ⟨s, by rw [hS _ hW.time]; exact hs1, hs2⟩,
        hW.at_home, by rw [t3]; exact hW.single, by rw [hS _ hW.home]; exact hW.stmt, fun ha => .inr ((hpar ha).trans (by rw [← hX]; rfl)), (fun _ h => by cases h),
        fun ha _ k hk => ⟨(hpar ha).trans (by rw [← hX]; rfl), ?_⟩⟩
      have : extraTime (Verif.Widget.take n p cd σ1) { p with over := some (extraTime σ p), ready := some (σ.ctr + 1) } = extraTime σ p := hX
      rw [this, t5, hcd k hk]
      exact Assoc.get_set_self _ _ _
    · rw [upd_ne _ hn] at hf
      obtain ⟨h1, p', v0', hp'⟩ := h.wid n v' a' m' c' hf
      refine ⟨?_, p', v0', hp'.frame hR (fun _ _ => by rw [t3]) (hP n hn) hS (fun ha => ?_) (fun ha => hE _ ?_)⟩
      · show Assoc.get (Assoc.set σ.env w (.wid v)) n = _
        rw [Assoc.get_set_ne _ _ hn]; exact h1
      · rw [t5]
        refine Assoc.get_set_ne _ _ fun hxe => ?_
        have hcell : p'.home.cell = p.home.cell := (show (extraTime σ p').cell = (extraTime σ1 p).cell from congrArg Time.cell hxe)
        have hcc : c' = c := hp'.cell.symm.trans (hcell.trans hW.cell)
        have hm1 := hp'.made
        have hm2 := hW.made
        rw [hcc] at hm1
        have := getElem?_makes (by rw [← hcc]; exact hp'.single ha) hm1 hm2 rfl rfl
        cases this
        exact hn rfl
      · intro he
        have := hp'.stmt ha
        rw [he, hs1] at this
        cases this
        exact hn hs2
  · rw [t1] at hn
    have hn' : Assoc.get (Assoc.set σ.env w (.wid v)) n = some (.wid v') := hn
    by_cases hnw : n = w
    · subst hnw
      rw [Assoc.get_set_self] at hn'
      cases hn'
      exact ⟨a, true, c, upd_self _ _ _⟩
    · rw [Assoc.get_set_ne _ _ hnw] at hn'
      obtain ⟨a', m', c', h'⟩ := h.val n v' hn'
      exact ⟨a', m', c', by rw [upd_ne _ hnw]; exact h'⟩
  · have hnw : n ≠ w := by
      rintro rfl
      rw [upd_self] at hf; cases hf
    rw [upd_ne _ hnw] at hf
    obtain ⟨h1, v', a', m', c', h2, h3⟩ := h.cop n w' hf
    have hcopy : ∀ t, Real i σ t → Assoc.get σ.stmts t = some (.copy n w') → parents (Verif.Widget.take w p cd σ1).edges t = parents σ.edges t := fun t _ ht => by
      refine hE t ?_
      rintro rfl
      rw [hs1] at ht
      cases ht
      exact hs2
    by_cases hw' : w' = w
    · subst hw'
      rw [hw] at h2
      cases h2
      refine ⟨h1, v, a, true, c, upd_self _ _ _, fun ha q hq => ?_⟩
      rw [t6, Assoc.get_set_self] at hq
      cases hq
      exact (h3 ha p hp).frame hR (by rw [t4]) hS hcopy
    · refine ⟨h1, v', a', m', c', by rw [upd_ne _ hw']; exact h2, fun ha q hq => ?_⟩
      rw [hP w' hw'] at hq
      exact (h3 ha q hq).frame hR (by rw [t4]) hS hcopy
  · rcases e2 e he with he | rfl
    · exact hR _ (h.child e he)
    · exact hR _ hW.time
  · have hbl : ∀ x, bodyLength (Verif.Widget.take w p cd σ1) x = bodyLength σ x := fun x => by unfold bodyLength; rw [t3]
    rcases e2 e he with he | rfl
    · rcases h.parent e he with hp | hp
      · exact .inl (hR _ hp)
      · exact .inr (by rw [hbl, t2]; exact hp)
    · refine .inr ⟨?_, ?_⟩
      · rw [hbl]; rfl
      · rw [t2]; exact hW.home.le

/-- What an edge of the statement that runs does. -/
theorem Inv.fresh {i : Nat} {σ : Sys} {ctr : Nat} {f : Name → Option Spec.Origin} (h : Inv i σ ctr f) (hi : i < bodyLength σ σ.ctr) {u : Time} (hu : Real i σ u) :
    parents σ.edges ⟨σ.ctr, i⟩ = [] ∧ parents (addEdge ⟨σ.ctr, i⟩ u σ).edges ⟨σ.ctr, i⟩ = [u] ∧
    (∀ e ∈ (addEdge ⟨σ.ctr, i⟩ u σ).edges, e ∈ σ.edges ∨ e = (⟨σ.ctr, i⟩, u)) := by
  have h0 : parents σ.edges ⟨σ.ctr, i⟩ = [] := by
    rw [List.eq_nil_iff_forall_not_mem]
    intro x hx
    exact (h.child _ (mem_parents.mp hx)).ne_next rfl
  refine ⟨h0, ?_, fun e he => mem_addEdge he⟩
  unfold addEdge
  have h1 : (u, (⟨σ.ctr, i⟩ : Time)) ∉ σ.edges := fun he => by
    rcases h.parent _ he with hp | hp
    · exact hp.ne_next rfl
    · have := hp.1
      simp only at this
      omega
  have h2 : ((⟨σ.ctr, i⟩ : Time), u) ∉ σ.edges := fun he => (h.child _ he).ne_next rfl
  have h3 : (⟨σ.ctr, i⟩ : Time) ≠ u := hu.ne_next.symm
  rw [if_neg (by rintro (h | h | h); exacts [h1 h, h2 h, h3 h])]
  rw [parents_append, h0]
  simp [parents]

theorem real_succ {i : Nat} {σ : Sys} (hi : i < bodyLength σ σ.ctr) : Real (i + 1) σ ⟨σ.ctr, i⟩ := ⟨hi, .inr ⟨rfl, Nat.lt_succ_self _⟩⟩

theorem Real.succ {i : Nat} {σ : Sys} {t : Time} (h : Real i σ t) : Real (i + 1) σ t := ⟨h.1, h.2.imp id fun h => ⟨h.1, Nat.lt_succ_of_lt h.2⟩⟩

/-- After `w.value = c`, which was tracked before. -/
theorem Inv.refresh {i : Nat} {σ : Sys} {ctr : Nat} {f : Name → Option Spec.Origin} (h : Inv i σ ctr f) {w : Name} {v : Val} {a m : Bool} {c : Nat}
    (hw : f w = some (.widget v a m c)) (hi : i < bodyLength σ σ.ctr) {cd : Code} (hs : Assoc.get σ.stmts ⟨σ.ctr, i⟩ = some (.put w cd)) (m' : Bool) :
    Inv (i + 1) (refreshPart w ⟨σ.ctr, i⟩ σ) ctr (upd f w (.widget v false m' c)) := by
  obtain ⟨hv, p, v0, hW⟩ := h.wid w v a m c hw
  obtain ⟨r1, r2, r3, -, r5, r6⟩ := refreshPart_fields w ⟨σ.ctr, i⟩ σ
  have r7 : (refreshPart w ⟨σ.ctr, i⟩ σ).parts = Assoc.set σ.parts w { p with time := ⟨σ.ctr, i⟩, over := none } := by
    unfold refreshPart; rw [hW.part]; simp
  have r8 : (refreshPart w ⟨σ.ctr, i⟩ σ).edges = (addEdge ⟨σ.ctr, i⟩ p.home σ).edges := by
    unfold refreshPart; rw [hW.part]; simp only [addEdge_edges]
  obtain ⟨-, -, f3⟩ := h.fresh hi hW.home
  generalize refreshPart w ⟨σ.ctr, i⟩ σ = τ at r1 r2 r3 r5 r6 r7 r8
  have hR : ∀ t, Real i σ t → Real (i + 1) τ t := fun t ht => by unfold Real bodyLength; rw [r2, r3]; exact ht.succ
  have hS : ∀ t, Real i σ t → Assoc.get τ.stmts t = Assoc.get σ.stmts t := fun t _ => by rw [r5]
  have hE : ∀ t, Real i σ t → parents τ.edges t = parents σ.edges t := fun t ht => by rw [r8]; exact parents_addEdge_ne σ ht.ne_next
  have hP : ∀ n, n ≠ w → Assoc.get τ.parts n = Assoc.get σ.parts n := fun n hn => by rw [r7]; exact Assoc.get_set_ne _ _ hn
  have hT : Real (i + 1) τ ⟨σ.ctr, i⟩ := by unfold Real bodyLength; rw [r2, r3]; exact real_succ hi
  refine ⟨r2.trans h.ctr, fun n v' a' m'' c' hf => ?_, fun n v' hn => ?_, fun n w' hf => ?_, fun e he => ?_, fun e he => ?_⟩
  · by_cases hn : n = w
    · subst hn
      rw [upd_self] at hf
      cases hf
      refine ⟨by rw [r1]; exact hv, { p with time := ⟨σ.ctr, i⟩, over := none }, v0, by rw [r7]; exact Assoc.get_set_self _ _ _, hW.cell, hR _ hW.home, hT, by rw [r3]; exact hW.made,
        ⟨.put n cd, by rw [r5]; exact hs, rfl⟩, ?_, ?_, ?_, ?_, ?_, ?_⟩ <;> intro h <;> cases h
    · rw [upd_ne _ hn] at hf
      obtain ⟨h1, p', v0', hp'⟩ := h.wid n v' a' m'' c' hf
      exact ⟨by rw [r1]; exact h1, p', v0', hp'.frame hR (fun _ _ => by rw [r3]) (hP n hn) hS (fun _ => by rw [r5]) (fun _ => hE _ hp'.home)⟩
  · rw [r1] at hn
    obtain ⟨a', m'', c', h'⟩ := h.val n v' hn
    by_cases hnw : n = w
    · subst hnw
      rw [hw] at h'
      cases h'
      exact ⟨false, m', c, upd_self _ _ _⟩
    · exact ⟨a', m'', c', by rw [upd_ne _ hnw]; exact h'⟩
  · have hnw : n ≠ w := by
      rintro rfl
      rw [upd_self] at hf; cases hf
    rw [upd_ne _ hnw] at hf
    obtain ⟨h1, v', a', m'', c', h2, h3⟩ := h.cop n w' hf
    by_cases hw' : w' = w
    · subst hw'
      exact ⟨h1, v, false, m', c, upd_self _ _ _, fun h => by cases h⟩
    · refine ⟨h1, v', a', m'', c', by rw [upd_ne _ hw']; exact h2, fun ha q hq => ?_⟩
      rw [hP w' hw'] at hq
      exact (h3 ha q hq).frame hR (by rw [r6]) hS (fun t ht _ => hE t ht)
  · rw [r8] at he
    rcases f3 e he with he | rfl
    · exact hR _ (h.child e he)
    · exact hT
  · rw [r8] at he
    rcases f3 e he with he | rfl
    · rcases h.parent e he with hp | hp
      · exact .inl (hR _ hp)
      · exact .inr (by unfold bodyLength; rw [r2, r3]; exact hp)
    · exact .inl (hR _ hW.home)

theorem detach_widget {f : Name → Option Spec.Origin} {n m : Name} {v : Val} {a b : Bool} {c : Nat} : Spec.detach n f m = some (.widget v a b c) ↔ f m = some (.widget v a b c) := by
  unfold Spec.detach
  split
  · rename_i h; rw [h]; simp
  · exact Iff.rfl

theorem detach_copied {f : Name → Option Spec.Origin} {n m w : Name} (h : Spec.detach n f m = some (.copied w)) : f m = some (.copied w) ∧ w ≠ n := by
  unfold Spec.detach at h
  split at h
  · cases h
  · rename_i h'
    refine ⟨h, ?_⟩
    rintro rfl
    exact h' h

/-- After `w = Text(value=v)`, which was tracked before. -/
theorem Inv.make {i : Nat} {σ : Sys} {ctr : Nat} {f : Name → Option Spec.Origin} (h : Inv i σ ctr f) (w : Name) (v : Val) (hi : i < bodyLength σ σ.ctr)
    (hs : Assoc.get σ.stmts ⟨σ.ctr, i⟩ = some (.make w v)) (hb : ((Assoc.get σ.bodies σ.ctr).getD [])[i]? = some (.make w v)) :
    Inv (i + 1) (runMake ⟨σ.ctr, i⟩ w v σ).1 ctr
      (upd (Spec.detach w f) w (.widget v (decide ((((Assoc.get σ.bodies σ.ctr).getD []).filter Spec.makes).length ≤ 1)) false ctr)) := by
  have hR : ∀ t, Real i σ t → Real (i + 1) (runMake ⟨σ.ctr, i⟩ w v σ).1 t := fun t ht => ht.succ
  have hT : Real (i + 1) (runMake ⟨σ.ctr, i⟩ w v σ).1 ⟨σ.ctr, i⟩ := real_succ hi
  have hP : ∀ n, n ≠ w → Assoc.get (runMake ⟨σ.ctr, i⟩ w v σ).1.parts n = Assoc.get σ.parts n := fun n hn => Assoc.get_set_ne _ _ hn
  have h0 : parents σ.edges ⟨σ.ctr, i⟩ = [] := by
    rw [List.eq_nil_iff_forall_not_mem]
    intro x hx
    exact (h.child _ (mem_parents.mp hx)).ne_next rfl
  refine ⟨h.ctr, fun n v' a' m' c' hf => ?_, fun n v' hn => ?_, fun n w' hf => ?_, fun e he => hR _ (h.child e he), fun e he => (h.parent e he).imp (hR _) id⟩
  · by_cases hn : n = w
    · subst hn
      rw [upd_self] at hf
      cases hf
      refine ⟨Assoc.get_set_self _ _ _, ⟨⟨σ.ctr, i⟩, ⟨σ.ctr, i⟩, none, (Assoc.get σ.parts n).bind Part.ready⟩, v, Assoc.get_set_self _ _ _, h.ctr, hT, hT, ?_, ⟨_, hs, rfl⟩,
        fun _ => rfl, fun ha => ?_, fun _ => hs, fun _ => .inl h0, fun _ _ => ⟨rfl, h0⟩, (fun _ h => by cases h)⟩
      · show ((Assoc.get σ.bodies ctr).getD [])[i]? = _
        rw [← h.ctr]; exact hb
      · rw [← h.ctr]; exact of_decide_eq_true ha
    · rw [upd_ne _ hn, detach_widget] at hf
      obtain ⟨h1, p', v0', hp'⟩ := h.wid n v' a' m' c' hf
      refine ⟨?_, p', v0', hp'.frame hR (fun _ _ => rfl) (hP n hn) (fun _ _ => rfl) (fun _ => rfl) (fun _ => rfl)⟩
      exact (Assoc.get_set_ne _ _ hn).trans h1
  · have hn' : Assoc.get (Assoc.set σ.env w (.wid v)) n = some (.wid v') := hn
    by_cases hnw : n = w
    · subst hnw
      rw [Assoc.get_set_self] at hn'
      cases hn'
      exact ⟨_, _, _, upd_self _ _ _⟩
    · rw [Assoc.get_set_ne _ _ hnw] at hn'
      obtain ⟨a', m', c', h'⟩ := h.val n v' hn'
      exact ⟨a', m', c', by rw [upd_ne _ hnw, detach_widget]; exact h'⟩
  · have hnw : n ≠ w := by
      rintro rfl
      rw [upd_self] at hf; cases hf
    rw [upd_ne _ hnw] at hf
    obtain ⟨hf, hw'⟩ := detach_copied hf
    obtain ⟨h1, v', a', m', c', h2, h3⟩ := h.cop n w' hf
    refine ⟨h1, v', a', m', c', by rw [upd_ne _ hw', detach_widget]; exact h2, fun ha q hq => ?_⟩
    rw [hP w' hw'] at hq
    exact (h3 ha q hq).frame hR (Assoc.get_set_ne _ _ hnw) (fun _ _ => rfl) (fun _ _ _ => rfl)

/-- After `y = w.value`, which was tracked before. -/
theorem Inv.copy {i : Nat} {σ : Sys} {ctr : Nat} {f : Name → Option Spec.Origin} (h : Inv i σ ctr f) (y w : Name) {v : Val} {a m : Bool} {c : Nat}
    (hw : f w = some (.widget v a m c)) (hi : i < bodyLength σ σ.ctr) (hs : Assoc.get σ.stmts ⟨σ.ctr, i⟩ = some (.copy y w)) :
    Inv (i + 1) (runCopy ⟨σ.ctr, i⟩ y w σ).1 ctr (upd (Spec.detach y f) y (if c < ctr ∧ y ≠ w then .copied w else .other)) ∧ (runCopy ⟨σ.ctr, i⟩ y w σ).2 = true := by
  obtain ⟨hv, p, v0, hW⟩ := h.wid w v a m c hw
  obtain ⟨r1, r2, r3, -, r4, r5, r6⟩ := usePart_fields ⟨σ.ctr, i⟩ w σ
  have hrun : runCopy ⟨σ.ctr, i⟩ y w σ =
      ({ usePart ⟨σ.ctr, i⟩ w σ with env := Assoc.set σ.env y (.val v), homes := Assoc.set σ.homes y ⟨σ.ctr, i⟩, parts := Assoc.erase σ.parts y }, true) := by
    unfold runCopy; rw [hv]; simp only [r1, r4, r6]
  have r8 : (usePart ⟨σ.ctr, i⟩ w σ).edges = (addEdge ⟨σ.ctr, i⟩ p.time σ).edges := by
    unfold usePart; rw [hW.part]
  rw [hrun]
  refine ⟨?_, rfl⟩
  obtain ⟨-, f2, f3⟩ := h.fresh hi hW.time
  rw [← r8] at f2 f3
  set τ : Sys := { usePart ⟨σ.ctr, i⟩ w σ with env := Assoc.set σ.env y (.val v), homes := Assoc.set σ.homes y ⟨σ.ctr, i⟩, parts := Assoc.erase σ.parts y } with hτ
  have hbody : τ.bodies = σ.bodies := r3
  have hctr : τ.ctr = σ.ctr := r2
  have hst : τ.stmts = σ.stmts := r5
  have hR : ∀ t, Real i σ t → Real (i + 1) τ t := fun t ht => by unfold Real bodyLength; rw [hctr, hbody]; exact ht.succ
  have hS : ∀ t, Real i σ t → Assoc.get τ.stmts t = Assoc.get σ.stmts t := fun t _ => by rw [hst]
  have hE : ∀ t, Real i σ t → parents τ.edges t = parents σ.edges t := fun t ht => by
    show parents (usePart ⟨σ.ctr, i⟩ w σ).edges t = _
    rw [r8]; exact parents_addEdge_ne σ ht.ne_next
  have hP : ∀ n, n ≠ y → Assoc.get τ.parts n = Assoc.get σ.parts n := fun n hn => get_erase_ne _ hn
  have hT : Real (i + 1) τ ⟨σ.ctr, i⟩ := by unfold Real bodyLength; rw [hctr, hbody]; exact real_succ hi
  refine ⟨hctr.trans h.ctr, fun n v' a' m'' c' hf => ?_, fun n v' hn => ?_, fun n w' hf => ?_, fun e he => ?_, fun e he => ?_⟩
  · have hn : n ≠ y := by
      rintro rfl
      rw [upd_self] at hf
      split at hf <;> cases hf
    rw [upd_ne _ hn, detach_widget] at hf
    obtain ⟨h1, p', v0', hp'⟩ := h.wid n v' a' m'' c' hf
    exact ⟨(Assoc.get_set_ne _ _ hn).trans h1, p', v0', hp'.frame hR (fun _ _ => by rw [hbody]) (hP n hn) hS (fun _ => by rw [hst]) (fun _ => hE _ hp'.home)⟩
  · have hn' : Assoc.get (Assoc.set σ.env y (.val v)) n = some (.wid v') := hn
    have hny : n ≠ y := by
      rintro rfl
      rw [Assoc.get_set_self] at hn'; cases hn'
    rw [Assoc.get_set_ne _ _ hny] at hn'
    obtain ⟨a', m', c', h'⟩ := h.val n v' hn'
    exact ⟨a', m', c', by rw [upd_ne _ hny, detach_widget]; exact h'⟩
  · by_cases hny : n = y
    · subst hny
      rw [upd_self] at hf
      split at hf
      · rename_i hc
        cases hf
        refine ⟨hc.2, v, a, m, c, by rw [upd_ne _ (Ne.symm hc.2), detach_widget]; exact hw, fun ha q hq => ?_⟩
        rw [hP w (Ne.symm hc.2), hW.part] at hq
        cases hq
        refine ⟨⟨σ.ctr, i⟩, Assoc.get_set_self _ _ _, hT, by rw [hst]; exact hs, ?_, ?_⟩
        · rw [hW.cell, h.ctr]; exact hc.1
        · rw [← hW.at_home ha]; exact f2
      · cases hf
    · rw [upd_ne _ hny] at hf
      obtain ⟨hf, hw'⟩ := detach_copied hf
      obtain ⟨h1, v', a', m', c', h2, h3⟩ := h.cop n w' hf
      refine ⟨h1, v', a', m', c', by rw [upd_ne _ hw', detach_widget]; exact h2, fun ha q hq => ?_⟩
      rw [hP w' hw'] at hq
      exact (h3 ha q hq).frame hR (Assoc.get_set_ne _ _ hny) hS (fun t ht _ => hE t ht)
  · rcases f3 e he with he | rfl
    · exact hR _ (h.child e he)
    · exact hT
  · rcases f3 e he with he | rfl
    · rcases h.parent e he with hp | hp
      · exact .inl (hR _ hp)
      · exact .inr (by unfold bodyLength; rw [hctr, hbody]; exact hp)
    · exact .inl (hR _ hW.time)

/-- A widget gets a value, from the user or from a program. -/
theorem Inv.assign {i : Nat} {σ : Sys} {ctr : Nat} {f : Name → Option Spec.Origin} (h : Inv i σ ctr f) (rest : List Char → Option Code) {w : Name} {old : Val} (v : Val)
    {a m : Bool} {c : Nat} (hw : f w = some (.widget old a m c)) :
    Inv i (assign rest w old v σ).1 ctr (upd f w (.widget v a (m || decide (old ≠ v)) c)) ∧ (∀ k, v = .num k → (assign rest w old v σ).2 = true) ∧
    (∀ t, Real i σ t ∨ t = ⟨σ.ctr, i⟩ → i < bodyLength σ σ.ctr → Assoc.get (assign rest w old v σ).1.stmts t = Assoc.get σ.stmts t) := by
  obtain ⟨hv, p, v0, hW⟩ := h.wid w old a m c hw
  unfold Verif.Widget.assign
  split
  · rename_i e
    subst e
    refine ⟨h.congr fun n => ?_, fun _ _ => rfl, fun _ _ _ => rfl⟩
    by_cases hn : n = w
    · subst hn; rw [upd_self, hw]; simp
    · rw [upd_ne _ hn]
  · rename_i hne
    have hm : (m || decide (old ≠ v)) = true := by simp [hne]
    rw [hm]
    unfold observe
    have hp : Assoc.get { σ with env := Assoc.set σ.env w (.wid v) }.parts w = some p := hW.part
    rw [hp]
    cases hc : parse rest (text v) with
    | none =>
      have hnum : ∀ k, v ≠ .num k := by
        rintro k rfl
        rw [parse_num] at hc; cases hc
      exact ⟨h.show hw hnum, fun k hk => absurd hk (hnum k), fun _ _ _ => rfl⟩
    | some cd =>
      refine ⟨h.take hw hW.part cd ?_, fun _ _ => rfl, fun t ht hi => ?_⟩
      · rintro k rfl
        rw [parse_num] at hc
        exact (Option.some.inj hc).symm
      · obtain ⟨-, -, -, -, t5, -⟩ := take_fields w p cd { σ with env := Assoc.set σ.env w (.wid v) }
        dsimp only
        rw [t5]
        refine Assoc.get_set_ne _ _ ?_
        have hx : extraTime { σ with env := Assoc.set σ.env w (.wid v) } p = extraTime σ p := rfl
        rw [hx]
        rcases ht with ht | rfl
        · exact ht.ne_extra p
        · intro he
          have h1 : σ.ctr = p.home.cell := congrArg Time.cell he
          have h2 : i = bodyLength σ p.home.cell := congrArg Time.stmt he
          rw [← h1] at h2
          omega

theorem runPut_lit (rest : List Char → Option Code) (t : Time) {σ : Sys} {w : Name} {old v : Val} (he : Assoc.get σ.env w = some (.wid old))
    (hok : (assign rest w old v σ).2 = true) : runPut rest t w (.lit v) σ = (refreshPart w t (assign rest w old v σ).1, true) := by
  unfold runPut
  rw [he]
  simp only [look]
  rcases hr : assign rest w old v σ with ⟨τ, ok⟩
  rw [hr] at hok
  simp only at hok
  subst hok
  rfl

/-- A statement that runs. -/
theorem Inv.stmt {i : Nat} {σ : Sys} {ctr : Nat} {f : Name → Option Spec.Origin} (h : Inv i σ ctr f) (rest : List Char → Option Code) {b : List Stmt} {s : Stmt}
    (hbody : Assoc.get σ.bodies σ.ctr = some b) (hb : b[i]? = some s) (hnum : ∀ w c, s = .put w c → ∃ n, c = .lit (.num n)) :
    (Spec.stmt (decide ((b.filter Spec.makes).length ≤ 1)) ctr f s = none ∧ Inv (i + 1) (runStmt rest ⟨σ.ctr, i⟩ s σ).1 ctr f ∧ (runStmt rest ⟨σ.ctr, i⟩ s σ).2 = false) ∨
    (∃ g, Spec.stmt (decide ((b.filter Spec.makes).length ≤ 1)) ctr f s = some g ∧ Inv (i + 1) (runStmt rest ⟨σ.ctr, i⟩ s σ).1 ctr g ∧
      (runStmt rest ⟨σ.ctr, i⟩ s σ).2 = true) := by
  have hlen : bodyLength σ σ.ctr = b.length := by unfold bodyLength; rw [hbody]; rfl
  have hi : i < bodyLength σ σ.ctr := by
    rw [hlen]
    obtain ⟨hlt, -⟩ := List.getElem?_eq_some_iff.mp hb
    exact hlt
  have hT := h.track s hi
  have hs : Assoc.get { σ with stmts := Assoc.set σ.stmts ⟨σ.ctr, i⟩ s }.stmts ⟨σ.ctr, i⟩ = some s := Assoc.get_set_self _ _ _
  set σ1 : Sys := { σ with stmts := Assoc.set σ.stmts ⟨σ.ctr, i⟩ s } with hσ1
  have hfail : ∀ {w : Name}, (∀ v a m c, f w ≠ some (.widget v a m c)) → ∀ v, Assoc.get σ1.env w ≠ some (.wid v) := by
    intro w hw v hv
    obtain ⟨a, m, c, h'⟩ := h.val w v hv
    exact hw v a m c h'
  have hcases : ∀ w, (∃ v a m c, f w = some (.widget v a m c)) ∨ ((∀ v a m c, f w ≠ some (.widget v a m c)) ∧
      (∀ (x : Val → Bool → Bool → Nat → Option (Name → Option Spec.Origin)), (match f w with | some (.widget v a m c) => x v a m c | _ => none) = none)) := by
    intro w
    cases hf : f w with
    | none => exact .inr ⟨(fun _ _ _ _ h => by cases h), fun _ => rfl⟩
    | some o =>
      cases o with
      | widget v a m c => exact .inl ⟨v, a, m, c, rfl⟩
      | copied _ => exact .inr ⟨(fun _ _ _ _ h => by cases h), fun _ => rfl⟩
      | other => exact .inr ⟨(fun _ _ _ _ h => by cases h), fun _ => rfl⟩
  cases s with
  | make w v =>
    right
    refine ⟨_, rfl, ?_, rfl⟩
    have := hT.make w v hi hs (by show ((Assoc.get σ.bodies σ.ctr).getD [])[i]? = _; rw [hbody]; exact hb)
    refine this.congr fun n => ?_
    show upd _ _ (.widget v (decide ((((Assoc.get σ.bodies σ.ctr).getD []).filter Spec.makes).length ≤ 1)) false ctr) n = _
    rw [hbody]
    rfl
  | put w c =>
    obtain ⟨k, rfl⟩ := hnum w c rfl
    rcases hcases w with ⟨old, a, m, c, hf⟩ | ⟨hf, hmatch⟩
    · right
      obtain ⟨hA, hok, hst⟩ := hT.assign rest (.num k) hf
      obtain ⟨he, -⟩ := h.wid w old a m c hf
      have hA1 := hA.refresh (upd_self _ _ _) (i := i) (cd := .lit (.num k)) ?_ ?_ m
      · refine ⟨fun n => if n = w then some (.widget (.num k) false m c) else f n, by simp only [Spec.stmt, hf], ?_, ?_⟩
        · have hrun : (runStmt rest ⟨σ.ctr, i⟩ (.put w (.lit (.num k))) σ).1 = refreshPart w ⟨σ.ctr, i⟩ (Verif.Widget.assign rest w old (.num k) σ1).1 :=
            congrArg Prod.fst (runPut_lit rest ⟨σ.ctr, i⟩ (σ := σ1) he (hok k rfl))
          have hc : (Verif.Widget.assign rest w old (.num k) σ1).1.ctr = σ.ctr := (assign_step rest w old (.num k) σ1 he).2.1
          rw [hrun]
          rw [hc] at hA1
          refine hA1.congr fun n => ?_
          by_cases hn : n = w
          · subst hn; rw [upd_self]; simp
          · rw [upd_ne _ hn, upd_ne _ hn]; simp [hn]
        · exact congrArg Prod.snd (runPut_lit rest ⟨σ.ctr, i⟩ (σ := σ1) he (hok k rfl))
      · obtain ⟨-, c2, c3, -, -⟩ := assign_step rest w old (.num k) σ1 he
        unfold bodyLength
        rw [c2, c3]; exact hi
      · obtain ⟨-, c2, -, -, -⟩ := assign_step rest w old (.num k) σ1 he
        rw [c2, hst ⟨σ1.ctr, i⟩ (.inr rfl) hi]
        exact hs
    · left
      have he := hfail hf
      refine ⟨hmatch _, ?_, ?_⟩
      all_goals
        simp only [runStmt, runPut, look]
        cases hg : Assoc.get σ.env w with
        | none => first | exact hT.next (Nat.le_succ _) | rfl
        | some bd =>
          cases bd with
          | val _ => first | exact hT.next (Nat.le_succ _) | rfl
          | wid v => exact absurd hg (he v)
  | copy y w =>
    rcases hcases w with ⟨old, a, m, c, hf⟩ | ⟨hf, hmatch⟩
    · right
      obtain ⟨h1, h2⟩ := hT.copy y w hf hi hs
      refine ⟨upd (Spec.detach y f) y (if c < ctr ∧ y ≠ w then .copied w else .other), ?_, h1, h2⟩
      simp only [Spec.stmt, hf]
      rfl
    · left
      have he := hfail hf
      refine ⟨hmatch _, ?_, ?_⟩
      all_goals
        simp only [runStmt, runCopy]
        cases hg : Assoc.get σ.env w with
        | none => first | exact hT.next (Nat.le_succ _) | rfl
        | some bd =>
          cases bd with
          | val _ => first | exact hT.next (Nat.le_succ _) | rfl
          | wid v => exact absurd hg (he v)

theorem trivial_kept (ctr i : Nat) (s : Stmt) : Kept ctr i s fun _ _ => True :=
  ⟨fun _ _ _ _ _ _ => trivial, fun _ _ _ _ _ _ _ _ _ _ _ _ _ => trivial, fun _ _ _ _ _ _ _ _ => trivial, fun _ _ _ _ _ _ _ => trivial⟩

/-- The statements of a cell. -/
theorem Inv.body (rest : List Char → Option Code) {b : List Stmt} (l : List Stmt) {i : Nat} {σ : Sys} {ctr : Nat} {f : Name → Option Spec.Origin} (h : Inv i σ ctr f)
    (hbody : Assoc.get σ.bodies σ.ctr = some b) (hl : b.drop i = l) (hnum : ∀ w c, .put w c ∈ b → ∃ n, c = .lit (.num n)) :
    ∃ j, Inv j (runBody rest σ.ctr i l σ) ctr (Spec.stmts (decide ((b.filter Spec.makes).length ≤ 1)) ctr l f) := by
  induction l generalizing i σ f with
  | nil => exact ⟨i, h⟩
  | cons s l ih =>
    have hb : b[i]? = some s := by
      have := congrArg List.head? hl
      simpa [List.head?_drop] using this
    have hl' : b.drop (i + 1) = l := by
      have := congrArg List.tail hl
      simpa [List.tail_drop] using this
    have hmem : s ∈ b := List.mem_of_getElem? hb
    obtain ⟨k1, k2, -, -⟩ := runStmt_kept rest (trivial_kept σ.ctr i s) σ rfl trivial
    simp only [runBody, Spec.stmts]
    rcases h.stmt rest hbody hb (fun w c e => hnum w c (e ▸ hmem)) with ⟨h1, h2, h3⟩ | ⟨g, h1, h2, h3⟩
    · rw [h1]
      rcases hr : runStmt rest ⟨σ.ctr, i⟩ s σ with ⟨τ, ok⟩
      rw [hr] at h2 h3
      simp only at h2 h3
      subst h3
      exact ⟨i + 1, h2⟩
    · rw [h1]
      rcases hr : runStmt rest ⟨σ.ctr, i⟩ s σ with ⟨τ, ok⟩
      rw [hr] at h2 h3 k1 k2
      simp only at h2 h3 k1 k2
      subst h3
      have := ih h2 (by rw [k1, k2]; exact hbody) hl'
      rw [k1] at this
      exact this

/-- The state fits to what is expected, after every history. -/
theorem after_inv (rest : List Char → Option Code) (h : List Event) (hn : Spec.Numeric h) :
    ∃ i, Inv i (after rest h) (Spec.origins h).ctr (Spec.origins h).names := by
  induction h with
  | nil =>
    refine ⟨0, rfl, fun n v a m c h => ?_, fun n v h => ?_, fun n w h => ?_, fun e h => ?_, fun e h => ?_⟩
    · cases h
    · cases h
    · cases h
    · cases h
    · cases h
  | cons ev h ih =>
    obtain ⟨i, hI⟩ := ih fun k b hb => hn k b (by simp [hb])
    cases ev with
    | run k b =>
      have := (hI.run k b).body rest (b := b) b (Assoc.get_set_self _ _ _) rfl (fun w c hc => hn k b (by simp) w c hc)
      exact this
    | move w v =>
      refine ⟨i, ?_⟩
      show Inv i (step rest (after rest h) (.move w v)) _ _
      simp only [step, Spec.origins]
      cases he : Assoc.get (after rest h).env w with
      | none =>
        refine hI.congr fun n => ?_
        cases hf : (Spec.origins h).names w with
        | none => rfl
        | some o =>
          cases o with
          | widget old a m c => exact absurd (hI.wid w old a m c hf).1 (by rw [he]; simp)
          | copied _ => rfl
          | other => rfl
      | some bd =>
        cases bd with
        | val x =>
          refine hI.congr fun n => ?_
          cases hf : (Spec.origins h).names w with
          | none => rfl
          | some o =>
            cases o with
            | widget old a m c => exact absurd (hI.wid w old a m c hf).1 (by rw [he]; simp)
            | copied _ => rfl
            | other => rfl
        | wid old =>
          obtain ⟨a, m, c, hf⟩ := hI.val w old he
          rw [hf]
          exact (hI.assign rest v hf).1

end Verif.Widget
