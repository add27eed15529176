import Verif.Live.Spec

/-! # Live-reference analysis: lemmas -/

namespace Verif.Live
open Verif

/-! ## Paths -/

theorem readFirst_append {x : Nat} {t u : List Ev} :
    ReadFirst x (t ++ u) ↔ ReadFirst x t ∨ (Ev.wr x ∉ t ∧ ReadFirst x u) := by
  constructor
  · rintro ⟨pre, post, h, hn⟩
    rcases List.append_eq_append_iff.1 h with ⟨a, h1, h2⟩ | ⟨a, h1, h2⟩
    · subst h1
      exact .inr ⟨fun hc => hn (List.mem_append_left _ hc), a, post, h2, fun hc => hn (List.mem_append_right _ hc)⟩
    · cases a with
      | nil =>
        simp only [List.append_nil, List.nil_append] at h1 h2
        subst h1
        exact .inr ⟨hn, [], post, h2.symm, List.not_mem_nil⟩
      | cons e a =>
        simp only [List.cons_append, List.cons.injEq] at h2
        obtain ⟨rfl, rfl⟩ := h2
        exact .inl ⟨pre, a, h1, hn⟩
  · rintro (⟨pre, post, rfl, hn⟩ | ⟨hn, pre, post, rfl, hn'⟩)
    · exact ⟨pre, post ++ u, by simp, hn⟩
    · exact ⟨t ++ pre, post, by simp, fun hc => (List.mem_append.1 hc).elim hn hn'⟩

theorem not_readFirst_nil {x : Nat} : ¬ ReadFirst x [] := by
  rintro ⟨pre, post, h, _⟩
  simp at h

theorem readFirst_mem {x : Nat} {t : List Ev} (h : ReadFirst x t) : Ev.rd x ∈ t := by
  obtain ⟨pre, post, rfl, _⟩ := h
  simp

theorem readFirst_single {x : Nat} {e : Ev} (h : ReadFirst x [e]) : e = .rd x := by
  have := readFirst_mem h
  simp only [List.mem_singleton] at this
  exact this.symm

/-- All paths of `p` satisfy `Q` at their first reads. -/
def Good (p : Core) (Q : Nat → Prop) : Prop := ∀ t o, Runs p t o → ∀ x, ReadFirst x t → Q x

theorem Good.mono {p : Core} {Q Q' : Nat → Prop} (h : Good p Q) (hQ : ∀ x, Q x → Q' x) : Good p Q' :=
  fun t o hr x hx => hQ x (h t o hr x hx)

theorem good_seq {p q : Core} {Q : Nat → Prop} (hp : Good p Q)
    (hq : ∀ t, Runs p t .norm → Good q (fun x => Ev.wr x ∈ t ∨ Q x)) : Good (.seq p q) Q := by
  intro t o h x hx
  cases h with
  | stop => exact absurd hx not_readFirst_nil
  | seq h1 h2 =>
    rcases readFirst_append.1 hx with h | ⟨hn, h⟩
    · exact hp _ _ h1 x h
    · exact (hq _ h1 _ _ h2 x h).resolve_left hn
  | seqStop h1 _ => exact hp _ _ h1 x hx

theorem good_seq' {p q : Core} {Q : Nat → Prop} (hp : Good p Q) (hq : Good q Q) : Good (.seq p q) Q :=
  good_seq hp (fun _ _ => hq.mono (fun _ h => .inr h))

theorem good_alt {p q : Core} {Q : Nat → Prop} (hp : Good p Q) (hq : Good q Q) : Good (.alt p q) Q := by
  intro t o h x hx
  cases h with
  | stop => exact absurd hx not_readFirst_nil
  | left h => exact hp _ _ h x hx
  | right h => exact hq _ _ h x hx

theorem good_nil {Q : Nat → Prop} : Good .nil Q := by
  intro t o h x hx
  cases h <;> exact absurd hx not_readFirst_nil

theorem good_wr {y : Nat} {Q : Nat → Prop} : Good (.ev (.wr y)) Q := by
  intro t o h x hx
  cases h with
  | stop => exact absurd hx not_readFirst_nil
  | ev => exact absurd (readFirst_single hx) (by simp)

theorem good_rd {y : Nat} {Q : Nat → Prop} (h : Q y) : Good (.ev (.rd y)) Q := by
  intro t o hr x hx
  cases hr with
  | stop => exact absurd hx not_readFirst_nil
  | ev =>
    have := readFirst_single hx
    simp only [Ev.rd.injEq] at this
    exact this ▸ h

theorem good_uncont {p : Core} {Q : Nat → Prop} (hp : Good p Q) : Good (.uncont p) Q := by
  intro t o h x hx
  cases h with
  | stop => exact absurd hx not_readFirst_nil
  | uncont h => exact hp _ _ h x hx
  | uncont' h _ => exact hp _ _ h x hx

theorem good_loop {p q : Core} {Q : Nat → Prop} (hp : Good p Q) (hq : Good q Q) : Good (.loop p q) Q := by
  have aux : ∀ (c : Core) (t : List Ev) (o : Out), Runs c t o → c = .loop p q → ∀ x, ReadFirst x t → Q x := by
    intro c t o h
    induction h with
    | stop => exact fun _ x hx => absurd hx not_readFirst_nil
    | exit h => exact fun e x hx => by cases e; exact hq _ _ h x hx
    | again h _ _ ih =>
      intro e x hx
      cases e
      rcases readFirst_append.1 hx with h' | ⟨_, h'⟩
      · exact hp _ _ h x h'
      · exact ih rfl x h'
    | leave h => exact fun e x hx => by cases e; exact hp _ _ h x hx
    | loopStop h => exact fun e x hx => by cases e; exact hp _ _ h x hx
    | _ => exact fun e => by cases e
  exact fun t o h => aux _ t o h rfl

theorem good_mask {p : Core} {y : Nat} {Q : Nat → Prop} (hp : Good p (fun x => x = y ∨ Q x)) : Good (.mask y p) Q := by
  intro t o h x hx
  cases h with
  | stop => exact absurd hx not_readFirst_nil
  | mask h =>
    rename_i t
    have hxy : x ≠ y := by
      have := readFirst_mem hx
      rw [List.mem_filter] at this
      exact of_decide_eq_true this.2
    refine (hp _ _ h x ?_).resolve_left hxy
    obtain ⟨pre, post, h1, h2⟩ := hx
    clear h hp
    induction t generalizing pre with
    | nil => simp at h1
    | cons e t ih =>
      by_cases he : e.var ≠ y
      · rw [List.filter_cons_of_pos (by simpa using he)] at h1
        cases pre with
        | nil =>
          simp only [List.nil_append, List.cons.injEq] at h1
          exact ⟨[], t, by simp [h1.1], List.not_mem_nil⟩
        | cons e' pre =>
          simp only [List.cons_append, List.cons.injEq] at h1
          obtain ⟨pre', post', h3, h4⟩ := ih pre h1.2 (fun hc => h2 (List.mem_cons_of_mem _ hc))
          refine ⟨e :: pre', post', by rw [h3]; rfl, fun hc => ?_⟩
          rcases List.mem_cons.1 hc with rfl | hc
          · exact h2 (by rw [h1.1]; exact List.mem_cons_self)
          · exact h4 hc
      · rw [List.filter_cons_of_neg (by simpa using he)] at h1
        obtain ⟨pre', post', h3, h4⟩ := ih pre h1 h2
        refine ⟨e :: pre', post', by rw [h3]; rfl, fun hc => ?_⟩
        rcases List.mem_cons.1 hc with rfl | hc
        · simp only [Ev.var, ne_eq, not_not] at he
          exact hxy he
        · exact h4 hc

/-- The events that occur in a control flow. -/
def evs : Core → List Ev
  | .nil => []
  | .ev e => [e]
  | .seq p q => evs p ++ evs q
  | .alt p q => evs p ++ evs q
  | .loop p q => evs p ++ evs q
  | .uncont p => evs p
  | .brk => []
  | .cont => []
  | .raise => []
  | .tryc p h q => evs p ++ evs h ++ evs q
  | .fin p f => evs p ++ evs f
  | .suppress p => evs p
  | .mask _ p => evs p
  | .loc p => evs p

theorem mem_outside {e : Ev} : ∀ (t : List Ev) (own : List Nat), e ∈ outside own t → e ∈ t
  | [], _, h => by
    unfold outside at h
    exact h
  | .rd x :: t, own, h => by
    unfold outside at h
    split_ifs at h
    · exact List.mem_cons_of_mem _ (mem_outside t own h)
    · rcases List.mem_cons.1 h with rfl | h
      · exact List.mem_cons_self
      · exact List.mem_cons_of_mem _ (mem_outside t own h)
  | .wr x :: t, own, h => by
    unfold outside at h
    exact List.mem_cons_of_mem _ (mem_outside t _ h)

theorem runs_evs {p : Core} {t : List Ev} {o : Out} (h : Runs p t o) : ∀ e ∈ t, e ∈ evs p := by
  induction h with
  | stop => exact fun e h => absurd h List.not_mem_nil
  | ev e => exact fun e h => h
  | nil => exact fun e h => absurd h List.not_mem_nil
  | brk => exact fun e h => absurd h List.not_mem_nil
  | cont => exact fun e h => absurd h List.not_mem_nil
  | raise => exact fun e h => absurd h List.not_mem_nil
  | uncont _ ih => exact ih
  | uncont' _ _ ih => exact ih
  | supp _ ih => exact ih
  | supp' _ ih => exact ih
  | mask _ ih => exact fun e h => ih e (List.mem_filter.1 h).1
  | loc _ ih => exact fun e h => ih e (mem_outside _ _ h)
  | again _ _ ih1 ih2 =>
    intro e h
    rcases List.mem_append.1 h with h | h
    · exact List.mem_append_left _ (ih1 e h)
    · exact ih2 e h
  | _ =>
    intro e h
    simp only [evs, List.mem_append] at *
    first
      | (rename_i ih; exact .inl (ih e h))
      | (rename_i ih; exact .inr (ih e h))
      | (rename_i ih; exact .inl (.inl (ih e h)))
      | (rename_i ih1 ih2; exact h.imp (ih1 e) (ih2 e))
      | (rename_i ih1 ih2; exact h.elim (fun h => .inl (.inl (ih1 e h))) (fun h => .inr (ih2 e h)))
      | (rename_i ih1 ih2; exact h.elim (fun h => .inl (.inl (ih1 e h))) (fun h => .inl (.inr (ih2 e h))))

/-- Evaluating the node reads no variable. -/
def Quiet (n : Node) : Prop := ∀ x, Ev.rd x ∉ evs (sem n)

theorem good_quiet {p : Core} {Q : Nat → Prop} (h : ∀ x, Ev.rd x ∉ evs p) : Good p Q :=
  fun _ _ hr x hx => absurd (runs_evs hr _ (readFirst_mem hx)) (h x)

/-- The control flow can end with a `break`. -/
def brks : Core → Bool
  | .brk => true
  | .seq p q => brks p || brks q
  | .alt p q => brks p || brks q
  | .loop _ q => brks q
  | .uncont p => brks p
  | .tryc p h q => brks p || brks h || brks q
  | .fin p f => brks p || brks f
  | .suppress p => brks p
  | .mask _ p => brks p
  | .loc p => brks p
  | _ => false

theorem runs_brk {p : Core} {t : List Ev} {o : Out} (h : Runs p t o) : o = .brk → brks p = true := by
  induction h with
  | seq _ _ _ ih2 => exact fun h => by simp [brks, ih2 h]
  | seqStop _ _ ih => exact fun h => by simp [brks, ih h]
  | left _ ih => exact fun h => by simp [brks, ih h]
  | right _ ih => exact fun h => by simp [brks, ih h]
  | exit _ ih => exact fun h => by simp [brks, ih h]
  | again _ _ _ ih2 => exact ih2
  | loopStop _ _ h' _ => exact fun h => absurd h h'
  | uncont' _ _ ih => exact fun h => by simp [brks, ih h]
  | tryOk _ _ _ ih2 => exact fun h => by simp [brks, ih2 h]
  | tryExc _ _ _ ih2 => exact fun h => by simp [brks, ih2 h]
  | tryStop _ _ ih => exact fun h => by simp [brks, ih h]
  | fin _ _ ih1 _ => exact fun h => by simp [brks, ih1 h]
  | finStop _ _ _ _ ih2 => exact fun h => by simp [brks, ih2 h]
  | supp' _ ih => exact fun h => by simp [brks, ih h]
  | mask _ ih => exact fun h => by simp [brks, ih h]
  | loc _ ih => exact fun h => by simp [brks, ih h]
  | brk => exact fun _ => rfl
  | _ => exact fun h => by cases h

/-- A loop that ends well has run its `else`, or was left by a `break`. -/
theorem loop_norm {p q : Core} {t : List Ev} (h : Runs (.loop p q) t .norm) :
    (∃ u v, t = u ++ v ∧ Runs q v .norm) ∨ brks p = true := by
  have aux : ∀ (c : Core) (t : List Ev) (o : Out), Runs c t o → c = .loop p q → o = .norm →
      (∃ u v, t = u ++ v ∧ Runs q v .norm) ∨ brks p = true := by
    intro c t o h
    induction h with
    | exit h => exact fun e e' => by cases e; subst e'; exact .inl ⟨[], _, rfl, h⟩
    | again h _ _ ih =>
      intro e e'
      cases e
      rcases ih rfl e' with ⟨u, v, rfl, hv⟩ | hb
      · exact .inl ⟨_, v, (List.append_assoc _ _ _).symm, hv⟩
      · exact .inr hb
    | leave h => exact fun e _ => by cases e; exact .inr (runs_brk h rfl)
    | loopStop _ h => exact fun _ e => absurd e h
    | stop => exact fun _ e => by cases e
    | _ => exact fun e => by cases e
  exact aux _ t _ h rfl rfl

/-! ## The analysis -/

theorem andThen_ok {r : Res} {f : S → Res} {l : List LRef} {s : S} (h : andThen r f = .ok (l, s)) :
    ∃ l1 s1 l2, r = .ok (l1, s1) ∧ f s1 = .ok (l2, s) ∧ l = l1 ++ l2 := by
  unfold andThen at h
  cases r with
  | error e => cases h
  | ok p =>
    obtain ⟨l1, s1⟩ := p
    simp only at h
    cases hf : f s1 with
    | error e =>
      rw [hf] at h
      cases h
    | ok q =>
      obtain ⟨l2, s2⟩ := q
      rw [hf] at h
      cases h
      exact ⟨l1, s1, l2, rfl, hf, rfl⟩

theorem ReportedLive.left {l l' : List LRef} {x : Nat} (h : ReportedLive l x) : ReportedLive (l ++ l') x := by
  obtain ⟨r, h1, h2⟩ := h
  exact ⟨r, List.mem_append_left _ h1, h2⟩

theorem ReportedLive.right {l l' : List LRef} {x : Nat} (h : ReportedLive l' x) : ReportedLive (l ++ l') x := by
  obtain ⟨r, h1, h2⟩ := h
  exact ⟨r, List.mem_append_right _ h1, h2⟩

/-- Every dead reference starts from a variable that was written, or is longer than its variable, which was reported. -/
def K (L : List LRef) (D : Finset Ref) (W : Nat → Prop) : Prop :=
  ∀ c ∈ D, ∀ a, rootOf c = some a → W a ∨ (c ≠ [nm a] ∧ ReportedLive L a)

theorem K.mono {L L' : List LRef} {D : Finset Ref} {W W' : Nat → Prop} (h : K L D W)
    (hL : ∀ x, ReportedLive L x → ReportedLive L' x) (hW : ∀ x, W x → W' x) : K L' D W' :=
  fun c hc a ha => (h c hc a ha).imp (hW a) (fun h => ⟨h.1, hL a h.2⟩)

theorem K.empty {L : List LRef} {W : Nat → Prop} : K L ∅ W := fun _ h => absurd h (Finset.notMem_empty _)

/-- Known to be written, or reported. -/
def Kn (L : List LRef) (W : Nat → Prop) (x : Nat) : Prop := W x ∨ ReportedLive L x

theorem K.kn {L : List LRef} {D : Finset Ref} {W : Nat → Prop} (h : K L D W) {c : Ref} (hc : c ∈ D) {a : Nat}
    (ha : rootOf c = some a) : Kn L W a := (h c hc a ha).imp id And.right

theorem rootOf_cons (a : Atom) (r : Ref) : rootOf (a :: r) = match a.value with
    | .str x => some x
    | .int _ => none := rfl

theorem rootOf_nm (x : Nat) : rootOf [nm x] = some x := rfl

/-- The state is unchanged, up to the functions. -/
theorem report_state {P : Par} {c : Ctx} {e : Node} {s s' : S} {l : List LRef} (h : report P c e s = .ok (l, s')) :
    s' = s := by
  unfold report at h
  split_ifs at h <;> cases h <;> rfl

theorem report_inside {P : Par} {k : Bool} {e : Node} {s s' : S} {l : List LRef}
    (h : report P ⟨k, true⟩ e s = .ok (l, s')) : l = [] := by
  unfold report at h
  rw [if_neg (by simp)] at h
  cases h
  rfl

/-- A reference that is reported, or known already. -/
theorem addRef_kn {keep : Bool} {D : Finset Ref} {c : Ref} {x : Nat} {L : List LRef} {W : Nat → Prop} (hK : K L D W)
    (hx : rootOf c = some x) : Kn (L ++ addRef keep D c) W x := by
  by_cases h : c ∈ D
  · exact (hK.kn h hx).imp id ReportedLive.left
  · unfold addRef
    rw [if_neg (fun hc => h hc.1)]
    cases c with
    | nil => cases hx
    | cons a r =>
      simp only
      cases hv : a.value with
      | int z =>
        rw [rootOf_cons, hv] at hx
        cases hx
      | str y =>
        have hyx : y = x := by
          rw [rootOf_cons, hv] at hx
          exact Option.some.inj hx
        subst hyx
        simp only
        by_cases hd : [a] ∈ D ∨ [nm y] ∈ D
        · rcases hd with hd | hd
          · exact (hK.kn hd (show rootOf [a] = some y by rw [rootOf_cons, hv])).imp id ReportedLive.left
          · exact (hK.kn hd (rootOf_nm y)).imp id ReportedLive.left
        · have hnd : ¬ (a :: r ∈ D ∨ [a] ∈ D ∨ [nm y] ∈ D) := fun hc => hc.elim h hd
          rw [if_neg (fun hc => hnd hc.1)]
          refine .inr (ReportedLive.right ⟨a :: r, ?_, hx⟩)
          simp [hnd]

/-- A reference to a variable alone is among the reported ones, unless it is dead. -/
theorem addRef_mem {keep : Bool} {D : Finset Ref} {x : Nat} :
    [nm x] ∈ D ∨ [nm x] ∈ (addRef keep D [nm x]).map Prod.fst := by
  by_cases h : [nm x] ∈ D
  · exact .inl h
  · right
    have h' : ¬ ([nm x] ∈ D ∨ [nm x] ∈ D ∨ [nm x] ∈ D) := fun hc => hc.elim h (fun hc => hc.elim h h)
    show [nm x] ∈ (if [nm x] ∈ D ∧ keep = false then [] else
      if ([nm x] ∈ D ∨ [nm x] ∈ D ∨ [nm x] ∈ D) ∧ keep = false then []
        else [([nm x], decide ([nm x] ∈ D ∨ [nm x] ∈ D ∨ [nm x] ∈ D))]).map Prod.fst
    rw [if_neg (fun hc => h hc.1), if_neg (fun hc => h' hc.1)]
    exact List.mem_singleton.2 rfl

end Verif.Live
