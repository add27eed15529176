import Verif.Live.Fragment

/-! # Live-reference analysis: the induction behind C34 and C35 -/

namespace Verif.Live
open Verif

variable {P : Par} {callF : Nat → Funcs → Except Err (List LRef)}

/-! ## Chains -/

theorem root_run : ∀ {e : Node} {x : Nat}, rootName e = some x → ∃ t o, Runs (sem e) t o ∧ ReadFirst x t := by
  have aux : ∀ {p q : Core} {x : Nat}, (∃ t o, Runs p t o ∧ ReadFirst x t) → ∃ t o, Runs (.seq p q) t o ∧ ReadFirst x t := by
    rintro p q x ⟨t, o, h1, h2⟩
    by_cases ho : o = .norm
    · subst ho
      exact ⟨t ++ [], .exc, .seq h1 (.stop q), readFirst_append.2 (.inl h2)⟩
    · exact ⟨t, o, .seqStop h1 ho, h2⟩
  intro e
  induction e with
  | name y =>
    intro x h
    cases h
    exact ⟨[.rd y], .norm, .ev _, [], [], rfl, List.not_mem_nil⟩
  | attr e a ih =>
    intro x h
    unfold sem
    exact ih h
  | sub e i ih _ =>
    intro x h
    unfold sem
    exact aux (ih h)
  | call f a ih _ =>
    intro x h
    unfold sem
    exact aux (ih h)
  | _ => exact fun h => by cases h

theorem binRoot_of_root : ∀ {e : Node} {x : Nat}, rootName e = some x → binRoot e = false := by
  intro e
  induction e with
  | attr e a ih => exact fun h => ih h
  | sub e i ih _ => exact fun h => ih h
  | call f a ih _ => exact fun h => ih h
  | name y => exact fun _ => rfl
  | _ => exact fun h => by cases h

theorem chain_call {res : Nat → Option Key} {f a : Node} : chain? res (.call f a) = match f with
    | .name x => some [⟨.str x, true, false⟩]
    | .attr e a => (chain? res e).map (· ++ [⟨.str a, true, false⟩])
    | .sub e (.const k) => (chain? res e).map (· ++ [⟨k, true, true⟩])
    | .sub e _ => chain? res e
    | _ => some [] := by
  conv_lhs => unfold chain?
  cases f with
  | sub e i => cases i <;> rfl
  | _ => rfl

theorem chain_root (res : Nat → Option Key) : ∀ {e : Node} {x : Nat}, Base P e → rootName e = some x →
    ∃ a r, chain? res e = some (a :: r) ∧ a.value = .str x := by
  have aux : ∀ (n : Nat) (e : Node) (x : Nat), sizeOf e ≤ n → Base P e → rootName e = some x →
      ∃ a r, chain? res e = some (a :: r) ∧ a.value = .str x := by
    intro n
    induction n with
    | zero =>
      intro e x h
      cases e <;> simp at h
    | succ n ih =>
      intro e x hn hb hx
      have app : ∀ {e' : Node} {r' : Ref}, sizeOf e' ≤ n → Base P e' → rootName e' = some x →
          ∃ a r, (chain? res e').map (· ++ r') = some (a :: r) ∧ a.value = .str x := by
        intro e' r' h1 h2 h3
        obtain ⟨a, r, h4, h5⟩ := ih e' x h1 h2 h3
        exact ⟨a, r ++ r', by rw [h4]; rfl, h5⟩
      cases e with
      | name y =>
        cases hx
        exact ⟨nm x, [], by unfold chain?; rfl, rfl⟩
      | attr e a =>
        unfold chain?
        unfold Base at hb
        exact app (by simp at hn; omega) hb hx
      | sub e i =>
        unfold chain?
        unfold Base at hb
        exact app (by simp at hn; omega) hb.1 hx
      | call f a =>
        rw [chain_call]
        unfold Base at hb
        obtain ⟨hb, hc, _⟩ := hb
        have hx : rootName f = some x := hx
        cases f with
        | name y =>
          cases hx
          exact ⟨_, [], rfl, rfl⟩
        | attr e b =>
          unfold Base at hb
          exact app (by simp at hn; omega) hb hx
        | sub e i =>
          unfold Base at hb
          cases i with
          | const k => exact app (by simp at hn; omega) hb.1 hx
          | _ => exact ih e x (by simp at hn; omega) hb.1 hx
        | call g b => cases hc
        | _ => cases hx
      | _ => cases hx
  exact fun {e x} => aux (sizeOf e) e x (le_refl _)

theorem keyAtoms_ne (res : Nat → Option Key) (i : Node) (x : Nat) : keyAtoms res i ≠ [nm x] := by
  unfold keyAtoms nm
  split
  · simp
  · split <;> simp
  · simp

theorem keyAtoms_none {res : Nat → Option Key} {i : Node} (h : keyAtoms res i = []) :
    keyAtoms (fun _ => none) i = [] := by
  cases i with
  | const k => cases h
  | _ => rfl

/-- If the reference of a chain is its variable alone, it is the same without a scope. -/
theorem chain_alone (res : Nat → Option Key) : ∀ {e : Node} {x : Nat}, Base P e → (rootName e).isSome = true →
    chain? res e = some [nm x] → chain? (fun _ => none) e = some [nm x] ∧ rootName e = some x := by
  have aux : ∀ (n : Nat) (e : Node) (x : Nat), sizeOf e ≤ n → Base P e → (rootName e).isSome = true →
      chain? res e = some [nm x] → chain? (fun _ => none) e = some [nm x] ∧ rootName e = some x := by
    intro n
    induction n with
    | zero =>
      intro e x h
      cases e <;> simp at h
    | succ n ih =>
      intro e x hn hb hr hx
      have noapp : ∀ {e' : Node} {b : Atom}, Base P e' → (rootName e').isSome = true →
          (chain? res e').map (· ++ [b]) ≠ some [nm x] := by
        intro e' b h1 h2 h3
        obtain ⟨y, hy⟩ := Option.isSome_iff_exists.1 h2
        obtain ⟨a, r, h4, _⟩ := chain_root res h1 hy
        rw [h4] at h3
        simp at h3
      cases e with
      | name y =>
        unfold chain? at hx ⊢
        refine ⟨hx, ?_⟩
        simp only [Option.some.injEq, List.cons.injEq, and_true] at hx
        have : Key.str y = Key.str x := congrArg Atom.value hx
        cases this
        rfl
      | attr e a =>
        unfold chain? at hx
        unfold Base at hb
        exact absurd hx (noapp hb hr)
      | sub e i =>
        unfold chain? at hx
        unfold Base at hb
        have hr : (rootName e).isSome = true := hr
        obtain ⟨y, hy⟩ := Option.isSome_iff_exists.1 hr
        obtain ⟨a, r, h4, h5⟩ := chain_root res hb.1 hy
        rw [h4] at hx
        simp only [Option.map_some, Option.some.injEq, List.cons_append, List.cons.injEq, List.append_eq_nil_iff] at hx
        obtain ⟨rfl, rfl, hk⟩ := hx
        obtain ⟨h6, h7⟩ := ih e x (by simp at hn; omega) hb.1 hr h4
        refine ⟨?_, h7⟩
        conv_lhs => unfold chain?
        rw [h6, keyAtoms_none hk]
        rfl
      | call f a =>
        rw [chain_call] at hx ⊢
        unfold Base at hb
        obtain ⟨hb, hc, _⟩ := hb
        have hr : (rootName f).isSome = true := hr
        cases f with
        | name y =>
          simp [nm] at hx
        | attr e b =>
          unfold Base at hb
          exact absurd hx (noapp hb hr)
        | sub e i =>
          unfold Base at hb
          cases i with
          | const k => exact absurd hx (noapp hb.1 hr)
          | _ => exact ih e x (by simp at hn; omega) hb.1 hr hx
        | call g b => cases hc
        | _ => cases hr
      | _ => cases hr
  exact fun {e x} => aux (sizeOf e) e x (le_refl _)

/-- What `visit_Attribute`, `visit_Subscript` and `visit_Call` report makes the variable at the root known. -/
theorem report_kn {e : Node} {x : Nat} {s s' : S} {l L : List LRef} {W : Nat → Prop} (hb : Base P e)
    (hx : rootName e = some x) (h : report P {} e s = .ok (l, s')) (hK : K L s.dead W) : Kn (L ++ l) W x := by
  unfold report at h
  rw [if_pos ⟨rfl, binRoot_of_root hx⟩] at h
  cases h
  obtain ⟨a, r, h1, h2⟩ := chain_root (fun _ => none) hb hx
  refine addRef_kn hK ?_
  unfold chainOf
  rw [h1]
  show rootOf (a :: r) = some x
  rw [rootOf_cons, h2]

/-- A chain whose reference is its variable alone is reported as such, unless the variable is dead. -/
theorem base_self {res : Nat → Option Key} {e : Node} {x : Nat} {s s' : S} {l : List LRef} (hb : Base P e)
    (hr : (rootName e).isSome = true) (hpure : ∀ f a, e = .call f a → Pure a) (hc : chain? res e = some [nm x])
    (h : visit P callF e {} s = .ok (l, s')) : [nm x] ∈ s.dead ∨ [nm x] ∈ l.map Prod.fst := by
  obtain ⟨h0, h1⟩ := chain_alone res hb hr hc
  have hrep : ∀ s1 s2 l1, report P {} e s1 = .ok (l1, s2) → [nm x] ∈ s1.dead ∨ [nm x] ∈ l1.map Prod.fst := by
    intro s1 s2 l1 h2
    unfold report at h2
    rw [if_pos ⟨rfl, binRoot_of_root h1⟩] at h2
    cases h2
    unfold chainOf
    rw [h0]
    exact addRef_mem
  cases e with
  | name y =>
    cases h1
    unfold visit visitName at h
    rw [if_neg (by simp), if_neg (by simp)] at h
    by_cases hd : [nm x] ∈ s.dead
    · exact .inl hd
    · rw [if_neg (fun hc => hd hc.1)] at h
      cases h
      exact .inr (by simp)
  | attr e a =>
    unfold visit at h
    obtain ⟨l1, s1, l2, h2, _, rfl⟩ := andThen_ok h
    rw [List.map_append]
    exact (hrep _ _ _ h2).imp id (List.mem_append_left _)
  | sub e i =>
    unfold Base at hb
    unfold visit at h
    rw [hb.2.1, if_neg (by simp)] at h
    obtain ⟨l1, s1, l2, h2, _, rfl⟩ := andThen_ok h
    obtain ⟨l3, s3, l4, h3, _, rfl⟩ := andThen_ok h2
    rw [List.map_append, List.map_append]
    exact (hrep _ _ _ h3).imp id (fun h => List.mem_append_left _ (List.mem_append_left _ h))
  | call f a =>
    unfold visit at h
    obtain ⟨l1, s1, l2, h2, _, rfl⟩ := andThen_ok h
    obtain ⟨l3, s3, l4, h3, _, rfl⟩ := andThen_ok h2
    obtain ⟨l5, s5, l6, h5, h6, rfl⟩ := andThen_ok h3
    rw [← pure_dead a _ _ _ _ (hpure f a rfl) h5]
    rw [List.map_append, List.map_append, List.map_append]
    exact (hrep _ _ _ h6).imp id
      (fun h => List.mem_append_left _ (List.mem_append_left _ (List.mem_append_right _ h)))
  | _ => cases h1

/-! ## Steps -/

/-- What the visit of a piece of code with control flow `p` guarantees: its first reads are known (or in `R`), and after it
has run the dead references are accounted for. -/
def Step (p : Core) (L : List LRef) (W : Nat → Prop) (l : List LRef) (D : Finset Ref) (R : Nat → Prop) : Prop :=
  Good p (fun x => Kn (L ++ l) W x ∨ R x) ∧ ∀ t, Runs p t .norm → K (L ++ l) D (fun x => W x ∨ Ev.wr x ∈ t)

variable {p q : Core} {L L' l l1 l2 l' : List LRef} {W W' : Nat → Prop} {D D1 D2 : Finset Ref} {R R' : Nat → Prop}

theorem Kn.mono {x : Nat} (h : Kn L W x) (hL : ∀ x, ReportedLive L x → ReportedLive L' x) (hW : ∀ x, W x → W' x) :
    Kn L' W' x := h.imp (hW x) (hL x)

theorem rep_assoc {a b c : List LRef} {x : Nat} : ReportedLive (a ++ b ++ c) x ↔ ReportedLive (a ++ (b ++ c)) x := by
  rw [List.append_assoc]

theorem Step.mono (h : Step p L W l D R) (hL : ∀ x, ReportedLive (L ++ l) x → ReportedLive (L' ++ l') x)
    (hR : ∀ x, R x → Kn (L' ++ l') W x ∨ R' x) : Step p L' W l' D R' := by
  refine ⟨fun t o hr x hx => ?_, fun t hr => (h.2 t hr).mono hL (fun _ h => h)⟩
  rcases h.1 t o hr x hx with h1 | h1
  · exact .inl (h1.mono hL (fun _ h => h))
  · exact hR x h1

theorem seq_norm {t : List Ev} (h : Runs (.seq p q) t .norm) : ∃ u v, t = u ++ v ∧ Runs p u .norm ∧ Runs q v .norm := by
  cases h with
  | seq h1 h2 => exact ⟨_, _, rfl, h1, h2⟩
  | seqStop _ h => exact absurd rfl h

theorem Step.seq (h1 : Step p L W l1 D1 R) (h2 : ∀ W', (∀ x, W x → W' x) → K (L ++ l1) D1 W' → Step q (L ++ l1) W' l2 D2 R) :
    Step (.seq p q) L W (l1 ++ l2) D2 R := by
  have hL : ∀ x, ReportedLive (L ++ l1) x → ReportedLive (L ++ (l1 ++ l2)) x := fun x hx => rep_assoc.1 hx.left
  constructor
  · refine good_seq (h1.1.mono (fun x h => h.imp (fun h => h.mono hL (fun _ h => h)) id)) (fun t ht => ?_)
    refine (h2 _ (fun x h => .inl h) (h1.2 t ht)).1.mono (fun x hx => ?_)
    rcases hx with (⟨hw | hw⟩ | hx) | hx
    · exact .inr (.inl (.inl ‹_›))
    · exact .inl ‹_›
    · exact .inr (.inl (.inr (rep_assoc.1 hx)))
    · exact .inr (.inr hx)
  · intro t ht
    obtain ⟨u, v, rfl, hu, hv⟩ := seq_norm ht
    refine ((h2 _ (fun x h => .inl h) (h1.2 u hu)).2 v hv).mono (fun x hx => rep_assoc.1 hx) (fun x hx => ?_)
    rcases hx with (hx | hx) | hx
    · exact .inl hx
    · exact .inr (List.mem_append_left _ hx)
    · exact .inr (List.mem_append_right _ hx)

theorem Step.nil (h : K L D W) : Step .nil L W l D R :=
  ⟨good_nil, fun _ _ => h.mono (fun _ h => h.left) (fun _ h => .inl h)⟩

theorem Step.alt (h1 : Step p L W l D R) (h2 : Step q L W l D R) : Step (.alt p q) L W l D R := by
  refine ⟨good_alt h1.1 h2.1, fun t ht => ?_⟩
  cases ht with
  | left h => exact h1.2 t h
  | right h => exact h2.2 t h

/-- The claim for code that is visited outside of chains. -/
def Claim (P : Par) (callF : Nat → Funcs → Except Err (List LRef)) (n : Node) : Prop :=
  ∀ (L : List LRef) (W : Nat → Prop) (s s' : S) (l : List LRef), visit P callF n {} s = .ok (l, s') → K L s.dead W →
    Step (sem n) L W l s'.dead (fun _ => False)

/-- The claim for the inside of chains, where the variable at the root is left to the caller. -/
def ClaimB (P : Par) (callF : Nat → Funcs → Except Err (List LRef)) (n : Node) : Prop :=
  ∀ (L : List LRef) (W : Nat → Prop) (s s' : S) (l : List LRef), visit P callF n ⟨false, true⟩ s = .ok (l, s') →
    K L s.dead W → Step (sem n) L W l s'.dead (fun x => rootName n = some x)

theorem Step.weaken (h : Step p L W l D (fun _ => False)) : Step p L W l D R :=
  h.mono (fun _ h => h) (fun _ h => h.elim)

/-- Two parts visited and run one after the other. -/
theorem claim_two {a b n : Node} (hsem : sem n = .seq (sem a) (sem b)) (ha : Claim P callF a) (hb : Claim P callF b)
    {s s' : S} (h : andThen (visit P callF a {} s) (visit P callF b {}) = .ok (l, s')) (hK : K L s.dead W) :
    Step (sem n) L W l s'.dead (fun _ => False) := by
  obtain ⟨l1, s1, l2, h1, h2, rfl⟩ := andThen_ok h
  rw [hsem]
  exact (ha L W s s1 l1 h1 hK).seq (fun W' _ hK' => hb _ W' s1 s' l2 h2 hK')

theorem step_imp (h : Step p L W l D R) (hD : D1 = D) : Step p L W l D1 R := by
  rw [hD]
  exact h

theorem K.left (h : K L D W) : K (L ++ l) D W := h.mono (fun _ h => h.left) (fun _ h => h)

theorem K.wider (h : K L D W) (hW : ∀ x, W x → W' x) : K L D W' := h.mono (fun _ h => h) hW

/-! ## Targets -/

/-- The references that a target made of names kills. -/
def patRefs : Node → Finset Ref
  | .name x => {[nm x]}
  | .disp _ e => patRefs e
  | .pair a b => patRefs a ∪ patRefs b
  | .star e => patRefs e
  | _ => ∅

theorem pat_visit : ∀ (t : Node) (b : Bool) (s : S), Pat t →
    visit P callF t ⟨true, b⟩ s = .ok ([], { s with dead := s.dead ∪ patRefs t }) := by
  intro t
  induction t with
  | name x =>
    intro b s _
    unfold visit visitName patRefs
    rw [if_pos rfl]
    congr 3
    ext y
    simp [or_comm]
  | disp k e ih =>
    intro b s hp
    unfold visit patRefs
    exact ih false s hp
  | star e ih =>
    intro b s hp
    unfold visit patRefs
    exact ih b s hp
  | pair x y ihx ihy =>
    intro b s hp
    unfold visit patRefs
    unfold andThen
    rw [ihx b s hp.1]
    simp only
    rw [ihy b _ hp.2]
    simp only [List.append_nil, Finset.union_assoc]
  | _ => exact fun _ _ h => h.elim

theorem pat_target : ∀ (t : Node) (s : S), Pat t →
    visitTarget P callF t s = .ok ([], { s with dead := s.dead ∪ patRefs t }) := by
  intro t
  induction t with
  | name x =>
    intro s _
    unfold visitTarget patRefs
    congr 3
    ext y
    simp [or_comm]
  | disp k e ih =>
    intro s hp
    unfold visitTarget patRefs
    exact ih s hp
  | star e ih =>
    intro s hp
    unfold visitTarget patRefs
    exact ih s hp
  | pair x y ihx ihy =>
    intro s hp
    unfold visitTarget patRefs
    unfold andThen
    rw [ihx s hp.1]
    simp only
    rw [ihy _ hp.2]
    simp only [List.append_nil, Finset.union_assoc]
  | _ => exact fun _ h => h.elim

theorem pat_base {t : Node} (h : Pat t) (c : Ctx) (s : S) : visitBase P callF t c s = .ok ([], s) := by
  cases t with
  | name x => unfold visitBase; rfl
  | disp k e => unfold visitBase; rfl
  | pair a b => unfold visitBase; rfl
  | star e => unfold visitBase; rfl
  | _ => exact h.elim

theorem pat_quiet : ∀ (t : Node), Pat t → (∀ x, Ev.rd x ∉ evs (store t)) ∧ brks (store t) = false := by
  intro t
  induction t with
  | name x =>
    intro _
    unfold store
    exact ⟨fun y h => by simp [evs] at h, rfl⟩
  | disp k e ih =>
    intro h
    unfold store
    exact ih h
  | star e ih =>
    intro h
    unfold store
    exact ih h
  | pair a b iha ihb =>
    intro h
    unfold store
    refine ⟨fun x hx => ?_, ?_⟩
    · unfold evs at hx
      exact (List.mem_append.1 hx).elim ((iha h.1).1 x) ((ihb h.2).1 x)
    · unfold brks
      rw [(iha h.1).2, (ihb h.2).2]
      rfl
  | _ => exact fun h => h.elim

theorem pat_writes : ∀ (t : Node) (u : List Ev), Pat t → Runs (store t) u .norm → ∀ c ∈ patRefs t, ∀ a,
    rootOf c = some a → Ev.wr a ∈ u := by
  intro t
  induction t with
  | name x =>
    intro u _ h c hc a ha
    unfold store at h
    cases h
    have : c = [nm x] := by simpa [patRefs] using hc
    subst this
    cases ha
    exact List.mem_singleton.2 rfl
  | disp k e ih =>
    intro u hp h
    unfold store at h
    exact ih u hp h
  | star e ih =>
    intro u hp h
    unfold store at h
    exact ih u hp h
  | pair x y ihx ihy =>
    intro u hp h c hc a ha
    unfold store at h
    obtain ⟨u1, u2, rfl, h1, h2⟩ := seq_norm h
    rcases Finset.mem_union.1 hc with hc | hc
    · exact List.mem_append_left _ (ihx u1 hp.1 h1 c hc a ha)
    · exact List.mem_append_right _ (ihy u2 hp.2 h2 c hc a ha)
  | _ => exact fun _ h => h.elim

/-- Storing into names. -/
theorem pat_step {t : Node} (hp : Pat t) (hK : K L D W) {D' : Finset Ref}
    (hD : ∀ c ∈ D', c ∈ D ∨ c ∈ patRefs t ∨ ∃ a, rootOf c = some a ∧ [nm a] ∈ patRefs t) :
    Step (store t) L W l D' R := by
  refine ⟨good_quiet (pat_quiet t hp).1, fun u hu c hc a ha => ?_⟩
  rcases hD c hc with h | h | ⟨b, h1, h2⟩
  · exact (hK c h a ha).imp .inl (fun h => ⟨h.1, h.2.left⟩)
  · exact .inl (.inr (pat_writes t u hp hu c h a ha))
  · rw [h1] at ha
    cases ha
    exact .inl (.inr (pat_writes t u hp hu _ h2 a (rootOf_nm a)))

/-! ## Assignments -/

theorem assign_ok {may : Bool} {lits : Finset Ref} {r1 : Res} {tgt : S → Res} {s' : S} (hno : ∀ a b, P.noop a b = false)
    (h : assignImpl P may lits r1 tgt = .ok (l, s')) : ∃ l1 s1 l2 s2, r1 = .ok (l1, s1) ∧ tgt s1 = .ok (l2, s2) ∧
      l = l2 ++ l1 ∧ s'.dead = s1.dead ∪ ((s2.dead ∪ lits) \ s1.dead).filter (fun r => r ∉ l1.map Prod.fst) := by
  unfold assignImpl at h
  cases r1 with
  | error e => cases h
  | ok p =>
    obtain ⟨l1, s1⟩ := p
    simp only at h
    cases hf : tgt s1 with
    | error e =>
      rw [hf] at h
      cases h
    | ok q =>
      obtain ⟨l2, s2⟩ := q
      rw [hf] at h
      have hl : (finishAssign P may lits l1 s1 s2).1 = l1 := by
        unfold finishAssign
        simp only
        rw [if_neg]
        rw [Bool.and_eq_true]
        rintro ⟨_, hc⟩
        split at hc
        · simp [hno] at hc
        · cases hc
      cases h
      refine ⟨l1, s1, l2, s2, rfl, hf, by rw [hl], ?_⟩
      show s1.dead ∪ _ = _
      have hl' := hl
      unfold finishAssign at hl'
      simp only at hl'
      rw [hl']

end Verif.Live
