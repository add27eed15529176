import Verif.Saved.Session

/-!
# Invariant of a session -/

namespace Verif.Saved
open Verif Verif.Slice Verif.Sched

/-- The kernel after an event that is not a connection. -/
def kstep (k : Kern) : Event → Kern
  | .connect _ _ => k
  | .told nb => tell k nb
  | .start c => start k c
  | .edge x c p n => found k x c p n
  | .done c => done k c
  | .sched _ => k

theorem kern_step {σ : State} {e : Event} (he : ∀ f nb, e ≠ .connect f nb) : (step σ e).kern = kstep σ.kern e := by
  cases e with
  | connect f nb => exact absurd rfl (he f nb)
  | sched w =>
    by_cases h : σ.kern.runs = 0
    · rw [step_sched_zero h]; rfl
    · obtain ⟨P, C, h1, _⟩ := step_sched h w
      rw [h1]; rfl
  | _ => rfl

theorem note_step {σ : State} {e : Event} (he : ∀ w, e ≠ .sched w) : (step σ e).note = σ.note := by
  cases e with
  | sched w => exact absurd rfl (he w)
  | _ => rfl

theorem ran_cons {e : Event} {s : List Event} {i : Id} : Ran (e :: s) i ↔ e = .start i ∨ Ran s i := by
  unfold Ran
  rw [List.mem_cons]
  exact ⟨fun h => h.imp Eq.symm id, fun h => h.imp Eq.symm id⟩

theorem known_cons {nb : List Id} {e : Event} {s : List Event} {i : Id} (h : Known nb s i) : Known nb (e :: s) i := by
  rcases h with h | h | ⟨l, h1, h2⟩
  · exact .inl h
  · exact .inr (.inl (ran_cons.2 (.inr h)))
  · exact .inr (.inr ⟨l, List.mem_cons_of_mem _ h1, h2⟩)

theorem reads_cons {e : Event} {s : List Event} {c p : Id} (h : Reads (e :: s) c p) : (∃ n, e = .edge .static c p n ∧ Ran s p) ∨ Reads s c p := by
  obtain ⟨s₁, s₂, n, h1, h2⟩ := h
  cases s₁ with
  | nil =>
    injection h1 with h1 h3
    subst h3
    exact .inl ⟨n, h1, h2⟩
  | cons a s₁ =>
    injection h1 with _ h1
    exact .inr ⟨s₁, s₂, n, h1, h2⟩

theorem oneSession_cons {e : Event} {s : List Event} (h : OneSession (e :: s)) : OneSession s ∧ ∀ f nb, e ≠ .connect f nb :=
  ⟨fun f nb hm => h f nb (List.mem_cons_of_mem _ hm), fun f nb he => h f nb (he ▸ List.mem_cons_self)⟩

/-- What holds after the events `s` of a session that began with the notebook `nb` and the kernel `k₀`. -/
structure Sess (f : Flow) (nb : List Id) (k₀ : Kern) (s : List Event) (k : Kern) : Prop where
  flow : k.flow = f
  cells : ∀ i, i ∈ k.cells ↔ Known nb s i
  pos : k.pos = fun i => if i ∈ now nb s then (((now nb s).idxOf i : Int) : Pos) else ⊤
  unrun : ∀ i, ¬Ran s i → k.ctr i = -1 ∧ (∀ x, k.prev x i = []) ∧ k.par .dynamic i = []
  ran : ∀ i, Ran s i → 0 < k.ctr i
  runs : k.runs = 0 ↔ ¬AnyRan s
  uniq : Uniq k.par
  grow : ∀ i, ¬Ran s i → ∀ x j S₀, Assoc.get (k₀.par x i) j = some S₀ → ∃ S, Assoc.get (k.par x i) j = some S ∧ S₀ ⊆ S
  quiet : ∀ i, ¬Ran s i → ReadsNothing s i → k.par .static i = k₀.par .static i
  kids : ∀ i, ¬Ran s i → ∀ x j, j ∈ Assoc.keys (k.chi x i) → j ∈ Assoc.keys (k₀.chi x i)
  reads : ∀ i r, i ∈ nb → ¬Ran s i → Reads s i r → r ∉ Assoc.keys (k₀.chi .static i) → ∃ n S, Assoc.get (k.par .static i) r = some S ∧ some n ∈ S
  upper : ∀ i x j S m, ((j, S) ∈ k.par x i ∨ (j, S) ∈ k.prev x i) → m ∈ S →
    (m = none → j ∈ Assoc.keys (k₀.par .static i)) ∧ ∀ n, m = some n → ∃ y, Event.edge y i j n ∈ s
  known : ∀ i x j S, ((j, S) ∈ k.par x i ∨ (j, S) ∈ k.prev x i) → Known nb s j
  back : ∀ i j, ¬Ran s i → ¬Ran s j → ∀ x S, (j, S) ∈ k.par x i → j ∈ Assoc.keys (k₀.par x i)

theorem sess_start (f : Flow) (nb : List Id) (saved : List (Id × Finset Id)) : Sess f nb (connect f nb saved) [] (connect f nb saved) := by
  obtain ⟨h1, h2, h3, h4, h5⟩ := connect_same f nb saved
  have hi := connect_init f nb saved
  have hdyn : ∀ i, (connect f nb saved).par .dynamic i = [] := by
    intro i
    rcases hl : (connect f nb saved).par .dynamic i with _ | ⟨⟨j, S⟩, l⟩
    · rfl
    · have := (hi.par .dynamic i j S (by rw [hl]; exact List.mem_cons_self)).1
      cases this
  refine ⟨h5, ?_, h2, ?_, ?_, ?_, hi.uniq, ?_, fun _ _ _ => rfl, fun _ _ _ _ h => h, ?_, ?_, ?_, ?_⟩
  · intro i
    rw [h1]
    constructor
    · exact .inl
    · rintro (h | h | ⟨l, h, _⟩)
      · exact h
      · cases h
      · cases h
  · intro i _; exact ⟨congrFun h3 i, fun x => hi.prev x i, hdyn i⟩
  · intro i h; cases h
  · constructor
    · rintro _ ⟨c, h⟩; cases h
    · intro _; exact h4
  · intro i _ x j S₀ h; exact ⟨S₀, h, fun _ h => h⟩
  · rintro i r _ _ ⟨s₁, s₂, n, h, _⟩
    cases s₁ <;> cases h
  · intro i x j S m h hm
    rcases h with h | h
    · obtain ⟨a1, _, _, a4, _⟩ := hi.par x i j S h
      subst a1
      refine ⟨fun _ => mem_key h, ?_⟩
      rw [a4, Finset.mem_singleton] at hm
      subst hm
      intro n hn; cases hn
    · rw [hi.prev] at h; cases h
  · intro i x j S h
    rcases h with h | h
    · exact .inl (mem_pairs.1 (hi.par x i j S h).2.1).2.1
    · rw [hi.prev] at h; cases h
  · intro i j _ _ x S h; exact mem_key h

theorem anyRan_cons {e : Event} {s : List Event} (he : ∀ c, e ≠ .start c) : AnyRan (e :: s) ↔ AnyRan s := by
  constructor
  · rintro ⟨c, h⟩
    rcases ran_cons.1 h with h | h
    · exact absurd h (he c)
    · exact ⟨c, h⟩
  · rintro ⟨c, h⟩; exact ⟨c, ran_cons.2 (.inr h)⟩

theorem ran_cons_ne {e : Event} {s : List Event} (he : ∀ c, e ≠ .start c) {i : Id} : Ran (e :: s) i ↔ Ran s i := by
  rw [ran_cons]
  exact ⟨fun h => h.resolve_left (he i), .inr⟩

theorem now_cons {nb : List Id} {e : Event} {s : List Event} (he : ∀ l, e ≠ .told l) : now nb (e :: s) = now nb s := by
  cases e with
  | told l => exact absurd rfl (he l)
  | _ => rfl

theorem known_cons_iff {nb : List Id} {e : Event} {s : List Event} {i : Id} (he : ∀ c, e ≠ .start c) (he' : ∀ l, e ≠ .told l) :
    Known nb (e :: s) i ↔ Known nb s i := by
  refine ⟨?_, known_cons⟩
  rintro (h | h | ⟨l, h1, h2⟩)
  · exact .inl h
  · exact .inr (.inl ((ran_cons_ne he).1 h))
  · rcases List.mem_cons.1 h1 with h1 | h1
    · exact absurd h1.symm (he' l)
    · exact .inr (.inr ⟨l, h1, h2⟩)

theorem readsNothing_cons {e : Event} {s : List Event} {i : Id} (h : ReadsNothing (e :: s) i) : ReadsNothing s i :=
  fun p n hm => h p n (List.mem_cons_of_mem _ hm)

/-- Events that change nothing but positions or nothing at all. -/
theorem sess_keep {f : Flow} {nb : List Id} {k₀ k k' : Kern} {s : List Event} {e : Event} (h : Sess f nb k₀ s k) (he : ∀ c, e ≠ .start c)
    (he2 : ∀ x c p n, e ≠ .edge x c p n) (hcells : ∀ i, i ∈ k'.cells ↔ Known nb (e :: s) i)
    (hpos : k'.pos = fun i => if i ∈ now nb (e :: s) then (((now nb (e :: s)).idxOf i : Int) : Pos) else ⊤)
    (hsame : k'.par = k.par ∧ k'.chi = k.chi ∧ k'.prev = k.prev ∧ k'.ctr = k.ctr ∧ k'.runs = k.runs ∧ k'.flow = k.flow) : Sess f nb k₀ (e :: s) k' := by
  obtain ⟨g1, g2, g3, g4, g5, g6⟩ := hsame
  refine ⟨g6.trans h.flow, hcells, hpos, ?_, ?_, ?_, g1 ▸ h.uniq, ?_, ?_, ?_, ?_, ?_, ?_, ?_⟩
  · intro i hi; rw [g4, g3, g1]; exact h.unrun i (fun hr => hi ((ran_cons_ne he).2 hr))
  · intro i hi; rw [g4]; exact h.ran i ((ran_cons_ne he).1 hi)
  · rw [g5, anyRan_cons he]; exact h.runs
  · intro i hi x j S₀ hS; rw [g1]; exact h.grow i (fun hr => hi ((ran_cons_ne he).2 hr)) x j S₀ hS
  · intro i hi hn; rw [g1]; exact h.quiet i (fun hr => hi ((ran_cons_ne he).2 hr)) (readsNothing_cons hn)
  · intro i hi x j hj; rw [g2] at hj; exact h.kids i (fun hr => hi ((ran_cons_ne he).2 hr)) x j hj
  · intro i r hnb hi hr hk
    rw [g1]
    rcases reads_cons hr with ⟨n, hr, _⟩ | hr
    · exact absurd hr (he2 _ _ _ _)
    · exact h.reads i r hnb (fun hr => hi ((ran_cons_ne he).2 hr)) hr hk
  · intro i x j S m hm hS
    rw [g1, g3] at hm
    obtain ⟨a, b⟩ := h.upper i x j S m hm hS
    refine ⟨a, fun n hn => ?_⟩
    obtain ⟨y, hy⟩ := b n hn
    exact ⟨y, List.mem_cons_of_mem _ hy⟩
  · intro i x j S hm
    rw [g1, g3] at hm
    exact known_cons (h.known i x j S hm)
  · intro i j hi hj x S hm
    rw [g1] at hm
    exact h.back i j (fun hr => hi ((ran_cons_ne he).2 hr)) (fun hr => hj ((ran_cons_ne he).2 hr)) x S hm

theorem sess_told {f : Flow} {nb : List Id} {k₀ k : Kern} {s : List Event} (h : Sess f nb k₀ s k) (l : List Id) : Sess f nb k₀ (.told l :: s) (tell k l) := by
  refine sess_keep h (fun c hc => (by cases hc)) (fun _ _ _ _ hc => (by cases hc)) ?_ rfl ⟨rfl, rfl, rfl, rfl, rfl, rfl⟩
  intro i
  show i ∈ k.cells ++ l.filter (· ∉ k.cells) ↔ _
  rw [List.mem_append, List.mem_filter]
  constructor
  · rintro (hk | ⟨hl, _⟩)
    · exact known_cons ((h.cells i).1 hk)
    · exact .inr (.inr ⟨l, List.mem_cons_self, hl⟩)
  · intro hk
    by_cases hK : Known nb s i
    · exact .inl ((h.cells i).2 hK)
    · rcases hk with hk | hk | ⟨l', h1, h2⟩
      · exact absurd (.inl hk) hK
      · exact absurd (.inr (.inl ((ran_cons_ne (fun c hc => (by cases hc))).1 hk))) hK
      · rcases List.mem_cons.1 h1 with h1 | h1
        · injection h1 with h1
          subst h1
          refine .inr ⟨h2, ?_⟩
          simp only [decide_not, Bool.not_eq_eq_eq_not, Bool.not_true, decide_eq_false_iff_not]
          rw [h.cells]; exact hK
        · exact absurd (.inr (.inr ⟨l', h1, h2⟩)) hK

theorem sess_start_run {f : Flow} {nb : List Id} {k₀ k : Kern} {s : List Event} (h : Sess f nb k₀ s k) (c : Id) : Sess f nb k₀ (.start c :: s) (start k c) := by
  have hr : ∀ {i : Id}, ¬Ran (.start c :: s) i → i ≠ c ∧ ¬Ran s i := by
    intro i hi
    refine ⟨fun hc => hi (ran_cons.2 (.inl (by rw [hc]))), fun hc => hi (ran_cons.2 (.inr hc))⟩
  have hpar : ∀ {x : Ctx} {i : Id}, i ≠ c → (start k c).par x i = k.par x i := fun hi => if_neg hi
  have hprev : ∀ {x : Ctx} {i : Id}, i ≠ c → (start k c).prev x i = k.prev x i := fun hi => if_neg hi
  have hpc : ∀ {x : Ctx}, (start k c).par x c = [] := if_pos rfl
  have hvc : ∀ {x : Ctx}, (start k c).prev x c = k.par x c := if_pos rfl
  refine ⟨h.flow, ?_, ?_, ?_, ?_, ?_, ?_, ?_, ?_, ?_, ?_, ?_, ?_, ?_⟩
  · intro i
    show i ∈ (if c ∈ k.cells then k.cells else k.cells ++ [c]) ↔ _
    have hk : Known nb (.start c :: s) i ↔ Known nb s i ∨ i = c := by
      constructor
      · rintro (hk | hk | ⟨l, h1, h2⟩)
        · exact .inl (.inl hk)
        · rcases ran_cons.1 hk with hk | hk
          · injection hk with hk; exact .inr hk.symm
          · exact .inl (.inr (.inl hk))
        · rcases List.mem_cons.1 h1 with h1 | h1
          · cases h1
          · exact .inl (.inr (.inr ⟨l, h1, h2⟩))
      · rintro (hk | hk)
        · exact known_cons hk
        · exact .inr (.inl (ran_cons.2 (.inl (by rw [hk]))))
    rw [hk]
    by_cases hc : c ∈ k.cells
    · rw [if_pos hc, h.cells]
      refine ⟨.inl, ?_⟩
      rintro (hk | rfl)
      · exact hk
      · exact (h.cells _).1 hc
    · rw [if_neg hc, List.mem_append, h.cells, List.mem_singleton]
  · exact h.pos
  · intro i hi
    obtain ⟨h1, h2⟩ := hr hi
    rw [hpar h1]
    refine ⟨(if_neg h1).trans (h.unrun i h2).1, fun x => ?_, (h.unrun i h2).2.2⟩
    rw [hprev h1]; exact (h.unrun i h2).2.1 x
  · intro i hi
    show 0 < if i = c then (k.runs : Int) + 1 else k.ctr i
    by_cases hic : i = c
    · rw [if_pos hic]; omega
    · rw [if_neg hic]
      rcases ran_cons.1 hi with hi | hi
      · injection hi with hi; exact absurd hi.symm hic
      · exact h.ran i hi
  · constructor
    · intro hz; cases hz
    · intro hn; exact absurd ⟨c, List.mem_cons_self⟩ hn
  · intro x i
    by_cases hic : i = c
    · subst hic; rw [hpc]; exact List.nodup_nil
    · rw [hpar hic]; exact h.uniq x i
  · intro i hi x j S₀ hS
    obtain ⟨h1, h2⟩ := hr hi
    rw [hpar h1]; exact h.grow i h2 x j S₀ hS
  · intro i hi hn
    obtain ⟨h1, h2⟩ := hr hi
    rw [hpar h1]; exact h.quiet i h2 (readsNothing_cons hn)
  · intro i hi x j hj; exact h.kids i (hr hi).2 x j hj
  · intro i r hnb hi hrd hk
    obtain ⟨h1, h2⟩ := hr hi
    rw [hpar h1]
    rcases reads_cons hrd with ⟨n, hrd, _⟩ | hrd
    · cases hrd
    · exact h.reads i r hnb h2 hrd hk
  · intro i x j S m hm hS
    have : (j, S) ∈ k.par x i ∨ (j, S) ∈ k.prev x i := by
      by_cases hic : i = c
      · subst hic
        rw [hpc, hvc] at hm
        rcases hm with hm | hm
        · cases hm
        · exact .inl hm
      · rw [hpar hic, hprev hic] at hm; exact hm
    obtain ⟨a, b⟩ := h.upper i x j S m this hS
    refine ⟨a, fun n hn => ?_⟩
    obtain ⟨y, hy⟩ := b n hn
    exact ⟨y, List.mem_cons_of_mem _ hy⟩
  · intro i x j S hm
    have : (j, S) ∈ k.par x i ∨ (j, S) ∈ k.prev x i := by
      by_cases hic : i = c
      · subst hic
        rw [hpc, hvc] at hm
        rcases hm with hm | hm
        · cases hm
        · exact .inl hm
      · rw [hpar hic, hprev hic] at hm; exact hm
    exact known_cons (h.known i x j S this)
  · intro i j hi hj x S hm
    obtain ⟨h1, h2⟩ := hr hi
    rw [hpar h1] at hm
    exact h.back i j h2 (hr hj).2 x S hm

theorem sess_done {f : Flow} {nb : List Id} {k₀ k : Kern} {s : List Event} (h : Sess f nb k₀ s k) (c : Id) : Sess f nb k₀ (.done c :: s) (done k c) := by
  have he : ∀ d, Event.done c ≠ .start d := fun d hd => (by cases hd)
  by_cases hc : Ran s c
  · have hl := less_done k c
    obtain ⟨g1, g2, g3, g4, g5, g6⟩ := hl.same
    have hne : ∀ {i : Id}, ¬Ran (.done c :: s) i → i ≠ c ∧ ¬Ran s i := fun hi =>
      ⟨fun hic => hi ((ran_cons_ne he).2 (hic ▸ hc)), fun hr => hi ((ran_cons_ne he).2 hr)⟩
    refine ⟨g6.trans h.flow, ?_, g3.trans h.pos, ?_, ?_, ?_, hl.uniq h.uniq, ?_, ?_, ?_, ?_, ?_, ?_, ?_⟩
    · intro i; rw [g1, h.cells, known_cons_iff he (fun _ hd => (by cases hd))]
    · intro i hi
      obtain ⟨h1, h2⟩ := hne hi
      rw [g4, g2, hl.other _ _ h1]; exact h.unrun i h2
    · intro i hi; rw [g4]; exact h.ran i ((ran_cons_ne he).1 hi)
    · rw [g5, anyRan_cons he]; exact h.runs
    · intro i hi x j S₀ hS
      obtain ⟨h1, h2⟩ := hne hi
      rw [hl.other _ _ h1]; exact h.grow i h2 x j S₀ hS
    · intro i hi hn
      obtain ⟨h1, h2⟩ := hne hi
      rw [hl.other _ _ h1]; exact h.quiet i h2 (readsNothing_cons hn)
    · intro i hi x j hj; exact h.kids i (hne hi).2 x j (hl.chi x i j hj)
    · intro i r hnb hi hrd hk
      obtain ⟨h1, h2⟩ := hne hi
      rw [hl.other _ _ h1]
      rcases reads_cons hrd with ⟨n, hrd, _⟩ | hrd
      · cases hrd
      · exact h.reads i r hnb h2 hrd hk
    · intro i x j S m hm hS
      have : ∃ T, ((j, T) ∈ k.par x i ∨ (j, T) ∈ k.prev x i) ∧ m ∈ T := by
        rw [g2] at hm
        rcases hm with hm | hm
        · obtain ⟨T0, h1, h2⟩ := hl.mem x i j S hm
          exact ⟨T0, .inl h1, h2 hS⟩
        · exact ⟨S, .inr hm, hS⟩
      obtain ⟨T, h1, h2⟩ := this
      obtain ⟨a, b⟩ := h.upper i x j T m h1 h2
      refine ⟨a, fun n hn => ?_⟩
      obtain ⟨y, hy⟩ := b n hn
      exact ⟨y, List.mem_cons_of_mem _ hy⟩
    · intro i x j S hm
      rw [g2] at hm
      rcases hm with hm | hm
      · obtain ⟨T0, h1, _⟩ := hl.mem x i j S hm
        exact known_cons (h.known i x j T0 (.inl h1))
      · exact known_cons (h.known i x j S (.inr hm))
    · intro i j hi hj x S hm
      obtain ⟨h1, h2⟩ := hne hi
      rw [hl.other _ _ h1] at hm
      exact h.back i j h2 (hne hj).2 x S hm
  · rw [done_id (h.unrun c hc).2.1]
    refine sess_keep h he (fun _ _ _ _ hd => (by cases hd)) ?_ h.pos ⟨rfl, rfl, rfl, rfl, rfl, rfl⟩
    intro i; rw [h.cells, known_cons_iff he (fun _ hd => (by cases hd))]

theorem sess_edge {f : Flow} {nb : List Id} {k₀ k : Kern} {s : List Event} (h : Sess f nb k₀ s k) (x : Ctx) (c p : Id) (n : Nat) :
    Sess f nb k₀ (.edge x c p n :: s) (found k x c p n) := by
  have he : ∀ d, Event.edge x c p n ≠ .start d := fun d hd => (by cases hd)
  have het : ∀ l, Event.edge x c p n ≠ .told l := fun d hd => (by cases hd)
  have hr : ∀ {i : Id}, ¬Ran (.edge x c p n :: s) i → ¬Ran s i := fun hi hr => hi ((ran_cons_ne he).2 hr)
  have hup : ∀ {i : Id} {m : Sym} {j : Id}, ((m = none → j ∈ Assoc.keys (k₀.par .static i)) ∧ ∀ n, m = some n → ∃ y, Event.edge y i j n ∈ s) →
      ((m = none → j ∈ Assoc.keys (k₀.par .static i)) ∧ ∀ n', m = some n' → ∃ y, Event.edge y i j n' ∈ (.edge x c p n :: s)) := by
    rintro i m j ⟨a, b⟩
    refine ⟨a, fun n' hn => ?_⟩
    obtain ⟨y, hy⟩ := b n' hn
    exact ⟨y, List.mem_cons_of_mem _ hy⟩
  unfold found
  by_cases hcond : c ∈ k.cells ∧ 0 < k.ctr p ∧ (x = .dynamic → 0 < k.ctr c)
  · rw [if_pos hcond]
    obtain ⟨hcc, hp0, hd0⟩ := hcond
    obtain ⟨g1, g2, g3, g4, g5, g6⟩ := addEdge_same k x c p (some n)
    have hpr : Ran s p := by
      by_contra hn
      have := (h.unrun p hn).1
      omega
    refine ⟨g6.trans h.flow, ?_, g3.trans h.pos, ?_, ?_, ?_, addEdge_uniq h.uniq _ _ _ _, ?_, ?_, ?_, ?_, ?_, ?_, ?_⟩
    · intro i; rw [g1, h.cells, known_cons_iff he het]
    · intro i hi
      obtain ⟨a1, a2, a3⟩ := h.unrun i (hr hi)
      rw [g4, g2]
      refine ⟨a1, a2, ?_⟩
      rw [addEdge_par_other]
      · exact a3
      · rintro ⟨h1, h2⟩
        have := hd0 h1.symm
        rw [← h2, a1] at this
        omega
    · intro i hi; rw [g4]; exact h.ran i ((ran_cons_ne he).1 hi)
    · rw [g5, anyRan_cons he]; exact h.runs
    · intro i hi y j S₀ hS
      obtain ⟨S, h1, h2⟩ := h.grow i (hr hi) y j S₀ hS
      obtain ⟨S', h3, h4⟩ := addEdge_grow (x := x) (c := c) (p := p) (s := some n) (h.unrun i (hr hi)).2.1 h1
      exact ⟨S', h3, fun a ha => h4 (h2 ha)⟩
    · intro i hi hn
      rw [addEdge_par_other]
      · exact h.quiet i (hr hi) (readsNothing_cons hn)
      · rintro ⟨h1, h2⟩
        subst h1; subst h2
        exact hn p n List.mem_cons_self
    · intro i hi y j hj
      rcases addEdge_chi hj with hj | ⟨_, h2, _⟩
      · exact h.kids i (hr hi) y j hj
      · exact absurd (h2 ▸ hpr) (hr hi)
    · intro i r hnb hi hrd hk
      rcases reads_cons hrd with ⟨n', hrd, hrr⟩ | hrd
      · injection hrd with h1 h2 h3 h4
        subst h1; subst h2; subst h3; subst h4
        obtain ⟨S, h5, h6⟩ := addEdge_added (k := k) (s := some n) (fun hm => hk (h.kids c (hr hi) _ _ hm)) (fun hpc => hr hi (hpc ▸ hpr))
        exact ⟨n, S, h5, h6⟩
      · obtain ⟨n', S, h1, h2⟩ := h.reads i r hnb (hr hi) hrd hk
        obtain ⟨S', h3, h4⟩ := addEdge_grow (x := x) (c := c) (p := p) (s := some n) (h.unrun i (hr hi)).2.1 h1
        exact ⟨n', S', h3, h4 h2⟩
    · intro i y j S m hm hS
      rw [g2] at hm
      rcases hm with hm | hm
      · rcases addEdge_mem hm with hm | ⟨h1, h2, h3, T0, h4, h5⟩
        · exact hup (h.upper i y j S m (.inl hm) hS)
        · subst h1; subst h2
          rcases Finset.mem_union.1 (h5 hS) with hm0 | hm0
          · rcases h4 with rfl | h4
            · cases hm0
            · exact hup (h.upper _ _ j T0 m (.inl h4) hm0)
          · rw [Finset.mem_singleton] at hm0
            subst hm0
            rcases h3 with rfl | ⟨S', hS', hs'⟩
            · refine ⟨fun hh => (by cases hh), fun n' hn => ?_⟩
              injection hn with hn
              subst hn
              exact ⟨y, List.mem_cons_self⟩
            · exact hup (h.upper _ _ j S' _ (.inr hS') hs')
      · exact hup (h.upper i y j S m (.inr hm) hS)
    · intro i y j S hm
      rw [g2] at hm
      rcases hm with hm | hm
      · rcases addEdge_mem hm with hm | ⟨h1, h2, h3, _⟩
        · exact known_cons (h.known i y j S (.inl hm))
        · subst h1; subst h2
          rcases h3 with rfl | ⟨S', hS', _⟩
          · exact known_cons (.inr (.inl hpr))
          · exact known_cons (h.known _ _ j S' (.inr hS'))
      · exact known_cons (h.known i y j S (.inr hm))
    · intro i j hi hj y S hm
      rcases addEdge_mem hm with hm | ⟨h1, h2, h3, _⟩
      · exact h.back i j (hr hi) (hr hj) y S hm
      · subst h1; subst h2
        rcases h3 with rfl | ⟨S', hS', _⟩
        · exact absurd hpr (hr hj)
        · rw [(h.unrun _ (hr hi)).2.1] at hS'; cases hS'
  · rw [if_neg hcond]
    refine ⟨h.flow, ?_, h.pos, fun i hi => h.unrun i (hr hi), fun i hi => h.ran i ((ran_cons_ne he).1 hi), ?_, h.uniq, fun i hi => h.grow i (hr hi),
      fun i hi hn => h.quiet i (hr hi) (readsNothing_cons hn), fun i hi => h.kids i (hr hi), ?_, fun i y j S m hm hS => hup (h.upper i y j S m hm hS),
      fun i y j S hm => known_cons (h.known i y j S hm), fun i j hi hj => h.back i j (hr hi) (hr hj)⟩
    · intro i; rw [h.cells, known_cons_iff he het]
    · rw [anyRan_cons he]; exact h.runs
    · intro i r hnb hi hrd hk
      rcases reads_cons hrd with ⟨n', hrd, hrr⟩ | hrd
      · injection hrd with h1 h2 h3 h4
        subst h1; subst h2; subst h3
        exact absurd ⟨(h.cells _).2 (.inl hnb), h.ran _ hrr, fun hd => (by cases hd)⟩ hcond
      · exact h.reads i r hnb (hr hi) hrd hk

/-- The invariant holds in every session. -/
theorem sess_run (n : Note) (f : Flow) (nb : List Id) (h₀ : List Event) : ∀ s : List Event, OneSession s →
    Sess f nb (connect f nb (shown n h₀).parents) s (run n (s ++ .connect f nb :: h₀)).kern := by
  intro s
  induction s with
  | nil => intro _; exact sess_start f nb _
  | cons e s ih =>
    intro hs
    obtain ⟨hs, he⟩ := oneSession_cons hs
    have h := ih hs
    have hk : (run n ((e :: s) ++ .connect f nb :: h₀)).kern = kstep (run n (s ++ .connect f nb :: h₀)).kern e := kern_step he
    rw [hk]
    cases e with
    | connect f' nb' => exact absurd rfl (he f' nb')
    | told l => exact sess_told h l
    | start c => exact sess_start_run h c
    | edge x c p n => exact sess_edge h x c p n
    | done c => exact sess_done h c
    | sched w =>
      refine sess_keep h (fun c hc => (by cases hc)) (fun _ _ _ _ hc => (by cases hc)) ?_ h.pos ⟨rfl, rfl, rfl, rfl, rfl, rfl⟩
      intro i
      exact (h.cells i).trans (known_cons_iff (fun c hc => (by cases hc)) (fun _ hc => (by cases hc))).symm

end Verif.Saved
