import Verif.Sched.Props

set_option linter.unusedSectionVars false

/-!
# Parents and children reported to the client (C08, C09)
-/

namespace Verif.Sched
open Verif Verif.Slice

variable {ι σ : Type} [DecidableEq ι] [DecidableEq σ]

/-! ## Helper lemmas -/

theorem keepEntry_total {w : World ι σ} {c : Ctx} (hc : c ∈ w.ctxs) {x : ι} {e : ι × Finset σ}
    (he : Entry w c x e.1 e.2) : ∃ b, keepEntry w (latestParByTs w x) c x e = .ok b := by
  unfold keepEntry
  simp only
  split
  · exact ⟨_, rfl⟩
  · have hnl : ∃ b, notLatest w (latestParByTs w x) e.1
        ((e.2 \ w.removed x).filter fun s => w.implicitVirtual s = false) = .ok b := by
      unfold notLatest
      cases hm : latestParByTs w x with
      | none => exact ⟨_, rfl⟩
      | some m =>
        simp only
        split
        · exact ⟨_, rfl⟩
        · rename_i hf
          have hno : ¬ ∃ s ∈ (e.2 \ w.removed x).filter fun s => w.implicitVirtual s = false,
              m (w.shallowTs s) = none := by
            rintro ⟨s, hs, hn⟩
            rw [latestPar_none_iff hm] at hn
            have hs' := Finset.mem_sdiff.1 (Finset.mem_filter.1 hs).1
            refine hn e (mem_allEntries.2 ⟨c, hc, he⟩) ⟨s, hs', ?_, rfl⟩
            rintro rfl; exact hf hs
          unfold isLatestFor
          rw [if_neg hno]
          exact ⟨_, rfl⟩
    obtain ⟨b, hb⟩ := hnl
    rw [hb]
    cases b with
    | true => exact ⟨_, rfl⟩
    | false =>
      simp only
      split
      · exact ⟨_, rfl⟩
      · split
        · exact ⟨_, rfl⟩
        · split <;> exact ⟨_, rfl⟩

theorem keepAll_spec {w : World ι σ} {x : ι} : ∀ (l : List (Ctx × (ι × Finset σ))) (acc : Finset ι),
    (∀ a ∈ l, a.1 ∈ w.ctxs ∧ Entry w a.1 x a.2.1 a.2.2) →
    ∃ s, keepAll w (latestParByTs w x) x l acc = .ok s ∧ ∀ p ∈ s, p ∈ acc ∨ DependsOn w x p := by
  intro l
  induction l with
  | nil => intro acc _; exact ⟨acc, rfl, fun p hp => .inl hp⟩
  | cons a l ih =>
    obtain ⟨c, e⟩ := a
    intro acc h
    obtain ⟨hc, he⟩ := h (c, e) (by simp)
    obtain ⟨b, hb⟩ := keepEntry_total hc he
    obtain ⟨s, hs, hsub⟩ := ih (if b then insert e.1 acc else acc) (fun a ha => h a (by simp [ha]))
    refine ⟨s, ?_, ?_⟩
    · unfold keepAll; rw [hb]; exact hs
    · intro p hp
      rcases hsub p hp with hp | hp
      · cases b with
        | true =>
          simp only [if_true] at hp
          rcases Finset.mem_insert.1 hp with rfl | hp
          · exact .inr ⟨c, hc, e.2, he⟩
          · exact .inl hp
        | false => exact .inl (by simpa using hp)
      · exact .inr hp

theorem filteredParents_spec (w : World ι σ) (x : ι) :
    ∃ s, filteredParents w x = .ok s ∧ ∀ p ∈ s, DependsOn w x p := by
  unfold filteredParents
  obtain ⟨s, hs, h⟩ := keepAll_spec (w := w) (x := x)
    (w.ctxs.flatMap fun c => (w.directionalParents c x).map fun e => (c, e)) ∅ (by
      intro a ha
      rw [List.mem_flatMap] at ha
      obtain ⟨c, hc, ha⟩ := ha
      rw [List.mem_map] at ha
      obtain ⟨e, he, rfl⟩ := ha
      exact ⟨hc, mem_directional.1 he⟩)
  refine ⟨s, hs, fun p hp => ?_⟩
  rcases h p hp with h | h
  · simp at h
  · exact h

theorem parentsTable_spec (w : World ι σ) : ∀ (l : List ι) (T : ι → Option (Finset ι)),
    ∃ T', parentsTable w l T = .ok T' ∧
      ∀ x, (x ∈ l → ∃ s, filteredParents w x = .ok s ∧ T' x = some s) ∧ (x ∉ l → T' x = T x) := by
  intro l
  induction l with
  | nil => intro T; exact ⟨T, rfl, fun x => ⟨fun h => absurd h (by simp), fun _ => rfl⟩⟩
  | cons a l ih =>
    intro T
    obtain ⟨s, hs, _⟩ := filteredParents_spec w a
    obtain ⟨T', hT', h⟩ := ih (Function.update T a (some s))
    refine ⟨T', ?_, ?_⟩
    · unfold parentsTable; rw [hs]; exact hT'
    · intro x
      obtain ⟨h1, h2⟩ := h x
      by_cases hxl : x ∈ l
      · exact ⟨fun _ => h1 hxl, fun hn => absurd (by simp [hxl]) hn⟩
      · have h2 := h2 hxl
        by_cases hxa : x = a
        · subst hxa
          rw [Function.update_self] at h2
          exact ⟨fun _ => ⟨s, hs, h2⟩, fun hn => absurd (by simp) hn⟩
        · rw [Function.update_of_ne hxa] at h2
          refine ⟨fun hx => ?_, fun _ => h2⟩
          rcases List.mem_cons.1 hx with h | h
          · exact absurd h hxa
          · exact absurd h hxl

/-- `c` is listed under `p` in a table of sets. -/
def Listed (T : ι → Option (Finset ι)) (k v : ι) : Prop := ∃ s, T k = some s ∧ v ∈ s

theorem listed_addAll {d : ι → Option (Finset ι)} {ks : Finset ι} {v k u : ι} :
    Listed (addAll d ks v) k u ↔ Listed d k u ∨ (k ∈ ks ∧ u = v) := by
  unfold Listed addAll
  by_cases hk : k ∈ ks
  · cases hd : d k with
    | none => simp [hk]
    | some s => simp [hk, or_comm]
  · simp [hk]

theorem children_first {T : ι → Option (Finset ι)} : ∀ (cells : List ι) (d : ι → Option (Finset ι)) (k u : ι),
    Listed (cells.foldl (addChild T) d) k u ↔
      Listed d k u ∨ (u ∈ cells ∧ Listed T u k) := by
  intro cells
  induction cells with
  | nil => intro d k u; simp
  | cons a cells ih =>
    intro d k u
    rw [List.foldl_cons, ih]
    unfold addChild
    cases hT : T a with
    | none =>
      simp only
      constructor
      · rintro (h | ⟨h1, h2⟩)
        · exact .inl h
        · exact .inr ⟨by simp [h1], h2⟩
      · rintro (h | ⟨h1, h2⟩)
        · exact .inl h
        · rcases List.mem_cons.1 h1 with rfl | h1
          · obtain ⟨s, hs, _⟩ := h2; rw [hT] at hs; cases hs
          · exact .inr ⟨h1, h2⟩
    | some ps =>
      simp only [listed_addAll]
      constructor
      · rintro ((h | ⟨h, rfl⟩) | ⟨h1, h2⟩)
        · exact .inl h
        · exact .inr ⟨by simp, ps, hT, h⟩
        · exact .inr ⟨by simp [h1], h2⟩
      · rintro (h | ⟨h1, h2⟩)
        · exact .inl (.inl h)
        · rcases List.mem_cons.1 h1 with rfl | h1
          · obtain ⟨s, hs, hk⟩ := h2
            rw [hT] at hs; injection hs with hs; subst hs
            exact .inl (.inr ⟨hk, rfl⟩)
          · exact .inr ⟨h1, h2⟩

theorem children_second : ∀ (cells : List ι) (d : ι → Option (Finset ι)),
    (∀ k u, Listed (cells.foldl (fun d x => if (d x).isSome then d else Function.update d x (some ∅)) d) k u ↔
      Listed d k u) ∧
    (∀ k, ((cells.foldl (fun d x => if (d x).isSome then d else Function.update d x (some ∅)) d) k).isSome ↔
      (d k).isSome ∨ k ∈ cells) := by
  intro cells
  induction cells with
  | nil => intro d; exact ⟨fun _ _ => Iff.rfl, fun k => by simp⟩
  | cons a cells ih =>
    intro d
    obtain ⟨h1, h2⟩ := ih (if (d a).isSome then d else Function.update d a (some ∅))
    rw [List.foldl_cons]
    refine ⟨fun k u => ?_, fun k => ?_⟩
    · rw [h1]
      split
      · exact Iff.rfl
      · rename_i hn
        unfold Listed
        by_cases hka : k = a
        · subst hka
          have : d k = none := by simpa using hn
          simp [this]
        · rw [Function.update_of_ne hka]
    · rw [h2]
      split
      · rename_i hs
        constructor
        · rintro (h | h)
          · exact .inl h
          · exact .inr (by simp [h])
        · rintro (h | h)
          · exact .inl h
          · rcases List.mem_cons.1 h with rfl | h
            · exact .inl hs
            · exact .inr h
      · by_cases hka : k = a
        · subst hka; simp
        · rw [Function.update_of_ne hka]; simp [hka]

/-! ## C08 -/

/-- The reported graph: computing it never raises; every checked cell is a key of both tables; `c` is listed under
`cell_children[p]` exactly when `p` is listed under `cell_parents[c]`; every reported parent is a recorded dependency; in
order every reported parent stands strictly above its child. -/
theorem reported_graph (w : World ι σ) (cells : List ι) :
    ∃ P C, filteredGraph w cells = .ok (P, C) ∧
      (∀ x ∈ cells, (P x).isSome ∧ (C x).isSome) ∧
      (∀ x, (P x).isSome → x ∈ cells) ∧
      (∀ p c, Listed C p c ↔ Listed P c p) ∧
      (∀ c p, Listed P c p → DependsOn w c p) ∧
      (w.flowOrder = .inOrder → ∀ c p, Listed P c p → w.pos p < w.pos c) := by
  obtain ⟨T, hT, h⟩ := parentsTable_spec w cells (fun _ => none)
  have hkeys : ∀ x, (T x).isSome → x ∈ cells := by
    intro x hx
    by_contra hn
    rw [(h x).2 hn] at hx
    cases hx
  have hdep : ∀ c p, Listed T c p → DependsOn w c p := by
    rintro c p ⟨s, hs, hp⟩
    have hc : c ∈ cells := hkeys c (by rw [hs]; rfl)
    obtain ⟨s', hs', hT'⟩ := (h c).1 hc
    rw [hs] at hT'
    injection hT' with hT'
    subst hT'
    obtain ⟨s'', hs'', hd⟩ := filteredParents_spec w c
    rw [hs'] at hs''
    injection hs'' with hs''
    subst hs''
    exact hd p hp
  refine ⟨T, childrenTable cells T, by unfold filteredGraph; rw [hT], ?_, hkeys, ?_, hdep, ?_⟩
  · intro x hx
    obtain ⟨s, _, hs⟩ := (h x).1 hx
    refine ⟨by rw [hs]; rfl, ?_⟩
    unfold childrenTable
    rw [(children_second cells _).2]
    exact .inr hx
  · intro p c
    unfold childrenTable
    rw [(children_second cells _).1, children_first]
    constructor
    · rintro (⟨s, hs, _⟩ | ⟨_, h2⟩)
      · cases hs
      · exact h2
    · rintro ⟨s, hs, hp⟩
      exact .inr ⟨hkeys c (by rw [hs]; rfl), s, hs, hp⟩
  · intro ho c p hl
    obtain ⟨_, _, _, _, hlt⟩ := hdep c p hl
    exact hlt ho

/-- In order the reported graph has no cycle. -/
theorem reported_graph_acyclic {w : World ι σ} (ho : w.flowOrder = .inOrder) {cells : List ι}
    {P C : ι → Option (Finset ι)} (h : filteredGraph w cells = .ok (P, C)) (x : ι) :
    ¬ Relation.TransGen (fun c p => Listed P c p) x x := by
  obtain ⟨P', C', h', _, _, _, _, hlt⟩ := reported_graph w cells
  rw [h] at h'
  injection h' with h'
  injection h' with h1 h2
  subst h1
  have key : ∀ a b, Relation.TransGen (fun c p => Listed P c p) a b → w.pos b < w.pos a := by
    intro a b hab
    induction hab with
    | single h => exact hlt ho _ _ h
    | tail _ h ih => exact (hlt ho _ _ h).trans ih
  intro hx
  exact lt_irrefl _ (key x x hx)

end Verif.Sched
