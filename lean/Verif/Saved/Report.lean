import Verif.Saved.Inv

/-!
# What the client has after a schedule -/

namespace Verif.Saved
open Verif Verif.Slice Verif.Sched

/-! ## Which entries the kernel keeps -/

/-- The symbols of an entry that count. -/
def syms (w : Sched.World Id Sym) (c : Id) (S : Finset Sym) : Finset Sym := (S \ w.removed c).filter fun s => w.implicitVirtual s = false

/-- What is known of a kept entry. -/
theorem keep_true {w : Sched.World Id Sym} {lat : Option (Timestamp → Option Id)} {x : Ctx} {c p : Id} {S : Finset Sym} (h : keepEntry w lat x c (p, S) = .ok true) :
    syms w c S ≠ ∅ ∧ (w.ctr p ≥ 0 → ∃ s ∈ syms w c S, w.ctr p ∈ w.updatedCells s) ∧
      ¬(w.flowOrder = .inOrder ∧ x = .static ∧ ∃ o ∈ w.directionalParents x c,
          ¬(syms w c S = {w.fake} ∧ o.2 = {w.fake}) ∧ ¬w.pos o.1 ≤ w.pos p ∧ (syms w c S ⊆ o.2 ∨ w.fake ∈ o.2)) := by
  unfold keepEntry at h
  dsimp only at h
  unfold syms
  generalize (S \ w.removed c).filter (fun s => w.implicitVirtual s = false) = T at h ⊢
  by_cases h1 : T = ∅
  · rw [if_pos h1] at h; injection h with h; cases h
  · rw [if_neg h1] at h
    rcases hn : notLatest w lat p T with e | b
    · rw [hn] at h; cases h
    · rw [hn] at h
      cases b with
      | true => dsimp only at h; injection h with h; cases h
      | false =>
        dsimp only at h
        split_ifs at h with h2 h3 h4
        · injection h with h; cases h
        · injection h with h; cases h
        · injection h with h; cases h
        · refine ⟨h1, fun hp => ?_, h4⟩
          by_contra hx
          exact h3 ⟨hp, hx⟩

/-- A saved link from a cell that was not run is kept, unless another one hides it. -/
theorem keep_saved {k : Kern} {w : Sched.World Id Sym} {x : Ctx} {c p : Id} {S : Finset Sym} (hS : none ∈ S) (hp : k.ctr p = -1)
    (hh : ¬(k.flow = .inOrder ∧ x = .static ∧ ∃ o ∈ (look k w).directionalParents x c,
          ¬(syms (look k w) c S = {none} ∧ o.2 = {none}) ∧ ¬k.pos o.1 ≤ k.pos p ∧ (syms (look k w) c S ⊆ o.2 ∨ none ∈ o.2))) :
    keepEntry (look k w) (latestParByTs (look k w) c) x c (p, S) = .ok true := by
  have hm : none ∈ syms (look k w) c S := by
    unfold syms look
    simp [hS]
  have h1 : syms (look k w) c S ≠ ∅ := fun h => by rw [h] at hm; cases hm
  have hn : notLatest (look k w) (latestParByTs (look k w) c) p (syms (look k w) c S) = .ok false := by
    unfold notLatest
    rcases latestParByTs (look k w) c with _ | m
    · rfl
    · dsimp only
      rw [if_pos (show (look k w).fake ∈ syms (look k w) c S from hm)]
  unfold keepEntry
  dsimp only
  unfold syms at hm h1 hn hh
  generalize (S \ (look k w).removed c).filter (fun s => (look k w).implicitVirtual s = false) = T at hm h1 hn hh ⊢
  rw [if_neg h1, hn]
  dsimp only
  rw [if_neg, if_neg, if_neg]
  · exact hh
  · rintro ⟨h2, _⟩
    have h2 : k.ctr p ≥ 0 := h2
    omega
  · rintro ⟨M, _, h2, _⟩
    have h3 : none ∈ (w.staticWrites p).erase none := h2 hm
    exact (Finset.mem_erase.1 h3).1 rfl

theorem mem_directional {k : Kern} {w : Sched.World Id Sym} {x : Ctx} {c p : Id} {S : Finset Sym} :
    (p, S) ∈ (look k w).directionalParents x c ↔ (p, S) ∈ k.par x c ∧ (k.flow = .inOrder → k.pos p < k.pos c) := by
  unfold World.directionalParents
  by_cases hf : k.flow = .inOrder
  · rw [if_pos (show (look k w).flowOrder = .inOrder from hf), List.mem_filter]
    show (p, S) ∈ k.par x c ∧ decide (k.pos p < k.pos c) = true ↔ _
    simp [hf]
  · rw [if_neg (show ¬(look k w).flowOrder = .inOrder from hf)]
    show (p, S) ∈ k.par x c ↔ _
    simp [hf]

/-! ## Notes -/

theorem keyed_run {n : Note} (hn : Keyed n) : ∀ h : List Event, Keyed (shown n h) := by
  intro h
  induction h with
  | nil => exact hn
  | cons e h ih =>
    show Keyed (step (run n h) e).note
    by_cases he : ∃ w, e = .sched w
    · obtain ⟨w, rfl⟩ := he
      by_cases hz : (run n h).kern.runs = 0
      · rw [step_sched_zero hz]; exact ih
      · obtain ⟨P, C, h1, _⟩ := step_sched hz w
        rw [h1]
        exact nodup_foldl_set _ _ ih
    · rw [note_step (fun w hw => he ⟨w, hw⟩)]; exact ih

theorem pairs_iff {n : Note} (hn : Keyed n) {cells : List Id} {c p : Id} : (c, p) ∈ pairs cells n.parents ↔ c ∈ cells ∧ p ∈ cells ∧ Lists n.parents c p := by
  rw [mem_pairs]
  constructor
  · rintro ⟨h1, h2, L, h3, h4⟩
    exact ⟨h1, h2, L, (Assoc.get_eq_some_iff hn).2 h3, h4⟩
  · rintro ⟨h1, h2, L, h3, h4⟩
    exact ⟨h1, h2, L, Assoc.mem_of_get h3, h4⟩

section
variable {n : Note} {f : Flow} {nb : List Id} {h₀ s : List Event} {w : Sched.World Id Sym} {c p : Id}

/-- The kernel after a session. -/
def ker (n : Note) (f : Flow) (nb : List Id) (h₀ s : List Event) : Kern := (run n (s ++ .connect f nb :: h₀)).kern

/-- Links of a known cell after a schedule, once a cell was run. -/
theorem parent_sched (hs : OneSession s) (hr : AnyRan s) (hc : Known nb s c) :
    Parent n (.sched w :: (s ++ .connect f nb :: h₀)) c p ↔ Kept (look (ker n f nb h₀ s) w) c p := by
  have h := sess_run n f nb h₀ s hs
  have hz : (run n (s ++ .connect f nb :: h₀)).kern.runs ≠ 0 := fun hz => h.runs.1 hz hr
  obtain ⟨P, C, h1, h2, h3, h4, h5⟩ := step_sched hz w
  have hcc := (h.cells c).2 hc
  unfold Parent shown
  show Lists (step (run n (s ++ .connect f nb :: h₀)) (.sched w)).note.parents c p ↔ _
  rw [h1]
  unfold ker
  rw [← h5 c p hcc]
  unfold Lists Listed
  dsimp only
  rw [get_merge, if_pos ⟨hcc, (h2 c hcc).1⟩]

/-- Children of a known cell after a schedule, once a cell was run. -/
theorem child_sched (hs : OneSession s) (hr : AnyRan s) (hp : Known nb s p) :
    Child n (.sched w :: (s ++ .connect f nb :: h₀)) p c ↔ Known nb s c ∧ Kept (look (ker n f nb h₀ s) w) c p := by
  have h := sess_run n f nb h₀ s hs
  have hz : (run n (s ++ .connect f nb :: h₀)).kern.runs ≠ 0 := fun hz => h.runs.1 hz hr
  obtain ⟨P, C, h1, h2, h3, h4, h5⟩ := step_sched hz w
  have hpp := (h.cells p).2 hp
  unfold Child shown
  show Lists (step (run n (s ++ .connect f nb :: h₀)) (.sched w)).note.children p c ↔ _
  rw [h1]
  have : Lists (mergeMaps (json (run n (s ++ .connect f nb :: h₀)).kern.cells C) (run n (s ++ .connect f nb :: h₀)).note.children) p c ↔ Listed C p c := by
    unfold Lists Listed
    rw [get_merge, if_pos ⟨hpp, (h2 p hpp).2⟩]
  dsimp only
  rw [this, h4]
  constructor
  · intro hl
    have hc := h3 c (by obtain ⟨L, hL, _⟩ := hl; rw [hL]; rfl)
    exact ⟨(h.cells c).1 hc, (h5 c p hc).1 hl⟩
  · rintro ⟨hc, hk⟩
    exact (h5 c p ((h.cells c).2 hc)).2 hk

/-- Links of an unknown cell stay. -/
theorem parent_unknown (hs : OneSession s) (hc : ¬Known nb s c) :
    Assoc.get (shown n (.sched w :: (s ++ .connect f nb :: h₀))).parents c = Assoc.get (shown n (s ++ .connect f nb :: h₀)).parents c := by
  have h := sess_run n f nb h₀ s hs
  unfold shown
  show Assoc.get (step (run n (s ++ .connect f nb :: h₀)) (.sched w)).note.parents c = _
  by_cases hz : (run n (s ++ .connect f nb :: h₀)).kern.runs = 0
  · rw [step_sched_zero hz]
  · obtain ⟨P, C, h1, _⟩ := step_sched hz w
    rw [h1]
    dsimp only
    rw [get_merge, if_neg (fun hcc => hc ((h.cells c).1 hcc.1))]

end

/-- Every history with a connection has a last one. -/
theorem last_connect (f : Flow) (nb : List Id) (h : List Event) : ∀ e : List Event, ∃ s f' nb' r,
    OneSession s ∧ e ++ .connect f nb :: h = s ++ .connect f' nb' :: r ∧ (∀ a ∈ s, a ∈ e) ∧ Event.connect f' nb' ∈ e ++ [.connect f nb] ∧
      (r = h ∨ ∃ e', r = e' ++ .connect f nb :: h ∧ e'.length < e.length ∧ ∀ a ∈ e', a ∈ e) := by
  intro e
  induction e with
  | nil => exact ⟨[], f, nb, h, fun _ _ h => (by cases h), rfl, fun _ h => (by cases h), List.mem_cons_self, .inl rfl⟩
  | cons a e ih =>
    obtain ⟨s, f', nb', r, h1, h2, h3, h4, h5⟩ := ih
    by_cases ha : ∃ g l, a = .connect g l
    · obtain ⟨g, l, rfl⟩ := ha
      exact ⟨[], g, l, e ++ .connect f nb :: h, fun _ _ h => (by cases h), rfl, fun _ h => (by cases h), List.mem_cons_self,
        .inr ⟨e, rfl, Nat.lt_succ_self _, fun b hb => List.mem_cons_of_mem _ hb⟩⟩
    · refine ⟨a :: s, f', nb', r, ?_, ?_, ?_, List.mem_cons_of_mem _ h4, ?_⟩
      · intro g l hm
        rcases List.mem_cons.1 hm with hm | hm
        · exact ha ⟨g, l, hm.symm⟩
        · exact h1 g l hm
      · show a :: (e ++ .connect f nb :: h) = a :: (s ++ .connect f' nb' :: r)
        rw [h2]
      · intro b hb
        rcases List.mem_cons.1 hb with hb | hb
        · exact hb ▸ List.mem_cons_self
        · exact List.mem_cons_of_mem _ (h3 b hb)
      · rcases h5 with h5 | ⟨e', h6, h7, h8⟩
        · exact .inl h5
        · exact .inr ⟨e', h6, Nat.lt_succ_of_lt h7, fun b hb => List.mem_cons_of_mem _ (h8 b hb)⟩

end Verif.Saved
