import Verif.Registry.Lemmas
import Verif.Registry.ReactiveSpec

set_option linter.unusedSectionVars false

/-! # The cells that are marked for a tag are found by it -/

namespace Verif.Registry.Marks
open Verif Verif.Registry
variable {ι τ : Type} [DecidableEq ι] [DecidableEq τ]

/-- The registry and the story agree. -/
structure Sim (s : Reg ι τ) (p : Story ι τ) : Prop where
  known : ∀ a, p.known a ↔ (s.current a).isSome = true
  index : ∀ a t, a ∈ s.reactiveByTag t ↔ p.marked a t
  field : ∀ a r (o : CellObj ι τ), s.current a = some r → s.heap[r]? = some o → ∀ t, t ∈ o.reactive ↔ p.marked a t
  inUse : ∀ a t, p.marked a t → p.known a
  last : ∀ r (o : CellObj ι τ), s.byCtr s.counter = some r → s.heap[r]? = some o → p.last = some o.id
  lastNone : s.byCtr s.counter = none → p.last = none

theorem sim_init : Sim (Reg.init : Reg ι τ) Story.init where
  known a := by simp [Story.init, Reg.init]
  index a t := by simp [Story.init, Reg.init]
  field a r o h := by simp [Reg.init] at h
  inUse a t h := h.elim
  last r o h := by simp [Reg.init] at h
  lastNone _ := rfl

theorem track_reactive {s0 s' : Reg ι τ} {c1 : Int} {id : ι} {ctr : Int} {tags : Finset τ} {ph : Bool}
    (hok : track { s0 with counter := c1 } id ctr tags ph = .ok s') :
    s'.reactiveByTag = dropReactive s0.reactiveByTag (s0.prevOf id) ∧ s'.counter = c1 ∧
      s'.byCtr = if ctr > -1 then Function.update s0.byCtr ctr (some s0.heap.length) else s0.byCtr := by
  have hprevOf : (Reg.prevOf { s0 with counter := c1 } id : Option (Nat × CellObj ι τ)) = s0.prevOf id := rfl
  unfold track at hok
  rw [hprevOf] at hok
  by_cases hcr : ctr = -1 ∧ (s0.prevOf id).isSome
  · simp only [hcr, and_self, if_true, reduceCtorEq] at hok
  simp only [if_neg hcr] at hok
  injection hok with hok
  rw [← hok]
  exact ⟨rfl, rfl, rfl⟩

theorem newObj_reactive {prev : Option (Nat × CellObj ι τ)} {id : ι} {ctr : Int} {tags : Finset τ} {ph : Bool} :
    (newObj prev id ctr tags ph).reactive = ∅ := by
  unfold newObj; cases prev <;> rfl

/-- After a new version the cell has no marks; those of others stay. -/
theorem track_index {s0 s' : Reg ι τ} {p : Story ι τ} (h : Inv s0) (hs : Sim s0 p) {c1 : Int} {id : ι} {ctr : Int} {tags : Finset τ} {ph : Bool}
    (hok : track { s0 with counter := c1 } id ctr tags ph = .ok s') (a : ι) (t : τ) : a ∈ s'.reactiveByTag t ↔ a ≠ id ∧ p.marked a t := by
  rw [(track_reactive hok).1]
  unfold dropReactive
  cases hp : s0.prevOf id with
  | none =>
    have hc := (prevOf_none h).1 hp
    simp only [hs.index]
    constructor
    · intro q
      refine ⟨?_, q⟩
      rintro rfl
      have := (hs.known a).1 (hs.inUse a t q)
      rw [hc] at this; cases this
    · exact fun q => q.2
  | some x =>
    obtain ⟨q, o⟩ := x
    obtain ⟨hq, ho⟩ := prevOf_some.1 hp
    obtain ⟨o', ho', hid⟩ := h.cur id q hq
    rw [ho] at ho'; injection ho' with ho'; subst ho'
    have hf := hs.field id q o hq ho t
    simp only
    by_cases ht : t ∈ o.reactive
    · rw [if_pos ht, Finset.mem_erase, hs.index, hid]
    · rw [if_neg ht, hs.index]
      constructor
      · intro m
        refine ⟨?_, m⟩
        rintro rfl
        exact ht (hf.2 m)
      · exact fun m => m.2

theorem track_field {s0 s' : Reg ι τ} {p : Story ι τ} (h : Inv s0) (hs : Sim s0 p) {c1 : Int} {id : ι} {ctr : Int} {tags : Finset τ} {ph : Bool}
    (hctr : (ctr = -1 ∧ c1 = s0.counter ∧ s0.current id = none) ∨ (s0.counter < ctr ∧ c1 = ctr))
    (hok : track { s0 with counter := c1 } id ctr tags ph = .ok s') (a : ι) (r : Nat) (o : CellObj ι τ) (hc : s'.current a = some r) (ho : s'.heap[r]? = some o) (t : τ) :
    t ∈ o.reactive ↔ a ≠ id ∧ p.marked a t := by
  rw [(track_inv h hctr hok).2] at hc
  rw [(track_fields hok).1] at ho
  by_cases ha : a = id
  · subst ha
    rw [Function.update_self] at hc
    injection hc with hc; subst hc
    rw [List.getElem?_append_right (Nat.le_refl _)] at ho
    simp only [Nat.sub_self, List.getElem?_cons_zero, Option.some.injEq] at ho
    rw [← ho, newObj_reactive]
    simp
  · rw [Function.update_of_ne ha] at hc
    obtain ⟨o', ho', _⟩ := h.cur a r hc
    have hlt := (List.getElem?_eq_some_iff.1 ho').1
    rw [List.getElem?_append_left hlt, ho'] at ho
    injection ho with ho; subst ho
    rw [hs.field a r o' hc ho' t]
    exact ⟨fun m => ⟨ha, m⟩, fun m => m.2⟩

theorem Sim.next {s : Reg ι τ} {p : Story ι τ} (h : Inv s) (hs : Sim s p) (o : Op ι τ) (ho : HostOk s o) : Sim (next s o) (p.step o) := by
  unfold Registry.next
  cases o with
  | exec id tags v host ph =>
    simp only [step, execCell, Story.step]
    have hb := hostOk_exec ho
    obtain ⟨s', hs'⟩ := track_ok (tags := tags) (ph := ph) h (c1 := bump s.counter host v) (id := id) (.inr ⟨hb, rfl⟩)
    rw [hs']
    have ht := track_inv h (.inr ⟨hb, rfl⟩) hs'
    have hr := track_reactive hs'
    have hpos : bump s.counter host v > -1 := by have := h.nonneg; omega
    refine ⟨?_, track_index h hs hs', track_field h hs (.inr ⟨hb, rfl⟩) hs', ?_, ?_, ?_⟩
    · intro a
      rw [ht.2]
      by_cases ha : a = id
      · simp [ha]
      · simp [ha, hs.known]
    · exact fun a t m => .inr (hs.inUse a t m.2)
    · intro r o hq hro
      rw [hr.2.1, hr.2.2, if_pos hpos, Function.update_self] at hq
      injection hq with hq; subst hq
      rw [(track_fields hs').1, List.getElem?_append_right (Nat.le_refl _)] at hro
      simp only [Nat.sub_self, List.getElem?_cons_zero, Option.some.injEq] at hro
      rw [← hro, newObj_id]
    · intro hq
      rw [hr.2.1, hr.2.2, if_pos hpos, Function.update_self] at hq
      cases hq
  | untracked id =>
    simp only [step, untracked, Story.step]
    by_cases hc : (s.current id).isSome
    · rw [if_pos hc]
      refine ⟨?_, hs.index, hs.field, fun a t m => .inr (hs.inUse a t m), hs.last, hs.lastNone⟩
      intro a
      constructor
      · rintro (rfl | q)
        · exact hc
        · exact (hs.known a).1 q
      · exact fun q => .inr ((hs.known a).2 q)
    · rw [if_neg hc]
      have hc : s.current id = none := by simpa using hc
      obtain ⟨s', hs'⟩ := track_ok (tags := ∅) (ph := false) h (c1 := s.counter) (id := id) (.inl ⟨rfl, rfl, hc⟩)
      have hs'' : track s id (-1) ∅ false = .ok s' := hs'
      rw [hs'']
      have ht := track_inv h (.inl ⟨rfl, rfl, hc⟩) hs'
      have hr := track_reactive hs'
      have hno : ∀ t, ¬ p.marked id t := by
        intro t m
        have := (hs.known id).1 (hs.inUse id t m)
        rw [hc] at this; cases this
      have hiff : ∀ a t, (a ≠ id ∧ p.marked a t) ↔ p.marked a t := by
        intro a t
        refine ⟨fun q => q.2, fun q => ⟨?_, q⟩⟩
        rintro rfl
        exact hno t q
      have hby : s'.byCtr = s.byCtr := by rw [hr.2.2]; simp
      refine ⟨?_, ?_, ?_, ?_, ?_, ?_⟩
      · intro a
        rw [ht.2]
        by_cases ha : a = id
        · simp [ha]
        · simp [ha, hs.known]
      · exact fun a t => (track_index h hs hs' a t).trans (hiff a t)
      · exact fun a r o q1 q2 t => (track_field h hs (.inl ⟨rfl, rfl, hc⟩) hs' a r o q1 q2 t).trans (hiff a t)
      · exact fun a t m => .inr (hs.inUse a t m)
      · intro r o hq hro
        rw [hr.2.1, hby] at hq
        obtain ⟨o', ho', -, -⟩ := h.byCtr_obj hq
        rw [(track_fields hs').1, List.getElem?_append_left (List.getElem?_eq_some_iff.1 ho').1] at hro
        exact hs.last r o hq hro
      · intro hq
        rw [hr.2.1, hby] at hq
        exact hs.lastNone hq
  | tag cell t =>
    simp only [step, tagCell, Reg.obj, Story.step]
    cases hb : s.byCtr (cell.elim s.counter id) with
    | none => exact hs
    | some r =>
      cases hr : s.heap[r]? with
      | none => simp only [hr]; exact hs
      | some ob =>
        simp only [hr]
        refine ⟨hs.known, hs.index, ?_, hs.inUse, ?_, hs.lastNone⟩
        · intro a r' o hc hro
          simp only [Reg.setObj, List.getElem?_set] at hro
          by_cases hrr : r = r'
          · subst hrr
            simp only [if_true, (List.getElem?_eq_some_iff.1 hr).1, Option.some.injEq] at hro
            subst hro
            exact hs.field a r ob hc hr
          · rw [if_neg hrr] at hro
            exact hs.field a r' o hc hro
        · intro r' o hc hro
          simp only [Reg.setObj, List.getElem?_set] at hro
          by_cases hrr : r = r'
          · subst hrr
            simp only [if_true, (List.getElem?_eq_some_iff.1 hr).1, Option.some.injEq] at hro
            subst hro
            exact hs.last r ob hc hr
          · rw [if_neg hrr] at hro
            exact hs.last r' o hc hro
  | untag cell t =>
    simp only [step, untagCell, Reg.obj, Story.step]
    cases hb : s.byCtr (cell.elim s.counter id) with
    | none => exact hs
    | some r =>
      cases hr : s.heap[r]? with
      | none => simp only [hr]; exact hs
      | some ob =>
        simp only [hr]
        refine ⟨hs.known, hs.index, ?_, hs.inUse, ?_, hs.lastNone⟩
        · intro a r' o hc hro
          simp only [Reg.setObj, List.getElem?_set] at hro
          by_cases hrr : r = r'
          · subst hrr
            simp only [if_true, (List.getElem?_eq_some_iff.1 hr).1, Option.some.injEq] at hro
            subst hro
            exact hs.field a r ob hc hr
          · rw [if_neg hrr] at hro
            exact hs.field a r' o hc hro
        · intro r' o hc hro
          simp only [Reg.setObj, List.getElem?_set] at hro
          by_cases hrr : r = r'
          · subst hrr
            simp only [if_true, (List.getElem?_eq_some_iff.1 hr).1, Option.some.injEq] at hro
            subst hro
            exact hs.last r ob hc hr
          · rw [if_neg hrr] at hro
            exact hs.last r' o hc hro
  | reactive t =>
    simp only [step, markReactive, Reg.obj, Story.step]
    cases hb : s.byCtr s.counter with
    | none =>
      have hl := hs.lastNone hb
      have : ({ p with marked := fun a u => (p.last = some a ∧ u = t) ∨ p.marked a u } : Story ι τ) = p := by
        cases p; simp only at hl; subst hl; simp
      rw [this]; exact hs
    | some r =>
      obtain ⟨ob, hr, -, -⟩ := h.byCtr_obj hb
      have hl := hs.last r ob hb hr
      have hcur := h.last_current hb hr
      simp only [hr]
      refine ⟨hs.known, ?_, ?_, ?_, ?_, ?_⟩
      · intro a u
        rw [hl]
        simp only [Option.some.injEq]
        by_cases hu : u = t
        · subst hu
          simp only [if_true, Finset.mem_insert, hs.index, and_true]
          exact or_congr eq_comm Iff.rfl
        · simp [hu, hs.index]
      · intro a r' o hc hro u
        simp only [Reg.setObj, List.getElem?_set] at hc hro
        rw [hl]
        simp only [Option.some.injEq]
        by_cases hrr : r = r'
        · subst hrr
          simp only [if_true, (List.getElem?_eq_some_iff.1 hr).1, Option.some.injEq] at hro
          subst hro
          obtain ⟨o2, ho2, hid⟩ := h.cur a r hc
          rw [hr] at ho2; injection ho2 with ho2; subst ho2
          rw [Finset.mem_insert, hs.field a r ob hc hr u]
          simp [hid]
        · rw [if_neg hrr] at hro
          rw [hs.field a r' o hc hro u]
          have : ob.id ≠ a := by
            rintro rfl
            rw [hcur] at hc; injection hc with hc; exact hrr hc
          simp [this]
      · rintro a u (⟨q, -⟩ | q)
        · rw [hl] at q; injection q with q; subst q
          exact (hs.known _).2 (by rw [hcur]; rfl)
        · exact hs.inUse a u q
      · intro r' o hc hro
        simp only [Reg.setObj, List.getElem?_set] at hc hro
        rw [hb] at hc; injection hc with hc; subst hc
        simp only [if_true, (List.getElem?_eq_some_iff.1 hr).1, Option.some.injEq] at hro
        subst hro
        exact hl
      · intro q
        simp only [Reg.setObj] at q
        rw [hb] at q; cases q
  | rename old new =>
    show Sim (Registry.rename s old new) (p.step (.rename old new))
    cases hr : s.current old with
    | none =>
      have hk : ¬ p.known old := by rw [hs.known, hr]; simp
      have : Registry.rename s old new = s := by unfold Registry.rename; rw [hr]
      rw [this, Story.step, if_neg (fun q => hk q.1)]
      exact hs
    | some r =>
      by_cases hn : (s.current new).isSome
      · have hk : p.known new := (hs.known new).2 hn
        have : Registry.rename s old new = s := by unfold Registry.rename; rw [hr]; simp only [hn, if_true]
        rw [this, Story.step, if_neg (fun q => q.2 hk)]
        exact hs
      have hn : s.current new = none := by simpa using hn
      have hne : old ≠ new := by rintro rfl; rw [hr] at hn; simp at hn
      have hko : p.known old := (hs.known old).2 (by rw [hr]; rfl)
      have hkn : ¬ p.known new := by rw [hs.known, hn]; simp
      have hcu : (Registry.rename s old new).current = Function.update (Function.update s.current old none) new (some r) := by
        unfold Registry.rename; rw [hr]; simp [hn]
      have hre : ∀ t, (Registry.rename s old new).reactiveByTag t =
          if old ∈ s.reactiveByTag t then insert new ((s.reactiveByTag t).erase old) else s.reactiveByTag t := by
        intro t; unfold Registry.rename; rw [hr]; simp [hn]
      have hby : (Registry.rename s old new).byCtr = s.byCtr ∧ (Registry.rename s old new).counter = s.counter := by
        unfold Registry.rename; rw [hr]; simp [hn]
      have hnew : ∀ t, ¬ p.marked new t := fun t q => hkn (hs.inUse new t q)
      rw [Story.step, if_pos ⟨hko, hkn⟩]
      refine ⟨?_, ?_, ?_, ?_, ?_, ?_⟩
      · intro a
        rw [hcu]
        by_cases h1 : a = new
        · simp [h1]
        · by_cases h2 : a = old
          · subst h2; simp [h1]
          · simp [h1, h2, hs.known]
      · intro a t
        rw [hre]
        by_cases ho' : old ∈ s.reactiveByTag t
        · rw [if_pos ho', Finset.mem_insert, Finset.mem_erase, hs.index]
          by_cases h1 : a = new
          · simp [h1, (hs.index old t).1 ho']
          · simp [h1]
        · rw [if_neg ho', hs.index]
          have ho2 : ¬ p.marked old t := fun q => ho' ((hs.index old t).2 q)
          by_cases h1 : a = new
          · simp [h1, ho2, hnew]
          · by_cases h2 : a = old
            · subst h2; simp [h1, ho2]
            · simp [h1, h2]
      · intro a r' o hc hro t
        rw [hcu] at hc
        rw [h.rename_heap hr hn] at hro
        cases hi : s.heap[r']? with
        | none => rw [hi] at hro; simp at hro
        | some q =>
          rw [hi] at hro
          simp only [Option.map_some, Option.some.injEq] at hro
          have hre' : o.reactive = q.reactive := by
            rw [← hro]; by_cases hq : q.id = old <;> simp [hq]
          rw [hre']
          by_cases h1 : a = new
          · subst h1
            rw [Function.update_self] at hc
            injection hc with hc; subst hc
            simp [hs.field old r q hr hi t]
          · rw [Function.update_of_ne h1] at hc
            by_cases h2 : a = old
            · subst h2; rw [Function.update_self] at hc; cases hc
            · rw [Function.update_of_ne h2] at hc
              simp [h1, h2, hs.field a r' q hc hi t]
      · intro a t m
        by_cases h1 : a = new
        · exact .inl h1
        · simp only [h1, if_false] at m
          exact .inr ⟨m.1, hs.inUse a t m.2⟩
      · intro r' o hc hro
        rw [hby.1, hby.2] at hc
        rw [h.rename_heap hr hn] at hro
        cases hi : s.heap[r']? with
        | none => rw [hi] at hro; simp at hro
        | some q =>
          rw [hi] at hro
          simp only [Option.map_some, Option.some.injEq] at hro
          have hl := hs.last r' q hc hi
          rw [← hro, hl]
          by_cases hq : q.id = old <;> simp [hq]
      · intro hc
        rw [hby.1, hby.2] at hc
        simp [hs.lastNone hc]

theorem sim_run {ops : List (Op ι τ)} {s : Reg ι τ} {p : Story ι τ} (h : Inv s) (hs : Sim s p) (ho : HostAhead s ops) : Sim (run s ops) (story p ops) := by
  induction ops generalizing s p with
  | nil => exact hs
  | cons o ops ih =>
    obtain ⟨h1, h2⟩ := hostAhead_cons ho
    exact ih (h.next o h1) (hs.next h o h1) h2

/-- **C187**: the cells that are looked up as reactive for a tag are exactly those which were marked for it since they were last run, under the ids they have now. -/
theorem reactive_lookup_exact (ops : List (Op ι τ)) (hops : HostAhead Reg.init ops) (a : ι) (t : τ) :
    a ∈ (run Reg.init ops).reactiveByTag t ↔ (story Story.init ops).marked a t :=
  (sim_run inv_init sim_init hops).index a t

/-- A cell is marked for tag `1`, another one for tag `2`; the first is renamed, the second is run again and marked for tag `1`. -/
def markedOps : List (Op Nat Nat) :=
  [.exec 10 ∅ true 1 true, .reactive 1, .exec 20 {1} true 2 false, .reactive 2, .rename 10 30, .exec 20 ∅ true 3 false, .reactive 1, .tag (some 1) 2]

example : HostAhead Reg.init markedOps := by
  simp only [markedOps, HostAhead, HostOk]
  decide

example : (run Reg.init markedOps).reactiveByTag 1 = {20, 30} ∧ (run Reg.init markedOps).reactiveByTag 2 = ∅ := by decide

end Verif.Registry.Marks
