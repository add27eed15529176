import Verif.Hover.Lemmas
import Mathlib.Data.List.Nodup

/-!
# Sessions -/

namespace Verif.Hover

/-- Facts about every reachable notebook. -/
structure WF (w : World) : Prop where
  ids : (w.widgets.map (·.id)).Nodup
  nodes : (w.widgets.map (·.node)).Nodup
  below : ∀ v ∈ w.widgets, v.node < w.next
  madeBelow : ∀ n p, w.made n p = true → n < w.next
  litMade : ∀ n p c, w.lit n p c = true → w.made n p = true
  listMade : ∀ n p, w.made n p = false → w.listeners n p = []
  both : ∀ v ∈ w.widgets, v.code = true → ∀ p q, w.made v.node p = true → w.made v.node q = true
  ownMade : ∀ n p, ∀ l ∈ w.listeners n p, ∀ m q u c, l.act = .own m q u c → w.made m q = true
  right : ∀ n p, Right (w.listeners n p)
  held : ∀ n p, w.pointer = some (n, p) → (∃ v ∈ w.widgets, v.node = n)

theorem eq_of_id {w : World} (h : WF w) {v v' : Widget} (hv : v ∈ w.widgets) (hv' : v' ∈ w.widgets) (he : v.id = v'.id) : v = v' :=
  List.inj_on_of_nodup_map h.ids hv hv' he

theorem eq_of_node {w : World} (h : WF w) {v v' : Widget} (hv : v ∈ w.widgets) (hv' : v' ∈ w.widgets) (he : v.node = v'.node) : v = v' :=
  List.inj_on_of_nodup_map h.nodes hv hv' he

theorem reach_made {made : Nat → Part → Bool} {b p w} : ∀ {ls : List Nat} {m q c}, reach made b p w ls m q c → made m q = true
  | [], _, _, _, h => h.elim
  | _ :: ls, m, q, c, ⟨n, _, h2, h3⟩ => by
    rcases h3 with ⟨rfl, rfl, _⟩ | h3
    · exact h2
    · exact reach_made (ls := ls) h3

theorem touched_made {w : World} (h : WF w) {n p e m q c} (ht : Touched w.made e (w.listeners n p) m q c) : w.made m q = true := by
  obtain ⟨l, hl, _, ht⟩ := ht
  rcases ha : l.act with ⟨a, b, u, d⟩ | ⟨links, b, r, u, wt⟩
  · rw [ha] at ht
    obtain ⟨rfl, rfl, rfl⟩ := ht
    exact h.ownMade n p l hl _ _ _ _ ha
  · rw [ha] at ht
    exact reach_made ht

theorem fire_litMade {w : World} (h : WF w) (n p e m q c) (hl : fire w.made e (w.listeners n p) w.lit m q c = true) : w.made m q = true := by
  by_cases ht : Touched w.made e (w.listeners n p) m q c
  · exact touched_made h ht
  · rw [(fire_hit w.made e _ w.lit m q c (h.right n p)).2 ht] at hl
    exact h.litMade m q c hl

theorem any_node {ws : List Widget} {n : Nat} : (ws.any (fun v => v.node = n)) = true ↔ ∃ v ∈ ws, v.node = n := by
  simp

theorem any_id {ws : List Widget} {n : Nat} : (ws.any (fun v => v.id = n)) = true ↔ ∃ v ∈ ws, v.id = n := by
  simp

theorem wf_insert {w : World} (h : WF w) (id code) : WF (insertCell w id code) := by
  unfold insertCell
  split
  · exact h
  · rename_i hn
    rw [any_id] at hn
    have hmem : ∀ v, v ∈ w.widgets ++ [(⟨id, w.next, code⟩ : Widget)] ↔ v ∈ w.widgets ∨ v = ⟨id, w.next, code⟩ := by simp
    refine ⟨?_, ?_, ?_, ?_, h.litMade, h.listMade, ?_, h.ownMade, h.right, ?_⟩
    · dsimp only
      rw [List.map_append, List.nodup_append]
      refine ⟨h.ids, by simp, ?_⟩
      intro a ha b hb
      obtain ⟨v, hv, rfl⟩ := List.mem_map.1 ha
      simp at hb
      subst hb
      exact fun he => hn ⟨v, hv, he⟩
    · dsimp only
      rw [List.map_append, List.nodup_append]
      refine ⟨h.nodes, by simp, ?_⟩
      intro a ha b hb
      obtain ⟨v, hv, rfl⟩ := List.mem_map.1 ha
      simp at hb
      subst hb
      exact Nat.ne_of_lt (h.below v hv)
    · intro v hv
      rcases (hmem v).1 hv with hv | rfl
      · exact Nat.lt_succ_of_lt (h.below v hv)
      · exact Nat.lt_succ_self _
    · exact fun n p hm => Nat.lt_succ_of_lt (h.madeBelow n p hm)
    · intro v hv hc p q hm
      rcases (hmem v).1 hv with hv | rfl
      · exact h.both v hv hc p q hm
      · exact absurd (h.madeBelow _ _ hm) (Nat.lt_irrefl _)
    · intro n p hp
      obtain ⟨v, hv, he⟩ := h.held n p hp
      exact ⟨v, (hmem v).2 (Or.inl hv), he⟩

theorem made_render (w : World) (id n p) : (renderCell w id).made n p = true ↔
    w.made n p = true ∨ ∃ v ∈ w.widgets, v.id = id ∧ v.node = n ∧ (v.code = true ∨ p = .input) := by
  simp [renderCell, and_assoc]

theorem wf_render {w : World} (h : WF w) (id) : WF (renderCell w id) := by
  have hm : ∀ n p, w.made n p = true → (renderCell w id).made n p = true := fun n p hm => (made_render w id n p).2 (Or.inl hm)
  refine ⟨h.ids, h.nodes, h.below, ?_, ?_, ?_, ?_, ?_, h.right, h.held⟩
  · intro n p hp
    rcases (made_render w id n p).1 hp with hp | ⟨v, hv, _, rfl, _⟩
    · exact h.madeBelow n p hp
    · exact h.below v hv
  · exact fun n p c hl => hm n p (h.litMade n p c hl)
  · intro n p hp
    refine h.listMade n p ?_
    rcases hq : w.made n p with _ | _
    · rfl
    · rw [hm n p hq] at hp; exact absurd hp (by simp)
  · intro v hv hc p q hp
    rcases (made_render w id v.node p).1 hp with hp | ⟨v', hv', h1, h2, _⟩
    · exact hm _ _ (h.both v hv hc p q hp)
    · obtain rfl := eq_of_node h hv' hv h2
      exact (made_render w id _ q).2 (Or.inr ⟨_, hv', h1, rfl, Or.inl hc⟩)
  · exact fun n p l hl m q u c ha => hm m q (h.ownMade n p l hl m q u c ha)

theorem wf_delete {w : World} (h : WF w) (id) : WF (deleteCell w id) := by
  have hmem : ∀ v, v ∈ (deleteCell w id).widgets → v ∈ w.widgets := fun v hv => (List.mem_filter.1 hv).1
  refine ⟨?_, ?_, fun v hv => h.below v (hmem v hv), h.madeBelow, h.litMade, h.listMade, fun v hv => h.both v (hmem v hv), h.ownMade, h.right, ?_⟩
  · exact List.Nodup.sublist (List.Sublist.map _ List.filter_sublist) h.ids
  · exact List.Nodup.sublist (List.Sublist.map _ List.filter_sublist) h.nodes
  · intro n p hp
    rcases hw : w.pointer with _ | ⟨n', p'⟩
    · simp [deleteCell, hw] at hp
    · by_cases ha : w.widgets.any (fun v => v.id = id && v.node = n') = true
      · simp only [deleteCell, hw] at hp
        rw [if_pos ha] at hp
        simp at hp
      · simp only [deleteCell, hw] at hp
        rw [if_neg ha] at hp
        obtain ⟨rfl, rfl⟩ := Prod.mk.inj (Option.some.inj hp)
        obtain ⟨v, hv, rfl⟩ := h.held _ _ hw
        refine ⟨v, List.mem_filter.2 ⟨hv, ?_⟩, rfl⟩
        simp only [ne_eq, decide_not, Bool.not_eq_true']
        refine decide_eq_false (fun he => ha ?_)
        simp only [List.any_eq_true]
        exact ⟨v, hv, by simp [he]⟩

theorem reached_iff (w : World) (n p) : reached w n p = true ↔ (∃ v ∈ w.widgets, v.node = n) ∧ w.made n p = true := by
  unfold reached
  rw [Bool.and_eq_true_iff, any_node]

/-- After `clearCellState` no bar of a cell of the notebook has a listener. -/
theorem clear_listeners {w : World} (h : WF w) {v : Widget} (hv : v ∈ w.widgets) (p) : (clear w).listeners v.node p = [] := by
  show (if reached w v.node p = true then [] else w.listeners v.node p) = []
  by_cases hm : w.made v.node p = true
  · rw [if_pos ((reached_iff w _ _).2 ⟨⟨v, hv, rfl⟩, hm⟩)]
  · rw [if_neg (fun hr => hm ((reached_iff w _ _).1 hr).2)]
    exact h.listMade _ _ (by simpa using hm)

theorem flatMap_one {ws : List Widget} (hn : (ws.map (·.node)).Nodup) {v : Widget} (hv : v ∈ ws) (g : Widget → List Listener) :
    ws.flatMap (fun x => if x.node = v.node then g x else []) = g v := by
  induction ws with
  | nil => simp at hv
  | cons x xs ih =>
    rw [List.map_cons, List.nodup_cons] at hn
    rw [List.flatMap_cons]
    rcases List.mem_cons.1 hv with rfl | hv
    · rw [if_pos rfl]
      have : xs.flatMap (fun x => if x.node = v.node then g x else []) = [] := by
        rw [List.flatMap_eq_nil_iff]
        intro y hy
        rw [if_neg]
        exact fun he => hn.1 (List.mem_map.2 ⟨y, hy, he⟩)
      rw [this, List.append_nil]
    · rw [if_neg (fun he => hn.1 (List.mem_map.2 ⟨v, hv, he.symm⟩)), ih hn.2 hv, List.nil_append]

/-- After `updateUI` the listeners of the bars of a cell are those that were just attached. -/
theorem refresh_listeners {w : World} (h : WF w) {v : Widget} (hv : v ∈ w.widgets) (p) :
    (refresh w).listeners v.node p = attach w.data (byId w.widgets) w.made v p := by
  show (clear w).listeners v.node p ++ w.widgets.flatMap (fun x => if x.node = v.node then attach w.data (byId w.widgets) w.made x p else []) = _
  rw [clear_listeners h hv, flatMap_one h.nodes hv, List.nil_append]

theorem refresh_other {w : World} {n : Nat} (hn : ∀ v ∈ w.widgets, v.node ≠ n) (p) : (refresh w).listeners n p = w.listeners n p := by
  show (if reached w n p = true then [] else w.listeners n p)
    ++ w.widgets.flatMap (fun x => if x.node = n then attach w.data (byId w.widgets) w.made x p else []) = _
  rw [if_neg (fun hr => by obtain ⟨v, hv, he⟩ := ((reached_iff w _ _).1 hr).1; exact hn v hv he)]
  have : w.widgets.flatMap (fun x => if x.node = n then attach w.data (byId w.widgets) w.made x p else []) = [] := by
    rw [List.flatMap_eq_nil_iff]
    intro y hy
    rw [if_neg (hn y hy)]
  rw [this, List.append_nil]

theorem attach_unmade (d b) {made : Nat → Part → Bool} {v : Widget} {p : Part} (hm : made v.node p = false) : attach d b made v p = [] := by
  have h1 : stateListeners d made v p = [] := by
    unfold stateListeners ownListeners
    have : (made v.node .input && made v.node .output) = false := by
      cases p <;> simp [hm]
    simp [this]
  have h2 : waiterListeners d b made v p = [] := by
    unfold waiterListeners
    rcases d.waiters v.id with _ | ls <;> simp [hm]
  have h3 : makerListeners d b made v p = [] := by
    unfold makerListeners
    rcases d.makers v.id with _ | ls
    · rfl
    · dsimp only
      rw [if_neg]
      rintro ⟨rfl, h⟩
      rw [hm] at h
      exact absurd h (by simp)
  unfold attach
  simp [h1, h2, h3]

theorem attach_own {d b} {made : Nat → Part → Bool} {v : Widget} {p : Part} {l : Listener} (hl : l ∈ attach d b made v p) {m q u c}
    (ha : l.act = .own m q u c) : made m q = true := by
  unfold attach at hl
  split at hl
  · rcases List.mem_append.1 hl with hl | hl
    · have key : ∀ k, l ∈ ownListeners made v.node k p → made m q = true := by
        intro k hk
        unfold ownListeners at hk
        split at hk
        · rename_i hb
          have hb := Bool.and_eq_true_iff.1 hb
          cases p <;> simp at hk <;> rcases hk with rfl | rfl <;> cases ha <;> first | exact hb.1 | exact hb.2
        · simp at hk
      unfold stateListeners at hl
      split at hl
      · exact key _ hl
      · split at hl
        · exact key _ hl
        · simp at hl
    · split at hl
      · simp at hl
      · rcases List.mem_append.1 hl with hl | hl
        · unfold waiterListeners at hl
          split at hl
          · simp at hl
          · split at hl
            · simp at hl; rcases hl with rfl | rfl <;> cases ha
            · simp at hl
        · unfold makerListeners at hl
          split at hl
          · simp at hl
          · split at hl
            · simp at hl; rcases hl with rfl | rfl | rfl | rfl <;> cases ha
            · simp at hl
  · simp at hl

theorem refresh_lit (w : World) {n p c} (h : (refresh w).lit n p c = true) : reached w n p = false ∧ w.lit n p c = true := by
  have h : (if reached w n p = true then false else w.lit n p c) = true := h
  rcases hr : reached w n p with _ | _
  · rw [hr] at h; exact ⟨rfl, h⟩
  · rw [hr] at h; simp at h

theorem wf_refresh {w : World} (h : WF w) : WF (refresh w) := by
  refine ⟨h.ids, h.nodes, h.below, h.madeBelow, ?_, ?_, h.both, ?_, ?_, h.held⟩
  · exact fun n p c hl => h.litMade n p c (refresh_lit w hl).2
  · intro n p hm
    by_cases hn : ∃ v ∈ w.widgets, v.node = n
    · obtain ⟨v, hv, rfl⟩ := hn
      rw [refresh_listeners h hv]
      exact attach_unmade _ _ hm
    · rw [refresh_other (fun v hv he => hn ⟨v, hv, he⟩)]
      exact h.listMade n p hm
  · intro n p l hl m q u c ha
    by_cases hn : ∃ v ∈ w.widgets, v.node = n
    · obtain ⟨v, hv, rfl⟩ := hn
      rw [refresh_listeners h hv] at hl
      exact attach_own hl ha
    · rw [refresh_other (fun v hv he => hn ⟨v, hv, he⟩)] at hl
      exact h.ownMade n p l hl m q u c ha
  · intro n p
    by_cases hn : ∃ v ∈ w.widgets, v.node = n
    · obtain ⟨v, hv, rfl⟩ := hn
      rw [refresh_listeners h hv]
      exact attach_right _ _ _ _ _
    · rw [refresh_other (fun v hv he => hn ⟨v, hv, he⟩)]
      exact h.right n p

theorem wf_data {w : World} (h : WF w) (d) : WF { w with data := d } :=
  ⟨h.ids, h.nodes, h.below, h.madeBelow, h.litMade, h.listMade, h.both, h.ownMade, h.right, h.held⟩

theorem find_id {ws : List Widget} {i : Nat} {v : Widget} (h : ws.find? (fun v => v.id = i) = some v) : v ∈ ws ∧ v.id = i :=
  ⟨List.mem_of_find?_eq_some h, by simpa using List.find?_some h⟩

/-- Either pointing is not possible and nothing changes, or the listeners of the bar are called. -/
theorem pointAt_cases (w : World) (i p) : pointAt w i p = w ∨
    ∃ v ∈ w.widgets, v.id = i ∧ w.pointer = none ∧ w.made v.node p = true ∧
      pointAt w i p = { w with pointer := some (v.node, p), lit := fire w.made .over (w.listeners v.node p) w.lit } := by
  unfold pointAt
  rcases hp : w.pointer with _ | a
  · dsimp only
    split
    · exact Or.inl rfl
    · rename_i v hf
      by_cases hm : w.made v.node p = true
      · rw [if_pos hm]
        exact Or.inr ⟨v, (find_id hf).1, (find_id hf).2, rfl, hm, rfl⟩
      · rw [if_neg hm]; exact Or.inl rfl
  · exact Or.inl rfl

theorem pointAt_can {w : World} (h : WF w) {v : Widget} (hv : v ∈ w.widgets) {p} (hp : w.pointer = none) (hm : w.made v.node p = true) :
    pointAt w v.id p = { w with pointer := some (v.node, p), lit := fire w.made .over (w.listeners v.node p) w.lit } := by
  unfold pointAt
  rw [hp]
  dsimp only
  split
  · rename_i hf
    rw [List.find?_eq_none] at hf
    exact absurd (by simp) (hf v hv)
  · rename_i v' hf
    obtain rfl := eq_of_id h (find_id hf).1 hv (find_id hf).2
    rw [if_pos hm]

theorem wf_pointAt {w : World} (h : WF w) (i p) : WF (pointAt w i p) := by
  rcases pointAt_cases w i p with he | ⟨v, hv, _, _, _, he⟩
  · rw [he]; exact h
  · rw [he]
    refine ⟨h.ids, h.nodes, h.below, h.madeBelow, ?_, h.listMade, h.both, h.ownMade, h.right, ?_⟩
    · exact fun n q c hl => fire_litMade h _ _ _ _ _ _ hl
    · intro n q hq
      obtain ⟨rfl, rfl⟩ := Prod.mk.inj (Option.some.inj hq)
      exact ⟨v, hv, rfl⟩

theorem wf_leave {w : World} (h : WF w) : WF (leave w) := by
  unfold leave
  rcases hp : w.pointer with _ | ⟨n, p⟩
  · exact h
  · refine ⟨h.ids, h.nodes, h.below, h.madeBelow, ?_, h.listMade, h.both, h.ownMade, h.right, fun n q hq => by simp at hq⟩
    exact fun n q c hl => fire_litMade h _ _ _ _ _ _ hl

theorem wf_run : ∀ h, WF (run h)
  | [] => by
    refine ⟨by simp [run, World.init], by simp [run, World.init], ?_, ?_, ?_, ?_, ?_, ?_, ?_, ?_⟩ <;> simp [run, World.init, Right]
  | .insert id code :: h => wf_insert (wf_run h) id code
  | .render id :: h => wf_render (wf_run h) id
  | .delete id :: h => wf_delete (wf_run h) id
  | .schedule d r :: h => by
    show WF (if r then refresh { run h with data := d } else { run h with data := d })
    split
    · exact wf_refresh (wf_data (wf_run h) d)
    · exact wf_data (wf_run h) d
  | .select :: h => wf_refresh (wf_run h)
  | .over i p :: h => wf_pointAt (wf_run h) i p
  | .out :: h => wf_leave (wf_run h)

/-- What has stayed since the last refresh. -/
structure Since (r w : World) : Prop where
  next : r.next ≤ w.next
  made : ∀ n p, r.made n p = true → w.made n p = true
  old : ∀ v ∈ w.widgets, v.node < r.next → v ∈ r.widgets
  heard : ∀ v ∈ w.widgets, v ∈ r.widgets → ∀ p, w.listeners v.node p = attach r.data (byId r.widgets) r.made v p
  silent : ∀ v ∈ w.widgets, v ∉ r.widgets → ∀ p, w.listeners v.node p = []

theorem since_refresh {w : World} (h : WF w) : Since (refresh w) (refresh w) :=
  ⟨Nat.le_refl _, fun _ _ h => h, fun _ h _ => h, fun _ hv _ p => refresh_listeners h hv p, fun _ hv hn => absurd hv hn⟩

theorem since_insert {r w : World} (h : WF w) (hr : WF r) (hs : Since r w) (id code) : Since r (insertCell w id code) := by
  unfold insertCell
  split
  · exact hs
  · have hmem : ∀ v, v ∈ w.widgets ++ [(⟨id, w.next, code⟩ : Widget)] ↔ v ∈ w.widgets ∨ v = ⟨id, w.next, code⟩ := by simp
    have hnew : (⟨id, w.next, code⟩ : Widget) ∉ r.widgets := fun hm => by
      have := hr.below _ hm
      have := hs.next
      dsimp only at *
      omega
    refine ⟨Nat.le_succ_of_le hs.next, hs.made, ?_, ?_, ?_⟩
    · intro v hv hl
      rcases (hmem v).1 hv with hv | rfl
      · exact hs.old v hv hl
      · exact absurd hl (Nat.not_lt.2 hs.next)
    · intro v hv hm p
      rcases (hmem v).1 hv with hv | rfl
      · exact hs.heard v hv hm p
      · exact absurd hm hnew
    · intro v hv hm p
      rcases (hmem v).1 hv with hv | rfl
      · exact hs.silent v hv hm p
      · refine h.listMade _ _ ?_
        rcases hq : w.made w.next p with _ | _
        · rfl
        · exact absurd (h.madeBelow _ _ hq) (Nat.lt_irrefl _)

theorem refreshes_schedule (d r) : Refreshes (.schedule d r) ↔ r = true := Iff.rfl

theorem since_run : ∀ h, Since (run (upToRefresh h)) (run h)
  | [] => ⟨Nat.le_refl _, fun _ _ h => h, fun _ h _ => h, fun v hv => by simp [run, World.init] at hv, fun v hv => by simp [run, World.init] at hv⟩
  | .insert id code :: h => by
    rw [upToRefresh, if_neg (fun h => h.elim)]
    exact since_insert (wf_run h) (wf_run _) (since_run h) id code
  | .render id :: h => by
    rw [upToRefresh, if_neg (fun h => h.elim)]
    have hs := since_run h
    exact ⟨hs.next, fun n p hm => (made_render _ _ _ _).2 (Or.inl (hs.made n p hm)), hs.old, hs.heard, hs.silent⟩
  | .delete id :: h => by
    rw [upToRefresh, if_neg (fun h => h.elim)]
    have hs := since_run h
    have hmem : ∀ v, v ∈ (deleteCell (run h) id).widgets → v ∈ (run h).widgets := fun v hv => (List.mem_filter.1 hv).1
    exact ⟨hs.next, hs.made, fun v hv => hs.old v (hmem v hv), fun v hv => hs.heard v (hmem v hv), fun v hv => hs.silent v (hmem v hv)⟩
  | .schedule d r :: h => by
    rw [upToRefresh]
    rcases r with _ | _
    · rw [if_neg (by rw [refreshes_schedule]; simp)]
      have hs := since_run h
      exact ⟨hs.next, hs.made, hs.old, hs.heard, hs.silent⟩
    · rw [if_pos ((refreshes_schedule _ _).2 rfl)]
      exact since_refresh (wf_data (wf_run h) d)
  | .select :: h => by
    rw [upToRefresh, if_pos (show Refreshes .select from True.intro)]
    exact since_refresh (wf_run h)
  | .over i p :: h => by
    rw [upToRefresh, if_neg (fun h => h.elim)]
    have hs := since_run h
    show Since _ (pointAt (run h) i p)
    rcases pointAt_cases (run h) i p with he | ⟨v, hv, _, _, _, he⟩
    · rw [he]; exact hs
    · rw [he]; exact ⟨hs.next, hs.made, hs.old, hs.heard, hs.silent⟩
  | .out :: h => by
    rw [upToRefresh, if_neg (fun h => h.elim)]
    have hs := since_run h
    show Since _ (leave (run h))
    unfold leave
    rcases (run h).pointer with _ | ⟨n, p⟩
    · exact hs
    · exact ⟨hs.next, hs.made, hs.old, hs.heard, hs.silent⟩

/-- The listeners of a bar light and darken the same bars. -/
theorem both_events {h : List Event} {v : Widget} (hv : v ∈ (run h).widgets) {made p e e' m q c}
    (ht : Touched made e ((run h).listeners v.node p) m q c) : Touched made e' ((run h).listeners v.node p) m q c := by
  have hs := since_run h
  by_cases hm : v ∈ (run (upToRefresh h)).widgets
  · rw [hs.heard v hv hm] at ht ⊢
    exact (attach_both _ _ _ _ _ _ _ _ _ _ _).1 ht
  · rw [hs.silent v hv hm] at ht
    exact absurd ht Touched_nil

/-- Bars of cells are only lit while the pointer is on a bar that will darken them. -/
def Dark (w : World) : Prop :=
  ∀ v ∈ w.widgets, ∀ q c, w.lit v.node q c = true → ∃ n p, w.pointer = some (n, p) ∧ Touched w.made .out (w.listeners n p) v.node q c

theorem dark_refresh {w : World} (h : WF w) : Dark (refresh w) := by
  intro v hv q c hl
  obtain ⟨h1, h2⟩ := refresh_lit w hl
  rw [(reached_iff w _ _).2 ⟨⟨v, hv, rfl⟩, h.litMade _ _ _ h2⟩] at h1
  exact absurd h1 (by simp)

theorem dark_run : ∀ h, Undisturbed h → Dark (run h)
  | [], _ => fun v hv => by simp [run, World.init] at hv
  | .insert id code :: h, hu => by
    have ih := dark_run h hu
    have hw := wf_run h
    show Dark (insertCell (run h) id code)
    unfold insertCell
    split
    · exact ih
    · intro v hv q c hl
      rcases List.mem_append.1 hv with hv | hv
      · exact ih v hv q c hl
      · simp at hv
        subst hv
        exact absurd (hw.madeBelow _ _ (hw.litMade _ _ _ hl)) (Nat.lt_irrefl _)
  | .render id :: h, hu => by
    intro v hv q c hl
    obtain ⟨n, p, h1, h2⟩ := dark_run h hu v hv q c hl
    exact ⟨n, p, h1, Touched_mono (fun n p hm => (made_render _ _ _ _).2 (Or.inl hm)) h2⟩
  | .delete id :: h, hu => by
    intro v hv q c hl
    obtain ⟨n, p, h1, h2⟩ := dark_run h hu.2 v (List.mem_filter.1 hv).1 q c hl
    refine ⟨n, p, ?_, h2⟩
    show (match (run h).pointer with
      | some (n, p) => if (run h).widgets.any (fun v => v.id = id && v.node = n) then none else some (n, p)
      | none => none) = _
    rw [h1]
    dsimp only
    rw [if_neg]
    intro ha
    simp only [List.any_eq_true, Bool.and_eq_true_iff, decide_eq_true_eq] at ha
    obtain ⟨v, hv, h3, rfl⟩ := ha
    exact hu.1 ⟨v, hv, h3, p, h1⟩
  | .schedule d r :: h, hu => by
    rcases r with _ | _
    · exact dark_run h (hu.resolve_left (by simp))
    · exact dark_refresh (wf_data (wf_run h) d)
  | .select :: h, _ => dark_refresh (wf_run h)
  | .over i p :: h, hu => by
    have ih := dark_run h hu
    have hw := wf_run h
    show Dark (pointAt (run h) i p)
    rcases pointAt_cases (run h) i p with he | ⟨v, hv, _, hp, _, he⟩
    · rw [he]; exact ih
    · rw [he]
      intro v' hv' q c hl
      refine ⟨_, _, rfl, ?_⟩
      by_cases ht : Touched (run h).made .over ((run h).listeners v.node p) v'.node q c
      · exact both_events hv ht
      · have hl : fire (run h).made .over ((run h).listeners v.node p) (run h).lit v'.node q c = true := hl
        rw [(fire_hit _ _ _ _ _ _ _ (hw.right v.node p)).2 ht] at hl
        obtain ⟨_, _, h1, _⟩ := ih v' hv' q c hl
        rw [hp] at h1
        exact absurd h1 (by simp)
  | .out :: h, hu => by
    have ih := dark_run h hu
    have hw := wf_run h
    show Dark (leave (run h))
    unfold leave
    rcases hp : (run h).pointer with _ | ⟨n, p⟩
    · exact ih
    · intro v' hv' q c hl
      have hl : fire (run h).made .out ((run h).listeners n p) (run h).lit v'.node q c = true := hl
      by_cases ht : Touched (run h).made .out ((run h).listeners n p) v'.node q c
      · rw [(fire_hit _ _ _ _ _ _ _ (hw.right n p)).1 ht] at hl
        exact absurd hl (by decide)
      · rw [(fire_hit _ _ _ _ _ _ _ (hw.right n p)).2 ht] at hl
        obtain ⟨n', p', h1, h2⟩ := ih v' hv' q c hl
        rw [hp] at h1
        obtain ⟨rfl, rfl⟩ := Prod.mk.inj (Option.some.inj h1)
        exact absurd h2 ht

end Verif.Hover
