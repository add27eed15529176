import Verif.Frames.Spec
import Mathlib.Data.List.Basic

/-! # C105, C106: which frame events are attributed to, and what results of calls depend on -/

set_option linter.unusedSectionVars false

namespace Verif.Frames

variable {G F N R D : Type} [DecidableEq F] [DecidableEq N] [DecidableEq R]

/-- What identifies a frame in the state of the tracer. -/
def Entry.key (e : Entry G N) : G × Nat := (e.frame, e.depth)

/-- What identifies a frame. -/
def Frame.key (f : Frame G N) : G × Nat := (f.frame, f.depth)

theorem popTo_small (len : Nat) (cur : Entry G N) (s : List (Entry G N)) (h : s.length ≤ len) : popTo len cur s = (cur, s) := by
  cases s with
  | nil => rfl
  | cons e rest =>
    rw [popTo, if_neg]
    simpa using h

theorem popTo_append (a : List (Entry G N)) (e : Entry G N) (b : List (Entry G N)) :
    ∀ cur : Entry G N, popTo b.length cur (a ++ e :: b) = ({ e with site := none }, b) := by
  induction a with
  | nil =>
    intro cur
    rw [List.nil_append, popTo, if_pos (by omega), popTo_small _ _ _ (le_refl _)]
  | cons x a ih =>
    intro cur
    rw [List.cons_append, popTo, if_pos]
    · exact ih _
    · rw [List.length_append, List.length_cons]
      omega

/-- The state of the tracer and the frames that are seen. -/
structure Inv (w : World G F N R D) : Prop where
  /-- frames lie above each other -/
  sorted : (w.top :: w.below).Pairwise fun a b => b.depth ≤ a.depth
  /-- strictly so if they are seen -/
  strict : (seen w).Pairwise fun a b => b.depth < a.depth
  bottom : ∃ b, (w.top :: w.below).getLast? = some b ∧ b.seen = true
  pos : ∀ f ∈ w.top :: w.below, 1 ≤ f.depth
  /-- the tracer has at least the frames that are seen -/
  keys : (seen w).map Frame.key <:+ (w.st.cur :: w.st.stack).map Entry.key
  sites : (seen w).dropLast.map Frame.site <:+ w.st.stack.map Entry.site
  decr : (w.st.cur :: w.st.stack).Pairwise fun a b => b.depth < a.depth
  /-- if tracing is on, just those -/
  exact : w.st.enabled = true → (seen w).length = w.st.stack.length + 1
  /-- if not, it was turned off in one of those or above -/
  off : w.st.enabled = false → ∀ f ∈ seen w, f.depth ≤ w.st.disabledAt

theorem seen_ne {w : World G F N R D} (h : Inv w) : seen w ≠ [] := by
  obtain ⟨b, hb, hs⟩ := h.bottom
  intro hn
  have : b ∈ seen w := List.mem_filter.2 ⟨List.mem_of_getLast? hb, hs⟩
  rw [hn] at this
  cases this

theorem seen_le {w : World G F N R D} (h : Inv w) : ∀ f ∈ seen w, f.depth ≤ w.top.depth := by
  intro f hf
  have hf := (List.mem_filter.1 hf).1
  rcases List.mem_cons.1 hf with rfl | hf
  · exact le_refl _
  · exact (List.pairwise_cons.1 h.sorted).1 f hf

theorem seen_cons {w : World G F N R D} (h : w.top.seen = true) : seen w = w.top :: w.below.filter Frame.seen := by
  unfold seen
  rw [List.filter_cons_of_pos h]

theorem seen_skip {w : World G F N R D} (h : w.top.seen = false) : seen w = w.below.filter Frame.seen := by
  unfold seen
  rw [List.filter_cons_of_neg (by simp [h])]

theorem inv_start (g : G) : Inv (start g : World G F N R D) where
  sorted := by simp [start]
  strict := by simp [start, seen]
  bottom := ⟨_, rfl, rfl⟩
  pos := by simp [start]
  keys := by simp [start, seen, Frame.key, Entry.key]
  sites := by simp [start, seen]
  decr := by simp [start]
  exact := by simp [start, seen]
  off := by simp [start]

/-- Only the tracer is changed, and it is turned off. -/
theorem inv_disable {w : World G F N R D} (h : Inv w) (d : Nat) (hd : w.top.depth ≤ d) : Inv { w with st := disable d w.st } where
  sorted := h.sorted
  strict := h.strict
  bottom := h.bottom
  pos := h.pos
  keys := h.keys
  sites := h.sites
  decr := h.decr
  exact := fun he => by cases he
  off := by
    intro _ f hf
    show f.depth ≤ if w.st.enabled then d else w.st.disabledAt
    by_cases he : w.st.enabled = true
    · rw [if_pos he]
      exact le_trans (seen_le h f hf) hd
    · rw [if_neg he]
      exact h.off (by simpa using he) f hf

/-- A frame that is not seen is entered. -/
theorem inv_unseen {w : World G F N R D} (h : Inv w) {f : Frame G N} (hf : f.seen = false) (hd : w.top.depth ≤ f.depth) :
    Inv { top := f, below := w.top :: w.below, st := w.st } := by
  have hs : seen (G := G) { top := f, below := w.top :: w.below, st := w.st } = seen w := by
    rw [seen_skip (by exact hf)]; rfl
  refine ⟨?_, by rw [hs]; exact h.strict, ?_, ?_, by rw [hs]; exact h.keys, by rw [hs]; exact h.sites, h.decr, by rw [hs]; exact h.exact, by rw [hs]; exact h.off⟩
  · refine List.pairwise_cons.2 ⟨?_, h.sorted⟩
    intro b hb
    rcases List.mem_cons.1 hb with rfl | hb
    · exact hd
    · exact le_trans ((List.pairwise_cons.1 h.sorted).1 b hb) hd
  · obtain ⟨b, hb, hbs⟩ := h.bottom
    exact ⟨b, by rw [List.getLast?_cons_cons]; exact hb, hbs⟩
  · intro x hx
    rcases List.mem_cons.1 hx with rfl | hx
    · exact le_trans (h.pos _ List.mem_cons_self) hd
    · exact h.pos x hx

/-- The tracer pushes a frame. -/
theorem inv_push {w : World G F N R D} (h : Inv w) (he : w.st.enabled = true) (g : G) (n : N) (d : Nat) (hd : w.top.depth < d) :
    Inv { top := { frame := g, depth := d, seen := true, site := some n }, below := w.top :: w.below, st := push g d n w.st } := by
  have hs : seen (G := G) { top := { frame := g, depth := d, seen := true, site := some n }, below := w.top :: w.below, st := push g d n w.st } =
      { frame := g, depth := d, seen := true, site := some n } :: seen w := by
    rw [seen_cons (by rfl)]; rfl
  have hd1 : max d 1 = d := by omega
  have hex := h.exact he
  have hkeq : (seen w).map Frame.key = (w.st.cur :: w.st.stack).map Entry.key := h.keys.eq_of_length (by simp [hex])
  refine ⟨?_, ?_, ?_, ?_, ?_, ?_, ?_, ?_, ?_⟩
  · refine List.pairwise_cons.2 ⟨?_, h.sorted⟩
    intro b hb
    rcases List.mem_cons.1 hb with rfl | hb
    · exact le_of_lt hd
    · exact le_trans ((List.pairwise_cons.1 h.sorted).1 b hb) (le_of_lt hd)
  · rw [hs]
    exact List.pairwise_cons.2 ⟨fun b hb => lt_of_le_of_lt (seen_le h b hb) hd, h.strict⟩
  · obtain ⟨b, hb, hbs⟩ := h.bottom
    exact ⟨b, by rw [List.getLast?_cons_cons]; exact hb, hbs⟩
  · intro x hx
    rcases List.mem_cons.1 hx with rfl | hx
    · show 1 ≤ d
      omega
    · exact h.pos x hx
  · rw [hs]
    have : ((push g d n w.st).cur :: (push g d n w.st).stack).map Entry.key = (g, d) :: (w.st.cur :: w.st.stack).map Entry.key := by
      simp [push, Entry.key, hd1]
    rw [this, List.map_cons, hkeq]
    exact List.suffix_refl _
  · rw [hs]
    obtain ⟨x, l, hxl⟩ : ∃ x l, seen w = x :: l := List.exists_cons_of_ne_nil (seen_ne h)
    have hsit : (seen w).dropLast.map Frame.site = w.st.stack.map Entry.site := h.sites.eq_of_length (by simp [hex])
    have : (push g d n w.st).stack.map Entry.site = some n :: w.st.stack.map Entry.site := rfl
    rw [this, ← hsit, hxl, List.dropLast_cons_cons, List.map_cons]
  · show ({ frame := g, depth := max d 1, site := none } :: { w.st.cur with site := some n } :: w.st.stack : List (Entry G N)).Pairwise _
    have hall : ∀ b ∈ w.st.cur :: w.st.stack, b.depth < d := by
      intro b hb
      have : b.key ∈ (seen w).map Frame.key := hkeq ▸ List.mem_map_of_mem hb
      obtain ⟨f, hf, hk⟩ := List.mem_map.1 this
      have : f.depth = b.depth := congrArg Prod.snd hk
      exact this ▸ lt_of_le_of_lt (seen_le h f hf) hd
    refine List.pairwise_cons.2 ⟨?_, List.pairwise_cons.2 (List.pairwise_cons.1 h.decr)⟩
    intro b hb
    show b.depth < max d 1
    rw [hd1]
    rcases List.mem_cons.1 hb with rfl | hb
    · exact hall w.st.cur List.mem_cons_self
    · exact hall b (List.mem_cons_of_mem _ hb)
  · intro _
    rw [hs, List.length_cons, hex]
    rfl
  · intro hf
    exact absurd (show w.st.enabled = false from hf) (by simp [he])

theorem inv_last {w : World G F N R D} (h : Inv w) (l : List (F × N)) : Inv { w with st := { w.st with last := l } } :=
  ⟨h.sorted, h.strict, h.bottom, h.pos, h.keys, h.sites, h.decr, h.exact, h.off⟩

theorem inv_call {w : World G F N R D} (h : Inv w) (g : G) (f : F) (n : N) (d : Nat) (deep : Bool) (hd : w.top.depth < d) :
    Inv (act w (.call g f n d deep)) := by
  show Inv { top := _, below := w.top :: w.below, st := call g f n d deep w.st }
  unfold call
  by_cases he : w.st.enabled = true
  · rw [if_pos he]
    by_cases ha : again f n w.st = true
    · rw [if_pos ha]
      exact inv_unseen (w := { w with st := disable d w.st }) (inv_disable h d (le_of_lt hd)) rfl (le_of_lt hd)
    · rw [if_neg ha]
      have h' := inv_last h ((f, n) :: w.st.last)
      cases deep with
      | true =>
        rw [if_pos rfl]
        exact inv_unseen (w := { w with st := disable d { w.st with last := (f, n) :: w.st.last } }) (inv_disable h' d (le_of_lt hd)) rfl (le_of_lt hd)
      | false =>
        rw [if_neg (by decide)]
        have := inv_push h' he g n d hd
        have hen : (push g d n { w.st with last := (f, n) :: w.st.last }).enabled = true := he
        rw [hen]
        exact this
  · rw [if_neg he]
    exact inv_unseen (w := w) h (by simpa using he) (le_of_lt hd)

theorem result_fields (ret : Option (R × List D)) (n : Option N) (st : St G F N R D) :
    (result ret n st).enabled = st.enabled ∧ (result ret n st).disabledAt = st.disabledAt := by
  unfold result
  split
  · split <;> exact ⟨rfl, rfl⟩
  · exact ⟨rfl, rfl⟩

theorem inv_leave {w : World G F N R D} (h : Inv w) (ret : Option (R × List D)) (hb : w.below ≠ []) : Inv (act w (.leave ret)) := by
  obtain ⟨top, below, st⟩ := w
  cases below with
  | nil => exact absurd rfl hb
  | cons f rest =>
    show Inv { top := f, below := rest, st := if top.seen then leave top.depth ret st else st }
    have hsorted : (f :: rest).Pairwise fun a b => b.depth ≤ a.depth := (List.pairwise_cons.1 h.sorted).2
    have hbottom : ∃ b, (f :: rest).getLast? = some b ∧ b.seen = true := by
      obtain ⟨b, hb, hs⟩ := h.bottom
      exact ⟨b, by rw [List.getLast?_cons_cons] at hb; exact hb, hs⟩
    have hpos : ∀ x ∈ f :: rest, 1 ≤ x.depth := fun x hx => h.pos x (List.mem_cons_of_mem _ hx)
    cases hs : top.seen with
    | false =>
      have hse : seen (G := G) { top := top, below := f :: rest, st := st } = (f :: rest).filter Frame.seen := seen_skip hs
      have h2 := h.strict; have h5 := h.keys; have h6 := h.sites; have h8 := h.exact; have h9 := h.off
      rw [hse] at h2 h5 h6 h8 h9
      exact ⟨hsorted, h2, hbottom, hpos, h5, h6, h.decr, h8, h9⟩
    | true =>
      rw [if_pos rfl]
      have hse : seen (G := G) { top := top, below := f :: rest, st := st } = top :: (f :: rest).filter Frame.seen := seen_cons hs
      have h2 := h.strict; have h5 := h.keys; have h6 := h.sites; have h8 := h.exact; have h9 := h.off
      rw [hse] at h2 h5 h6 h8 h9
      obtain ⟨x, l, hxl⟩ : ∃ x l, (f :: rest).filter Frame.seen = x :: l := by
        refine List.exists_cons_of_ne_nil ?_
        obtain ⟨b, hb, hbs⟩ := hbottom
        intro hn
        have : b ∈ (f :: rest).filter Frame.seen := List.mem_filter.2 ⟨List.mem_of_getLast? hb, hbs⟩
        rw [hn] at this
        cases this
      have h2' : ((f :: rest).filter Frame.seen).Pairwise fun a b => b.depth < a.depth := (List.pairwise_cons.1 h2).2
      unfold leave
      by_cases he : st.enabled = true
      · rw [if_pos he]
        have hlen : (top :: (f :: rest).filter Frame.seen).length = st.stack.length + 1 := h8 he
        cases hst : st.stack with
        | nil =>
          rw [hxl, hst] at hlen
          simp at hlen
        | cons e tl =>
          have hkeq := h5.eq_of_length (by rw [List.length_map, hlen, List.length_map]; rfl)
          have hsit := h6.eq_of_length (by rw [List.length_map, List.length_dropLast, hlen, List.length_map]; rfl)
          rw [hst] at hkeq hsit hlen
          rw [List.map_cons, List.map_cons] at hkeq
          have hk := (List.cons.inj hkeq).2
          rw [hxl, List.dropLast_cons_cons, List.map_cons, List.map_cons] at hsit
          have hsi := (List.cons.inj hsit).2
          have hd := h.decr
          rw [show (World.st (G := G) { top := top, below := f :: rest, st := st }) = st from rfl, hst] at hd
          refine ⟨hsorted, h2', hbottom, hpos, ?_, ?_, ?_, ?_, ?_⟩
          · show ((f :: rest).filter Frame.seen).map Frame.key <:+ ({ e with site := none } :: tl).map Entry.key
            rw [hk]
            exact List.suffix_refl _
          · show ((f :: rest).filter Frame.seen).dropLast.map Frame.site <:+ tl.map Entry.site
            rw [hxl, hsi]
          · exact List.pairwise_cons.2 (List.pairwise_cons.1 (List.pairwise_cons.1 hd).2)
          · intro _
            show ((f :: rest).filter Frame.seen).length = tl.length + 1
            simpa using hlen
          · intro hf
            have : (result ret e.site st).enabled = false := hf
            rw [(result_fields ret e.site st).1, he] at this
            cases this
      · rw [if_neg he]
        refine ⟨hsorted, h2', hbottom, hpos, ?_, ?_, h.decr, fun he' => absurd he' he, fun hf g hg => h9 hf g (List.mem_cons_of_mem _ hg)⟩
        · rw [List.map_cons] at h5
          exact (List.suffix_cons _ _).trans h5
        · rw [hxl, List.dropLast_cons_cons, List.map_cons] at h6
          show ((f :: rest).filter Frame.seen).dropLast.map Frame.site <:+ st.stack.map Entry.site
          rw [hxl]
          exact (List.suffix_cons _ _).trans h6

/-- Where to go back to. -/
theorem lengthFor_seen {w : World G F N R D} (h : Inv w) (hs : w.top.seen = true) (he : w.st.enabled = false) :
    lengthFor w.top.depth false w.st = some ((seen w).length - 1) := by
  have hle : w.top.depth ≤ w.st.disabledAt := h.off he w.top (by rw [seen_cons hs]; exact List.mem_cons_self)
  unfold lengthFor
  rw [if_neg (by omega), if_neg (by decide)]
  have hc := seen_cons hs
  obtain ⟨p, hp⟩ := h.keys
  rw [hc, List.map_cons] at hp
  cases p with
  | nil =>
    rw [List.nil_append, List.map_cons] at hp
    have hp1 := (List.cons.inj hp).1
    have hp2 := (List.cons.inj hp).2
    have hcur : w.top.depth = w.st.cur.depth := congrArg Prod.snd hp1
    have hnone : (w.st.stack.reverse.map Entry.depth).findIdx? (fun d => decide (w.top.depth ≤ d)) = none := by
      rw [List.findIdx?_eq_none_iff]
      intro d hd
      obtain ⟨e, hem, rfl⟩ := List.mem_map.1 hd
      have := (List.pairwise_cons.1 h.decr).1 e (List.mem_reverse.1 hem)
      simp
      omega
    rw [hnone]
    show (if w.top.depth ≤ w.st.cur.depth then _ else _) = _
    rw [if_pos (by omega), hc]
    have := congrArg List.length hp2
    simp only [List.length_map] at this
    simp [this]
  | cons k p =>
    rw [List.cons_append, List.map_cons] at hp
    have hp2 := (List.cons.inj hp).2
    -- the stack splits
    obtain ⟨a, b', hst, ha, hb'⟩ := List.map_eq_append_iff.1 hp2.symm
    obtain ⟨e, b, rfl, hek, hbk⟩ := List.map_eq_cons_iff.1 hb'
    have hde : e.depth = w.top.depth := congrArg Prod.snd hek
    have hdecr := h.decr
    rw [hst] at hdecr
    have hdb : ∀ x ∈ b, x.depth < e.depth := by
      have := (List.pairwise_cons.1 hdecr).2
      have := (List.pairwise_append.1 this).2.1
      exact (List.pairwise_cons.1 this).1
    have hidx : (w.st.stack.reverse.map Entry.depth).findIdx? (fun d => decide (w.top.depth ≤ d)) = some b.length := by
      rw [hst, List.reverse_append, List.reverse_cons, List.append_assoc, List.map_append, List.findIdx?_append]
      have hnone : (b.reverse.map Entry.depth).findIdx? (fun d => decide (w.top.depth ≤ d)) = none := by
        rw [List.findIdx?_eq_none_iff]
        intro d hd
        obtain ⟨x, hxm, rfl⟩ := List.mem_map.1 hd
        have := hdb x (List.mem_reverse.1 hxm)
        simp
        omega
      rw [hnone]
      simp [List.findIdx?_cons, hde]
    rw [hidx, hc]
    have := congrArg List.length hbk
    simp only [List.length_map] at this
    simp [this]

theorem inv_popped {w : World G F N R D} (h : Inv w) :
    Inv { w with st := { w.st with
      cur := (popTo ((seen w).length - 1) w.st.cur w.st.stack).1
      stack := (popTo ((seen w).length - 1) w.st.cur w.st.stack).2
      enabled := true } } := by
  obtain ⟨x, l, hxl⟩ : ∃ x l, seen w = x :: l := List.exists_cons_of_ne_nil (seen_ne h)
  have hlen : (seen w).length - 1 = l.length := by rw [hxl]; rfl
  obtain ⟨p, hp⟩ := h.keys
  rw [hxl, List.map_cons] at hp
  cases p with
  | nil =>
    rw [List.nil_append, List.map_cons] at hp
    have hl : w.st.stack.length = l.length := by
      have := congrArg List.length (List.cons.inj hp).2
      simpa using this.symm
    rw [hlen, popTo_small _ _ _ (le_of_eq hl)]
    refine ⟨h.sorted, h.strict, h.bottom, h.pos, h.keys, h.sites, h.decr, fun _ => ?_, fun hf => by cases hf⟩
    show (seen w).length = w.st.stack.length + 1
    rw [hxl, hl]
    rfl
  | cons k p =>
    rw [List.cons_append, List.map_cons] at hp
    have hp2 := (List.cons.inj hp).2
    obtain ⟨a, b', hst, ha, hb'⟩ := List.map_eq_append_iff.1 hp2.symm
    obtain ⟨e, b, rfl, hek, hbk⟩ := List.map_eq_cons_iff.1 hb'
    have hbl : b.length = l.length := by
      have := congrArg List.length hbk
      simpa using this
    rw [hlen, hst, ← hbl, popTo_append]
    have hdecr := h.decr
    rw [hst] at hdecr
    have hd' : (e :: b).Pairwise fun a b => b.depth < a.depth := (List.pairwise_append.1 (List.pairwise_cons.1 hdecr).2).2.1
    refine ⟨h.sorted, h.strict, h.bottom, h.pos, ?_, ?_, ?_, ?_, fun hf => by cases hf⟩
    · show (seen w).map Frame.key <:+ ({ e with site := none } :: b).map Entry.key
      rw [hxl, List.map_cons, List.map_cons, hbk, ← hek]
      exact List.suffix_refl _
    · show (seen w).dropLast.map Frame.site <:+ b.map Entry.site
      have h1 := h.sites
      rw [hst] at h1
      have h2 : b.map Entry.site <:+ (a ++ e :: b).map Entry.site :=
        ⟨(a ++ [e]).map Entry.site, by simp⟩
      refine List.suffix_of_suffix_length_le h1 h2 ?_
      rw [List.length_map, List.length_dropLast, hlen, List.length_map, hbl]
    · exact List.pairwise_cons.2 (List.pairwise_cons.1 hd')
    · intro _
      show (seen w).length = b.length + 1
      rw [hxl, hbl]
      rfl

theorem inv_event {w : World G F N R D} (h : Inv w) (stmt fin : Bool) (hs : w.top.seen = true) : Inv (act w (.event stmt fin)) := by
  show Inv { w with st := event w.top.depth fin (stmt && w.below.isEmpty) w.st }
  unfold event
  by_cases he : w.st.enabled = true
  · rw [if_pos he]; exact h
  · rw [if_neg he]
    have he : w.st.enabled = false := by simpa using he
    unfold reenable
    cases fin with
    | false =>
      rw [lengthFor_seen h hs he]
      exact inv_popped h
    | true =>
      have hn : lengthFor w.top.depth true w.st = none := by
        unfold lengthFor
        by_cases hd : w.top.depth > w.st.disabledAt
        · rw [if_pos hd]
        · rw [if_neg hd]; rfl
      rw [hn]
      cases hi : (stmt && w.below.isEmpty) with
      | false => exact h
      | true =>
        have hb : w.below = [] := by
          have := (Bool.and_eq_true _ _ ▸ hi).2
          simpa using this
        have hl : (seen w).length - 1 = 0 := by
          rw [seen_cons hs, hb]
          rfl
        have := inv_popped h
        rw [hl] at this
        exact this

theorem inv_act {w : World G F N R D} (h : Inv w) {a : Act G F N R D} (hc : Can w a) : Inv (act w a) := by
  cases a with
  | call g f n d deep => exact inv_call h g f n d deep hc
  | lib g d => exact inv_unseen (f := { frame := g, depth := d, seen := false, site := none }) h rfl hc
  | leave ret => exact inv_leave h ret hc
  | event stmt fin => exact inv_event h stmt fin hc
  | iter => exact inv_disable h _ (le_refl _)

theorem inv_reached {g : G} {w : World G F N R D} (h : Reached g w) : Inv w := by
  induction h with
  | start => exact inv_start g
  | step _ hc ih => exact inv_act ih hc

/-- **C105, first part.** While tracing is on, the frames of the tracer are those that are seen, and each waits for the call by which the next was entered. -/
theorem frames_exact {g : G} {w : World G F N R D} (h : Reached g w) (he : w.st.enabled = true) :
    (w.st.cur :: w.st.stack).map Entry.frame = (seen w).map Frame.frame ∧ w.st.stack.map Entry.site = (seen w).dropLast.map Frame.site := by
  have hi := inv_reached h
  have hl := hi.exact he
  have hk := hi.keys.eq_of_length (by simp [hl])
  refine ⟨?_, (hi.sites.eq_of_length (by simp [hl])).symm⟩
  have := congrArg (List.map Prod.fst) hk
  rw [List.map_map, List.map_map] at this
  exact this.symm

/-- **C105.** When a statement of a frame that is seen begins or ends, the tracer is on and attributes it to that frame.

Missing: if the statement that is run in the first frame is finished, tracing stays off in other frames (`not_resumed`, `Verif.Frames.Witness`). -/
theorem attributed_partial {g : G} {w : World G F N R D} (h : Reached g w) (hs : w.top.seen = true) (stmt fin : Bool)
    (hf : fin = false ∨ stmt = true ∧ w.below = []) :
    (act w (.event stmt fin)).st.enabled = true ∧ (act w (.event stmt fin)).st.cur.frame = w.top.frame := by
  have hr : Reached g (act w (.event stmt fin)) := .step h hs
  have hen : (act w (.event stmt fin)).st.enabled = true := by
    show (event w.top.depth fin (stmt && w.below.isEmpty) w.st).enabled = true
    unfold event
    by_cases he : w.st.enabled = true
    · rw [if_pos he]; exact he
    · rw [if_neg he]
      have he : w.st.enabled = false := by simpa using he
      unfold reenable
      rcases hf with rfl | ⟨rfl, hb⟩
      · rw [lengthFor_seen (inv_reached h) hs he]
      · rw [hb]
        cases lengthFor w.top.depth fin w.st <;> rfl
  refine ⟨hen, ?_⟩
  have := (frames_exact hr hen).1
  have hsc : seen (act w (.event stmt fin)) = w.top :: w.below.filter Frame.seen := seen_cons (w := act w (.event stmt fin)) hs
  rw [hsc, List.map_cons, List.map_cons] at this
  exact (List.cons.inj this).1

theorem lookup_mem {l : List (F × N)} {f : F} {n : N} (h : l.lookup f = some n) : (f, n) ∈ l := by
  induction l with
  | nil => cases h
  | cons p l ih =>
    obtain ⟨f', n'⟩ := p
    rw [List.lookup_cons] at h
    by_cases he : f = f'
    · subst he
      simp at h
      exact h ▸ List.mem_cons_self
    · have : (f == f') = false := by simpa using he
      rw [this] at h
      exact List.mem_cons_of_mem _ (ih h)

theorem leave_loaded {w : World G F N R D} (h : Inv w) (he : w.st.enabled = true) (hs : w.top.seen = true) (hb : w.below ≠ []) (ret : Option (R × List D))
    (hr : ∀ r ds, ret = some (r, ds) → r ∉ w.st.done) :
    (leave w.top.depth ret w.st).loaded = w.st.loaded ++ fromReturn w.top.site ret ∧ (leave w.top.depth ret w.st).enabled = true ∧
      (leave w.top.depth ret w.st).last = w.st.last ∧ ∀ r ∈ (leave w.top.depth ret w.st).done, r ∈ w.st.done ∨ ∃ ds, ret = some (r, ds) := by
  have hl := h.exact he
  have hsit := h.sites.eq_of_length (by simp [hl])
  obtain ⟨x, l, hxl⟩ : ∃ x l, w.below.filter Frame.seen = x :: l := by
    refine List.exists_cons_of_ne_nil ?_
    obtain ⟨b, hb', hbs⟩ := h.bottom
    obtain ⟨y, m, hym⟩ := List.exists_cons_of_ne_nil hb
    rw [hym, List.getLast?_cons_cons] at hb'
    intro hn
    have : b ∈ w.below.filter Frame.seen := List.mem_filter.2 ⟨by rw [hym]; exact List.mem_of_getLast? hb', hbs⟩
    rw [hn] at this
    cases this
  rw [seen_cons hs, hxl, List.dropLast_cons_cons, List.map_cons] at hsit
  obtain ⟨e, rest, hst, hes, _⟩ := List.map_eq_cons_iff.1 hsit.symm
  unfold leave
  rw [if_pos he, hst]
  show (result ret e.site w.st).loaded = _ ∧ (result ret e.site w.st).enabled = true ∧ (result ret e.site w.st).last = w.st.last ∧
    ∀ r ∈ (result ret e.site w.st).done, _
  rw [hes]
  cases ret with
  | none => exact ⟨by cases w.top.site <;> simp [result, fromReturn], he, rfl, fun r hr => .inl hr⟩
  | some p =>
    obtain ⟨r, ds⟩ := p
    cases hsite : w.top.site with
    | none => exact ⟨by simp [result, fromReturn], he, rfl, fun r hr => .inl hr⟩
    | some n =>
      have hrd := hr r ds rfl
      simp only [result, if_neg hrd, fromReturn]
      refine ⟨trivial, he, trivial, ?_⟩
      intro r' hr'
      rcases List.mem_cons.1 hr' with rfl | hr'
      · exact .inr ⟨ds, rfl⟩
      · exact .inl hr'

theorem results_from (acts : List (Act G F N R D)) : ∀ w : World G F N R D, Inv w → w.st.enabled = true →
    (∀ f ∈ (w.top :: w.below).dropLast, f.seen = f.site.isSome) → Valid w acts → Calm acts → (sitesOf acts).Nodup → (retsOf acts).Nodup →
    (∀ p ∈ w.st.last, p.2 ∉ sitesOf acts) → (∀ r ∈ w.st.done, r ∉ retsOf acts) →
    (acts.foldl act w).st.loaded = w.st.loaded ++ expected ((w.top :: w.below).dropLast.map Frame.site) acts := by
  induction acts with
  | nil => intro w _ _ _ _ _ _ _ _ _; simp [expected]
  | cons a l ih =>
    intro w hi he hf hv hc hns hnr hl hd
    have hi' := inv_act hi hv.1
    rw [List.foldl_cons]
    cases a with
    | call g f n d deep =>
      obtain ⟨rfl, hc⟩ := hc
      have hns : (n :: sitesOf l).Nodup := hns
      have hag : ¬ again f n w.st = true := by
        intro h
        have : w.st.last.lookup f = some n := by simpa [again] using h
        exact hl _ (lookup_mem this) List.mem_cons_self
      have hst : (act w (.call g f n d false)).st = push g d n { w.st with last := (f, n) :: w.st.last } := by
        show call g f n d false w.st = _
        unfold call
        rw [if_pos he, if_neg hag]
        rfl
      have htop : (act w (.call g f n d false)).top = { frame := g, depth := d, seen := true, site := some n } := by
        have : (call g f n d false w.st).enabled = true := by
          have := congrArg St.enabled hst
          exact this.trans he
        show ({ frame := g, depth := d, seen := (call g f n d false w.st).enabled, site := some n } : Frame G N) = _
        rw [this]
      have hbel : (act w (.call g f n d false)).below = w.top :: w.below := rfl
      rw [ih _ hi' (by rw [hst]; exact he) ?_ hv.2 hc (List.nodup_cons.1 hns).2 hnr ?_ ?_]
      · rw [hst, htop, hbel, List.dropLast_cons_cons, List.map_cons]
        rfl
      · rw [htop, hbel, List.dropLast_cons_cons]
        intro x hx
        rcases List.mem_cons.1 hx with rfl | hx
        · rfl
        · exact hf x hx
      · rw [hst]
        intro p hp
        rcases List.mem_cons.1 hp with rfl | hp
        · exact (List.nodup_cons.1 hns).1
        · exact fun h => hl p hp (List.mem_cons_of_mem _ h)
      · rw [hst]
        exact hd
    | lib g d =>
      rw [ih _ hi' he ?_ hv.2 hc hns hnr hl hd]
      · rfl
      · intro x hx
        have hx : x ∈ ({ frame := g, depth := d, seen := false, site := none } :: w.top :: w.below : List (Frame G N)).dropLast := hx
        rw [List.dropLast_cons_cons] at hx
        rcases List.mem_cons.1 hx with rfl | hx
        · rfl
        · exact hf x hx
    | leave ret =>
      obtain ⟨top, below, st⟩ := w
      cases below with
      | nil => exact absurd rfl hv.1
      | cons b rest =>
        have hda : (top :: b :: rest).dropLast = top :: (b :: rest).dropLast := List.dropLast_cons_cons
        have hft : top.seen = top.site.isSome := hf top (by rw [hda]; exact List.mem_cons_self)
        have hf' : ∀ f ∈ (b :: rest).dropLast, f.seen = f.site.isSome := fun f hfm => hf f (by rw [hda]; exact List.mem_cons_of_mem _ hfm)
        have hret : ∀ r ds, ret = some (r, ds) → r ∈ retsOf (.leave ret :: l : List (Act G F N R D)) := by
          rintro r ds rfl
          exact List.mem_cons_self
        have hsub : ∀ r ∈ retsOf l, r ∈ retsOf (.leave ret :: l : List (Act G F N R D)) := by
          intro r hr
          cases ret with
          | none => exact hr
          | some p => exact List.mem_cons_of_mem _ hr
        have hnr' : (retsOf l).Nodup := by
          cases ret with
          | none => exact hnr
          | some p => exact (List.nodup_cons.1 hnr).2
        show (l.foldl act (act { top := top, below := b :: rest, st := st } (.leave ret))).st.loaded = _
        show _ = st.loaded ++ expected ((top :: b :: rest).dropLast.map Frame.site) (.leave ret :: l)
        rw [hda]
        show _ = st.loaded ++ (fromReturn top.site ret ++ expected ((b :: rest).dropLast.map Frame.site) l)
        cases hs : top.seen with
        | false =>
          have hact : act { top := top, below := b :: rest, st := st } (.leave ret) = { top := b, below := rest, st := st } := by
            show World.mk b rest (if top.seen then leave top.depth ret st else st) = _
            rw [hs]
            rfl
          rw [hact] at hi' ⊢
          have hsn : top.site = none := by
            rw [hs] at hft
            simpa using hft.symm
          have hv2 : Valid (act { top := top, below := b :: rest, st := st } (.leave ret)) l := hv.2
          rw [hact] at hv2
          rw [ih _ hi' he hf' hv2 hc hns hnr' hl fun r hr hm => hd r hr (hsub r hm), hsn]
          have : fromReturn (none : Option N) ret = [] := by cases ret <;> rfl
          rw [this]
          rfl
        | true =>
          have hact : act { top := top, below := b :: rest, st := st } (.leave ret) = { top := b, below := rest, st := leave top.depth ret st } := by
            show World.mk b rest (if top.seen then leave top.depth ret st else st) = _
            rw [hs]
            rfl
          obtain ⟨h1, h2, h3, h4⟩ := leave_loaded hi he hs (by simp) ret fun r ds hr => fun hm => hd r hm (hret r ds hr)
          rw [hact] at hi' ⊢
          have hv2 : Valid (act { top := top, below := b :: rest, st := st } (.leave ret)) l := hv.2
          rw [hact] at hv2
          rw [ih _ hi' h2 hf' hv2 hc hns hnr' ?_ ?_]
          · show (leave top.depth ret st).loaded ++ _ = _
            rw [h1, List.append_assoc]
          · show ∀ p ∈ (leave top.depth ret st).last, _
            rw [h3]
            exact hl
          · intro r hr hm
            rcases h4 r hr with h | ⟨ds, rfl⟩
            · exact hd r h (hsub r hm)
            · exact (List.nodup_cons.1 hnr).1 hm
    | event stmt fin =>
      have hact : act w (.event stmt fin) = w := by
        show { w with st := event w.top.depth fin (stmt && w.below.isEmpty) w.st } = w
        unfold event
        rw [if_pos he]
      have hv2 := hv.2
      rw [hact] at hi' hv2 ⊢
      exact ih w hi' he hf hv2 hc hns hnr hl hd
    | iter => exact absurd hc id

/-- **C106.** The result of a call of a function of the notebook is recorded to depend on what the `return` statement read, and on nothing more.

Missing: tracing may be off, since a loop got to the end of its first iteration (`loop_result`, `Verif.Frames.Witness`) or the same call calls the function again
(`repeated_call`); and a `return` statement that is executed a second time is not recorded (`second_return`). -/
theorem results_partial (g : G) (acts : List (Act G F N R D)) (hv : Valid (start g) acts) (hc : Calm acts) (hs : (sitesOf acts).Nodup) (hr : (retsOf acts).Nodup) :
    (acts.foldl act (start g)).st.loaded = expected [] acts := by
  have := results_from acts (start g) (inv_start g) rfl (by simp [start]) hv hc hs hr (by simp [start]) (by simp [start])
  rw [this]
  rfl

end Verif.Frames
