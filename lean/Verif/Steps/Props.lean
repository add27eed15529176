import Verif.Steps.Spec

/-! # C103, C104: which statements are dealt with, and which variables are known -/

namespace Verif.Steps

variable {S X : Type} [DecidableEq S] [DecidableEq X]

/-- At the start of a cell. -/
def start (syms : List X) : St S X := { log := [], prev := none, enabled := true, since := false, syms := syms, noted := [] }

theorem exec_append (E : Env S X) (a b : List (Ev S X)) (st : St S X) : exec E (a ++ b) st = exec E b (exec E a st) := List.foldl_append

theorem exec_cons (E : Env S X) (e : Ev S X) (l : List (Ev S X)) (st : St S X) : exec E (e :: l) st = exec E l (step E st e) := rfl

/-- The previous statement, if it is waiting for its body. -/
def pend (E : Env S X) (st : St S X) : List S :=
  match st.prev with
  | some p => if E.header p = true ∧ p ∉ st.log then [p] else []
  | none => []

theorem enterBody_log (E : Env S X) (st : St S X) : (enterBody E st).log = st.log ++ pend E st := by
  unfold enterBody pend
  cases st.prev with
  | none => simp
  | some p =>
    by_cases hh : E.header p = true
    · by_cases hl : p ∈ st.log
      · simp [hh, hl, after]
      · simp [hh, hl, after]
    · simp [hh]

theorem before_log (E : Env S X) {s : S} {st : St S X} (h : s ∉ st.log) : (before E s st).log = st.log ++ pend E st := by
  unfold before
  rw [if_neg h]
  exact enterBody_log E st

theorem before_prev (E : Env S X) {s : S} {st : St S X} (h : s ∉ st.log) : (before E s st).prev = some s := by
  unfold before
  rw [if_neg h]

theorem after_log_mem (E : Env S X) {s : S} {st : St S X} (h : s ∈ st.log) : (after E s st).log = st.log := by
  unfold after
  simp [h]

theorem after_log (E : Env S X) {s : S} {st : St S X} (h : s ∉ st.log) : (after E s st).log = st.log ++ [s] := by
  unfold after
  simp [h]

theorem after_prev (E : Env S X) (s : S) (st : St S X) : (after E s st).prev = st.prev := by
  unfold after
  by_cases h : s ∈ st.log <;> simp [h]

omit [DecidableEq S] [DecidableEq X] in
theorem order_sub (header : S → Bool) (r : Run S) : ∀ s ∈ order header r, s ∈ begun r := by
  induction r with
  | done => intro s h; cases h
  | seq a b iha ihb =>
    intro s h
    rcases List.mem_append.1 h with h | h
    · exact List.mem_append_left _ (iha s h)
    · exact List.mem_append_right _ (ihb s h)
  | simple t => intro s h; exact h
  | fail t => intro s h; cases h
  | jump t => intro s h; cases h
  | block t b ok ih =>
    intro s h
    rw [order] at h
    by_cases hh : header t = true
    · rw [if_pos hh] at h
      rcases List.mem_cons.1 h with h | h
      · exact h ▸ List.mem_cons_self
      · exact List.mem_cons_of_mem _ (ih s h)
    · rw [if_neg hh] at h
      rcases List.mem_append.1 h with h | h
      · exact List.mem_cons_of_mem _ (ih s h)
      · cases ok with
        | false => simp at h
        | true => simp at h; exact h ▸ List.mem_cons_self
  | loop t first rest els ok ihf _ ihe =>
    intro s h
    rw [order] at h
    by_cases hh : header t = true
    · rw [if_pos hh] at h
      rcases List.mem_cons.1 h with h | h
      · exact h ▸ List.mem_cons_self
      · rcases List.mem_append.1 h with h | h
        · exact List.mem_cons_of_mem _ (List.mem_append_left _ (ihf s h))
        · exact List.mem_cons_of_mem _ (List.mem_append_right _ (ihe s h))
    · rw [if_neg hh] at h
      rcases List.mem_append.1 h with h | h
      · rcases List.mem_append.1 h with h | h
        · exact List.mem_cons_of_mem _ (List.mem_append_left _ (ihf s h))
        · exact List.mem_cons_of_mem _ (List.mem_append_right _ (ihe s h))
      · cases ok with
        | false => simp at h
        | true => simp at h; exact h ▸ List.mem_cons_self

omit [DecidableEq S] [DecidableEq X] in
theorem nothing_of_begun {r : Run S} (h : begun r = []) (header : S → Bool) : (events r : List (Ev S X)) = [] ∧ order header r = [] := by
  induction r with
  | done => exact ⟨rfl, rfl⟩
  | seq a b iha ihb =>
    rw [begun, List.append_eq_nil_iff] at h
    rw [events, order, (iha h.1).1, (ihb h.2).1, (iha h.1).2, (ihb h.2).2]
    exact ⟨rfl, rfl⟩
  | _ => simp [begun] at h

/-- What is left to be done before the next statement of the same list: nothing, or the header of the statement whose body is entered. -/
structure Ready (E : Env S X) (st : St S X) (later : List S) : Prop where
  fresh : ∀ s ∈ later, s ∉ st.log
  pending : ∀ s ∈ later, s ∉ pend E st

/-- What an execution does to the statements dealt with: the header whose body is entered, then those of the execution, in order. -/
def Does (E : Env S X) (r : Run S) : Prop :=
  ∀ st : St S X, Regular E.header r → (begun r).Nodup → Ready E st (begun r) → begun r ≠ [] →
    (exec E (events r) st).log = st.log ++ pend E st ++ order E.header r ∧ pend E (exec E (events r) st) = [] ∧
      ∃ q ∈ begun r, (exec E (events r) st).prev = some q

theorem does_seq (E : Env S X) {a b : Run S} (iha : Does E a) (ihb : Does E b) : Does E (.seq a b) := by
  intro st hr hn hd hne
  rw [begun, List.nodup_append] at hn
  obtain ⟨hna, hnb, hab⟩ := hn
  have hda : Ready E st (begun a) := ⟨fun s hs => hd.fresh s (List.mem_append_left _ hs), fun s hs => hd.pending s (List.mem_append_left _ hs)⟩
  rw [events, exec_append, order]
  by_cases ha : begun a = []
  · have h0 := nothing_of_begun (X := X) ha E.header
    rw [h0.1, h0.2]
    have hb : begun b ≠ [] := by
      intro hb
      rw [begun, ha, hb] at hne
      exact hne rfl
    have := ihb st hr.2 hnb ⟨fun s hs => hd.fresh s (List.mem_append_right _ hs), fun s hs => hd.pending s (List.mem_append_right _ hs)⟩ hb
    obtain ⟨h1, h2, q, hq, h3⟩ := this
    exact ⟨h1, h2, q, List.mem_append_right _ hq, h3⟩
  · obtain ⟨h1, h2, q, hq, h3⟩ := iha st hr.1 hna hda ha
    by_cases hb : begun b = []
    · have h0 := nothing_of_begun (X := X) hb E.header
      rw [h0.1, h0.2]
      exact ⟨by rw [List.append_nil]; exact h1, h2, q, List.mem_append_left _ hq, h3⟩
    · have hdb : Ready E (exec E (events a) st) (begun b) := by
        refine ⟨fun s hs => ?_, fun s hs => ?_⟩
        · rw [h1, List.mem_append, List.mem_append]
          rintro ((h | h) | h)
          · exact hd.fresh s (List.mem_append_right _ hs) h
          · exact hd.pending s (List.mem_append_right _ hs) h
          · exact hab s (order_sub _ _ s h) s hs rfl
        · rw [h2]; simp
      obtain ⟨g1, g2, q', hq', g3⟩ := ihb _ hr.2 hnb hdb hb
      refine ⟨?_, g2, q', List.mem_append_right _ hq', g3⟩
      rw [g1, h1, h2]
      simp

theorem does_block (E : Env S X) {s : S} {b : Run S} {ok : Bool} (ih : Does E b) : Does E (.block s b ok) := by
  intro st hr hn hd _
  rw [begun, List.nodup_cons] at hn
  obtain ⟨hsb, hnb⟩ := hn
  have hs : s ∉ st.log := hd.fresh s List.mem_cons_self
  have hp : s ∉ pend E st := hd.pending s List.mem_cons_self
  have hl := before_log E hs
  have hpr := before_prev E hs
  have hs' : s ∉ (before E s st).log := by
    rw [hl, List.mem_append]; tauto
  have hpd : pend E (before E s st) = if E.header s = true then [s] else [] := by
    unfold pend
    rw [hpr]
    by_cases hh : E.header s = true <;> simp [hh, hs']
  rw [events, exec_cons, exec_append, order]
  show _ ∧ _
  have hst : step E st (.before s) = before E s st := rfl
  rw [hst]
  -- the body
  have body : (exec E (events b) (before E s st)).log = st.log ++ pend E st ++ (if begun b = [] then [] else pend E (before E s st)) ++ order E.header b ∧
      (begun b ≠ [] → pend E (exec E (events b) (before E s st)) = []) ∧
      ∃ q ∈ s :: begun b, (exec E (events b) (before E s st)).prev = some q := by
    by_cases hb : begun b = []
    · have h0 := nothing_of_begun (X := X) hb E.header
      rw [h0.1, h0.2, if_pos hb]
      refine ⟨?_, fun h => absurd hb h, s, List.mem_cons_self, hpr⟩
      rw [List.append_nil, List.append_nil]; exact hl
    · have hdb : Ready E (before E s st) (begun b) := by
        refine ⟨fun t ht => ?_, fun t ht => ?_⟩
        · rw [hl, List.mem_append]
          rintro (h | h)
          · exact hd.fresh t (List.mem_cons_of_mem _ ht) h
          · exact hd.pending t (List.mem_cons_of_mem _ ht) h
        · rw [hpd]
          by_cases hh : E.header s = true
          · rw [if_pos hh, List.mem_singleton]
            rintro rfl
            exact hsb ht
          · rw [if_neg hh]; simp
      obtain ⟨h1, h2, q, hq, h3⟩ := ih _ hr.1 hnb hdb hb
      refine ⟨?_, fun _ => h2, q, List.mem_cons_of_mem _ hq, h3⟩
      rw [if_neg hb, h1, hl]
  obtain ⟨h1, h2, q, hq, h3⟩ := body
  generalize exec E (events b) (before E s st) = st' at h1 h2 h3
  have hbo : begun b = [] → order E.header b = [] := fun h => (nothing_of_begun (X := X) h E.header).2
  by_cases hh : E.header s = true
  · rw [if_pos hh]
    rw [hpd, if_pos hh] at h1
    by_cases hb : begun b = []
    · -- nothing of the body was run
      have hok : ok = true := by
        rcases hr.2 with h | h
        · exact absurd hb h
        · exact h
      rw [if_pos hb, hbo hb, List.append_nil, List.append_nil] at h1
      subst hok
      rw [if_pos rfl, exec_cons]
      show (after E s st').log = _ ∧ pend E (after E s st') = [] ∧ ∃ q ∈ s :: begun b, (after E s st').prev = some q
      have hns : s ∉ st'.log := by
        rw [h1, List.mem_append]; tauto
      refine ⟨?_, ?_, q, hq, by rw [after_prev, h3]⟩
      · rw [after_log E hns, h1, hbo hb]
      · unfold pend
        rw [after_prev, h3, after_log E hns]
        have : q = s := by
          rw [hb] at hq
          simpa using hq
        simp [this]
    · rw [if_neg hb] at h1
      have hin : s ∈ st'.log := by
        rw [h1]; simp
      cases ok with
      | false =>
        refine ⟨?_, h2 hb, q, hq, h3⟩
        show st'.log = _
        rw [h1, List.append_assoc]; rfl
      | true =>
        rw [if_pos rfl, exec_cons]
        show (after E s st').log = _ ∧ pend E (after E s st') = [] ∧ ∃ q ∈ s :: begun b, (after E s st').prev = some q
        refine ⟨?_, ?_, q, hq, by rw [after_prev, h3]⟩
        · rw [after_log_mem E hin, h1, List.append_assoc]; rfl
        · have := h2 hb
          unfold pend at this ⊢
          rw [after_prev, after_log_mem E hin]
          exact this
  · rw [if_neg hh]
    rw [hpd, if_neg hh] at h1
    have h1 : st'.log = st.log ++ pend E st ++ order E.header b := by
      by_cases hb : begun b = []
      · rw [if_pos hb, List.append_nil] at h1; exact h1
      · rw [if_neg hb, List.append_nil] at h1; exact h1
    have hns : s ∉ st'.log := by
      rw [h1, List.mem_append, List.mem_append]
      rintro ((h | h) | h)
      · exact hs h
      · exact hp h
      · exact hsb (order_sub _ _ s h)
    have hpe : pend E st' = [] := by
      by_cases hb : begun b = []
      · have : q = s := by
          rw [hb] at hq
          simpa using hq
        unfold pend
        rw [h3, this]
        simp [hh]
      · exact h2 hb
    cases ok with
    | false =>
      refine ⟨?_, hpe, q, hq, h3⟩
      show st'.log = _
      rw [h1]; simp
    | true =>
      rw [if_pos rfl, exec_cons]
      show (after E s st').log = _ ∧ pend E (after E s st') = [] ∧ ∃ q ∈ s :: begun b, (after E s st').prev = some q
      refine ⟨?_, ?_, q, hq, by rw [after_prev, h3]⟩
      · rw [after_log E hns, h1, List.append_assoc]; rfl
      · unfold pend at hpe ⊢
        rw [after_prev, after_log E hns, h3]
        rw [h3] at hpe
        by_cases hq' : E.header q = true ∧ q ∉ st'.log ++ [s]
        · have : E.header q = true ∧ q ∉ st'.log := ⟨hq'.1, fun h => hq'.2 (List.mem_append_left _ h)⟩
          simp [this.1, this.2] at hpe
        · simp only [if_neg hq']

/-- Same statements dealt with, same previous statement. -/
def Alike (a b : St S X) : Prop := a.log = b.log ∧ a.prev = b.prev

theorem after_alike (E : Env S X) (s : S) {a b : St S X} (h : Alike a b) : Alike (after E s a) (after E s b) := by
  refine ⟨?_, by rw [after_prev, after_prev]; exact h.2⟩
  by_cases hs : s ∈ a.log
  · rw [after_log_mem E hs, after_log_mem E (h.1 ▸ hs)]; exact h.1
  · rw [after_log E hs, after_log E (h.1 ▸ hs), h.1]

theorem pend_alike (E : Env S X) {a b : St S X} (h : Alike a b) : pend E a = pend E b := by
  unfold pend
  rw [h.1, h.2]

/-- Events other than the end of a statement of the module. -/
def Inner : Ev S X → Prop
  | .endModule _ _ => False
  | _ => True

theorem step_alike (E : Env S X) (e : Ev S X) {a b : St S X} (h : Alike a b) : Alike (step E a e) (step E b e) := by
  cases e with
  | before s =>
    show Alike (before E s a) (before E s b)
    by_cases hs : s ∈ a.log
    · unfold before
      rw [if_pos hs, if_pos (h.1 ▸ hs)]; exact h
    · have hs' : s ∉ b.log := h.1 ▸ hs
      refine ⟨?_, by rw [before_prev E hs, before_prev E hs']⟩
      rw [before_log E hs, before_log E hs', h.1, pend_alike E h]
  | after s => exact after_alike E s h
  | iter => exact h
  | endModule s stale =>
    refine ⟨?_, ?_⟩
    · show (endModule E s stale a).log = (endModule E s stale b).log
      have : ∀ c : St S X, (endModule E s stale c).log = c.log := by
        intro c
        unfold endModule skipped introduce resync
        cases c.since <;> rfl
      rw [this, this]; exact h.1
    · show (endModule E s stale a).prev = (endModule E s stale b).prev
      have : ∀ c : St S X, (endModule E s stale c).prev = c.prev := by
        intro c
        unfold endModule skipped introduce resync
        cases c.since <;> rfl
      rw [this, this]; exact h.2

theorem exec_alike (E : Env S X) (l : List (Ev S X)) : ∀ {a b : St S X}, Alike a b → Alike (exec E l a) (exec E l b) := by
  induction l with
  | nil => intro a b h; exact h
  | cons e l ih => intro a b h; exact ih (step_alike E e h)

theorem loop_alike (E : Env S X) (s : S) (first rest els : Run S) (ok : Bool) (st : St S X) :
    Alike (exec E (events (.loop s first rest els ok)) st) (exec E (events (.block s (.seq first els) ok)) st) := by
  simp only [events, exec_cons, exec_append]
  refine exec_alike E _ (exec_alike E _ ?_)
  exact ⟨rfl, rfl⟩

theorem does (E : Env S X) (r : Run S) : Does E r := by
  induction r with
  | done => intro st _ _ _ h; exact absurd rfl h
  | seq a b iha ihb => exact does_seq E iha ihb
  | simple s =>
    intro st hr hn hd _
    have hs : s ∉ st.log := hd.fresh s List.mem_cons_self
    have hp : s ∉ pend E st := hd.pending s List.mem_cons_self
    have hl := before_log E hs
    have hs' : s ∉ (before E s st).log := by
      rw [hl, List.mem_append]; tauto
    have he : exec E (events (.simple s)) st = after E s (before E s st) := rfl
    rw [he]
    refine ⟨?_, ?_, s, List.mem_cons_self, ?_⟩
    · rw [after_log E hs', hl]; rfl
    · unfold pend
      rw [after_prev, before_prev E hs]
      have : E.header s = false := hr
      simp [this]
    · rw [after_prev, before_prev E hs]
  | fail s =>
    intro st hr hn hd _
    have hs : s ∉ st.log := hd.fresh s List.mem_cons_self
    have he : exec E (events (.fail s)) st = before E s st := rfl
    rw [he]
    refine ⟨?_, ?_, s, List.mem_cons_self, before_prev E hs⟩
    · rw [before_log E hs, order, List.append_nil]
    · unfold pend
      rw [before_prev E hs]
      have : E.header s = false := hr
      simp [this]
  | jump s =>
    intro st hr hn hd _
    have hs : s ∉ st.log := hd.fresh s List.mem_cons_self
    have he : exec E (events (.jump s)) st = before E s st := rfl
    rw [he]
    refine ⟨?_, ?_, s, List.mem_cons_self, before_prev E hs⟩
    · rw [before_log E hs, order, List.append_nil]
    · unfold pend
      rw [before_prev E hs]
      have : E.header s = false := hr
      simp [this]
  | block s b ok ih => exact does_block E ih
  | loop s first rest els ok ihf _ ihe =>
    intro st hr hn hd hne
    have ha := loop_alike E s first rest els ok st
    obtain ⟨h1, h2, q, hq, h3⟩ := does_block E (s := s) (ok := ok) (does_seq E ihf ihe) st
      ⟨⟨hr.1, hr.2.1⟩, .inl (by rw [begun]; simp [hr.2.2])⟩ hn hd hne
    refine ⟨?_, ?_, q, hq, by rw [ha.2, h3]⟩
    · rw [ha.1, h1]
      rfl
    · rw [pend_alike E ha, h2]

omit [DecidableEq S] [DecidableEq X] in
theorem order_nodup (header : S → Bool) (r : Run S) (h : (begun r).Nodup) : (order header r).Nodup := by
  induction r with
  | done => exact List.nodup_nil
  | seq a b iha ihb =>
    rw [begun, List.nodup_append] at h
    rw [order, List.nodup_append]
    exact ⟨iha h.1, ihb h.2.1, fun s hs t ht => h.2.2 s (order_sub _ _ s hs) t (order_sub _ _ t ht)⟩
  | simple s => exact h
  | fail s => exact List.nodup_nil
  | jump s => exact List.nodup_nil
  | block s b ok ih =>
    rw [begun, List.nodup_cons] at h
    have hs : s ∉ order header b := fun hm => h.1 (order_sub _ _ s hm)
    rw [order]
    by_cases hh : header s = true
    · rw [if_pos hh, List.nodup_cons]
      exact ⟨hs, ih h.2⟩
    · rw [if_neg hh]
      cases ok with
      | false => simpa using ih h.2
      | true =>
        rw [if_pos rfl, List.nodup_append]
        refine ⟨ih h.2, by simp, ?_⟩
        intro a ha b hb hab
        rw [List.mem_singleton] at hb
        exact hs (hb ▸ hab ▸ ha)
  | loop s first rest els ok ihf _ ihe =>
    rw [begun, List.nodup_cons, List.nodup_append] at h
    obtain ⟨hs, hf, he, hfe⟩ := h
    have hn : (order header first ++ order header els).Nodup := by
      rw [List.nodup_append]
      exact ⟨ihf hf, ihe he, fun a ha b hb => hfe a (order_sub _ _ a ha) b (order_sub _ _ b hb)⟩
    have hs' : s ∉ order header first ++ order header els := by
      intro hm
      refine hs (List.mem_append.2 ?_)
      rcases List.mem_append.1 hm with hm | hm
      · exact .inl (order_sub _ _ s hm)
      · exact .inr (order_sub _ _ s hm)
    rw [order]
    by_cases hh : header s = true
    · rw [if_pos hh, List.nodup_cons]
      exact ⟨hs', hn⟩
    · rw [if_neg hh]
      cases ok with
      | false => simpa using hn
      | true =>
        rw [if_pos rfl, List.nodup_append]
        refine ⟨hn, by simp, ?_⟩
        intro a ha b hb hab
        rw [List.mem_singleton] at hb
        exact hs' (hb ▸ hab ▸ ha)

theorem start_ready (E : Env S X) (syms : List X) (l : List S) : Ready E (start syms) l :=
  ⟨fun _ _ h => (nomatch h), fun _ _ h => (nomatch h)⟩

/-- **C103, first part.** The statements dealt with while a cell is run are those that are completed, each once, in the order in which they are: an `if`, `for` or
`with` when its body is entered, before what is in it; anything else when it is done, after what is in it.

Missing: an `if`, `for` or `with` that raises before its body is entered is dealt with all the same (`failed_header`, `Verif.Steps.Witness`), and what is only run in
later iterations of a loop is not (`later_iteration`). -/
theorem dealt_with_partial (E : Env S X) (r : Run S) (syms : List X) (hr : Regular E.header r) (hn : (begun r).Nodup) :
    (exec E (events r) (start syms)).log = order E.header r ∧ (exec E (events r) (start syms)).log.Nodup := by
  have h : (exec E (events r) (start syms : St S X)).log = order E.header r := by
    by_cases hb : begun r = []
    · have h0 := nothing_of_begun (X := X) hb E.header
      rw [h0.1, h0.2]; rfl
    · obtain ⟨h1, _⟩ := does E r (start syms) hr hn (start_ready E syms _) hb
      rw [h1]
      rfl
  exact ⟨h, h ▸ order_nodup _ _ hn⟩

/-- A statement is dealt with at most once, whatever happens. -/
theorem dealt_with_once (E : Env S X) (evs : List (Ev S X)) (syms : List X) : (exec E evs (start syms)).log.Nodup := by
  have key : ∀ (evs : List (Ev S X)) (st : St S X), st.log.Nodup → (exec E evs st).log.Nodup := by
    intro evs
    have ha : ∀ (s : S) (st : St S X), st.log.Nodup → (after E s st).log.Nodup := by
      intro s st h
      by_cases hs : s ∈ st.log
      · rw [after_log_mem E hs]; exact h
      · rw [after_log E hs, List.nodup_append]
        refine ⟨h, by simp, ?_⟩
        intro a ha b hb hab
        rw [List.mem_singleton] at hb
        exact hs (hb ▸ hab ▸ ha)
    induction evs with
    | nil => intro st h; exact h
    | cons e l ih =>
      intro st h
      refine ih _ ?_
      cases e with
      | before s =>
        show (before E s st).log.Nodup
        unfold before
        by_cases hs : s ∈ st.log
        · rw [if_pos hs]; exact h
        · rw [if_neg hs]
          show (enterBody E st).log.Nodup
          unfold enterBody
          cases st.prev with
          | none => exact h
          | some p =>
            by_cases hp : E.header p = true
            · simp only [hp, if_true]; exact ha p st h
            · simp only [hp]; exact h
      | after s => exact ha s st h
      | iter => exact h
      | endModule s stale =>
        show (endModule E s stale st).log.Nodup
        have : (endModule E s stale st).log = st.log := by
          unfold endModule skipped introduce resync
          cases st.since <;> rfl
        rw [this]; exact h
  exact key evs _ List.nodup_nil

/-! ## Which variables are noted -/

omit [DecidableEq S] in
theorem mem_dead {c : Syn X} {x : X} : x ∈ dead c ↔ Found c x := by
  induction c with
  | assign xs => exact ⟨.assign, fun h => by cases h; assumption⟩
  | seq a b iha ihb =>
    rw [dead, List.mem_append, iha, ihb]
    exact ⟨fun h => h.elim .left .right, fun h => by cases h with | left h => exact .inl h | right h => exact .inr h⟩
  | branch t b e ihb ihe =>
    rw [dead, List.mem_filter, List.mem_append, ihb, decide_eq_true_eq, ihe]
    constructor
    · rintro ⟨h | h, he⟩
      · exact .target h he
      · exact .both h he
    · intro h
      cases h with
      | target h he => exact ⟨.inl h, he⟩
      | both h he => exact ⟨.inr h, he⟩


theorem after_syms (E : Env S X) (s : S) (st : St S X) : ∀ x ∈ st.syms, x ∈ (after E s st).syms := by
  intro x hx
  unfold after
  by_cases h : s ∈ st.log
  · simp [h, hx]
  · simp [h, hx]

theorem step_syms (E : Env S X) (e : Ev S X) (st : St S X) : ∀ x ∈ st.syms, x ∈ (step E st e).syms := by
  intro x hx
  cases e with
  | before s =>
    show x ∈ (before E s st).syms
    unfold before
    by_cases hs : s ∈ st.log
    · rw [if_pos hs]; exact hx
    · rw [if_neg hs]
      show x ∈ (enterBody E st).syms
      unfold enterBody
      cases st.prev with
      | none => exact hx
      | some p =>
        by_cases hp : E.header p = true
        · simp only [hp, if_true]; exact after_syms E p st x hx
        · simp only [hp]; exact hx
  | after s => exact after_syms E s st x hx
  | iter => exact hx
  | endModule s stale =>
    show x ∈ (endModule E s stale st).syms
    unfold endModule
    cases st.since with
    | false => exact hx
    | true => exact List.mem_append_left _ hx

theorem exec_syms (E : Env S X) (l : List (Ev S X)) : ∀ st : St S X, ∀ x ∈ st.syms, x ∈ (exec E l st).syms := by
  induction l with
  | nil => intro st x hx; exact hx
  | cons e l ih => intro st x hx; exact ih _ x (step_syms E e st x hx)

theorem after_kept (E : Env S X) (s : S) (st : St S X) : ∀ x ∈ st.noted, x ∈ (after E s st).noted := by
  intro x hx
  unfold after
  by_cases h : s ∈ st.log
  · simp [h, hx]
  · simp [h, hx]

theorem step_kept (E : Env S X) (e : Ev S X) (st : St S X) : ∀ x ∈ st.noted, x ∈ (step E st e).noted := by
  intro x hx
  cases e with
  | before s =>
    show x ∈ (before E s st).noted
    unfold before
    by_cases hs : s ∈ st.log
    · rw [if_pos hs]; exact hx
    · rw [if_neg hs]
      show x ∈ (enterBody E st).noted
      unfold enterBody
      cases st.prev with
      | none => exact hx
      | some p =>
        by_cases hp : E.header p = true
        · simp only [hp, if_true]; exact after_kept E p st x hx
        · simp only [hp]; exact hx
  | after s => exact after_kept E s st x hx
  | iter => exact hx
  | endModule s stale =>
    show x ∈ (endModule E s stale st).noted
    unfold endModule
    cases st.since with
    | false => exact hx
    | true => exact List.mem_append_left _ (List.mem_append_left _ hx)

theorem exec_kept (E : Env S X) (l : List (Ev S X)) : ∀ st : St S X, ∀ x ∈ st.noted, x ∈ (exec E l st).noted := by
  induction l with
  | nil => intro st x hx; exact hx
  | cons e l ih => intro st x hx; exact ih _ x (step_kept E e st x hx)

/-- Everything dealt with has what it binds noted. -/
def Noted (E : Env S X) (st : St S X) : Prop := ∀ s ∈ st.log, ∀ x ∈ E.binds s, x ∈ st.noted

theorem after_noted (E : Env S X) (s : S) {st : St S X} (h : Noted E st) : Noted E (after E s st) := by
  intro t ht x hx
  by_cases hs : s ∈ st.log
  · rw [after_log_mem E hs] at ht
    exact after_kept E s st x (h t ht x hx)
  · rw [after_log E hs, List.mem_append] at ht
    rcases ht with ht | ht
    · exact after_kept E s st x (h t ht x hx)
    · rw [List.mem_singleton] at ht
      subst ht
      unfold after
      simp [hs, hx]

theorem step_noted (E : Env S X) (e : Ev S X) {st : St S X} (h : Noted E st) : Noted E (step E st e) := by
  cases e with
  | before s =>
    show Noted E (before E s st)
    unfold before
    by_cases hs : s ∈ st.log
    · rw [if_pos hs]; exact h
    · rw [if_neg hs]
      have : Noted E (enterBody E st) := by
        unfold enterBody
        cases st.prev with
        | none => exact h
        | some p =>
          by_cases hp : E.header p = true
          · simp only [hp, if_true]; exact after_noted E p h
          · simp only [hp]; exact h
      exact this
  | after s => exact after_noted E s h
  | iter => exact h
  | endModule s stale =>
    intro t ht x hx
    refine step_kept E (.endModule s stale) st x (h t ?_ x hx)
    have : (endModule E s stale st).log = st.log := by
      unfold endModule skipped introduce resync
      cases st.since <;> rfl
    have ht : t ∈ (endModule E s stale st).log := ht
    rwa [this] at ht

theorem exec_noted (E : Env S X) (l : List (Ev S X)) : ∀ {st : St S X}, Noted E st → Noted E (exec E l st) := by
  induction l with
  | nil => intro st h; exact h
  | cons e l ih => intro st h; exact ih (step_noted E e h)

theorem since_step (E : Env S X) (e : Ev S X) {st : St S X} (h : st.since = true) (hi : Inner e) : (step E st e).since = true := by
  have ha : ∀ s, (after E s st).since = true := by
    intro s
    unfold after
    by_cases hs : s ∈ st.log <;> simp [hs, h]
  cases e with
  | before s =>
    show (before E s st).since = true
    unfold before
    by_cases hs : s ∈ st.log
    · rw [if_pos hs]; exact h
    · rw [if_neg hs]
      show (enterBody E st).since = true
      unfold enterBody
      cases st.prev with
      | none => exact h
      | some p =>
        by_cases hp : E.header p = true
        · simp only [hp, if_true]; exact ha p
        · simp only [hp]; exact h
  | after s => exact ha s
  | iter => rfl
  | endModule s stale => exact absurd hi id

theorem since_exec (E : Env S X) (l : List (Ev S X)) : ∀ {st : St S X}, st.since = true → (∀ e ∈ l, Inner e) → (exec E l st).since = true := by
  induction l with
  | nil => intro st h _; exact h
  | cons e l ih => intro st h hi; exact ih (since_step E e h (hi e List.mem_cons_self)) fun e he => hi e (List.mem_cons_of_mem _ he)

omit [DecidableEq S] [DecidableEq X] in
theorem events_inner (r : Run S) : ∀ e ∈ (events r : List (Ev S X)), Inner e := by
  have hok : ∀ (s : S) (ok : Bool), ∀ e ∈ (if ok then [Ev.after s] else [] : List (Ev S X)), Inner e := by
    intro s ok e he
    cases ok with
    | false => simp at he
    | true => simp at he; subst he; trivial
  induction r with
  | done => intro e h; cases h
  | seq a b iha ihb =>
    intro e h
    rcases List.mem_append.1 h with h | h
    · exact iha e h
    · exact ihb e h
  | simple s =>
    intro e h
    simp [events] at h
    rcases h with rfl | rfl <;> trivial
  | fail s => intro e h; simp [events] at h; subst h; trivial
  | jump s => intro e h; simp [events] at h; subst h; trivial
  | block s b ok ih =>
    intro e h
    rw [events, List.mem_cons, List.mem_append] at h
    rcases h with rfl | h | h
    · trivial
    · exact ih e h
    · exact hok s ok e h
  | loop s first rest els ok ihf _ ihe =>
    intro e h
    rw [events, List.mem_cons, List.mem_append, List.mem_cons, List.mem_append] at h
    rcases h with rfl | h | rfl | h | h
    · trivial
    · exact ihf e h
    · trivial
    · exact ihe e h
    · exact hok s ok e h

theorem iter_since (E : Env S X) {l : List (Ev S X)} : ∀ {st : St S X}, Ev.iter ∈ l → (∀ e ∈ l, Inner e) → (exec E l st).since = true := by
  induction l with
  | nil => intro st h; cases h
  | cons e l ih =>
    intro st h hi
    have hi' : ∀ e ∈ l, Inner e := fun e he => hi e (List.mem_cons_of_mem _ he)
    rcases List.mem_cons.1 h with rfl | h
    · exact since_exec E l rfl hi'
    · exact ih h hi'

omit [DecidableEq S] [DecidableEq X] in
/-- What is completed is in the order of what is seen, unless there was a loop. -/
theorem completed_or_loop {header : S → Bool} {r : Run S} {s : S} (h : Completed header r s) :
    s ∈ order header r ∨ Ev.iter ∈ (events r : List (Ev S X)) := by
  induction h with
  | left _ ih =>
    rcases ih with h | h
    · exact .inl (List.mem_append_left _ h)
    · exact .inr (List.mem_append_left _ h)
  | right _ ih =>
    rcases ih with h | h
    · exact .inl (List.mem_append_right _ h)
    · exact .inr (List.mem_append_right _ h)
  | simple => exact .inl List.mem_cons_self
  | @block s b =>
    left
    rw [order]
    by_cases hh : header s = true
    · rw [if_pos hh]; exact List.mem_cons_self
    · rw [if_neg hh]; simp
  | entered hh => left; rw [order, if_pos hh]; exact List.mem_cons_self
  | @body s b ok t _ ih =>
    rcases ih with h | h
    · left
      rw [order]
      by_cases hh : header s = true
      · rw [if_pos hh]; exact List.mem_cons_of_mem _ h
      · rw [if_neg hh]; exact List.mem_append_left _ h
    · right
      rw [events]
      exact List.mem_cons_of_mem _ (List.mem_append_left _ h)
  | _ => right; rw [events]; simp

theorem noted_after_statement (E : Env S X) (r : Run S) (top : S) (stale : List X) (st : St S X) (hk : Noted E st)
    (hr : Regular E.header r) (hn : (begun r).Nodup) (hf : ∀ s ∈ begun r, s ∉ st.log ∧ st.prev ≠ some s)
    {s : S} (hc : Completed E.header r s) {x : X} (hx : x ∈ E.binds s)
    (ha : s ∈ order E.header r ∨ x ∈ stale ∧ (Found (E.code top) x ∨ x ∈ E.reads top ∧ x ∈ st.syms)) :
    x ∈ (exec E (events r ++ [.endModule top stale]) st).noted := by
  rw [exec_append]
  have hcase : s ∈ order E.header r ∨ Ev.iter ∈ (events r : List (Ev S X)) ∧ x ∈ stale ∧ (Found (E.code top) x ∨ x ∈ E.reads top ∧ x ∈ st.syms) := by
    rcases completed_or_loop (X := X) hc with h | h
    · exact .inl h
    · rcases ha with h' | h'
      · exact .inl h'
      · exact .inr ⟨h, h'⟩
  rcases hcase with h | ⟨h, hv, ha⟩
  · -- dealt with
    refine exec_kept E _ _ x ?_
    have hb : begun r ≠ [] := by
      intro hb
      rw [(nothing_of_begun (X := X) hb E.header).2] at h
      cases h
    have hd : Ready E st (begun r) := by
      refine ⟨fun t ht => (hf t ht).1, fun t ht hp => ?_⟩
      unfold pend at hp
      cases hpr : st.prev with
      | none => rw [hpr] at hp; cases hp
      | some p =>
        rw [hpr] at hp
        by_cases hh : E.header p = true ∧ p ∉ st.log
        · simp only [if_pos hh, List.mem_singleton] at hp
          exact (hf t ht).2 (hp ▸ hpr)
        · simp only [if_neg hh] at hp
          cases hp
    obtain ⟨h1, _⟩ := does E r st hr hn hd hb
    refine exec_noted E _ hk s ?_ x hx
    rw [h1]
    exact List.mem_append_right _ h
  · -- a loop
    have hs : (exec E (events r) st).since = true := iter_since E h (events_inner r)
    show x ∈ (endModule E top stale (exec E (events r) st)).noted
    unfold endModule
    rw [hs]
    show x ∈ (introduce E top stale (resync E top stale (exec E (events r) st))).noted
    by_cases hin : x ∈ (exec E (events r) st).syms
    · refine List.mem_append_left _ (List.mem_append_right _ ?_)
      rw [List.mem_filter, List.mem_append]
      refine ⟨?_, by simp [hv, hin]⟩
      rcases ha with h | h
      · exact .inr (mem_dead.2 h)
      · exact .inl h.1
    · refine List.mem_append_right _ ?_
      rw [List.mem_filter]
      refine ⟨?_, by simp [hv, hin, resync]⟩
      rcases ha with h | h
      · exact mem_dead.2 h
      · exact absurd (exec_syms E _ _ x h.2) hin

theorem endModule_log (E : Env S X) (s : S) (stale : List X) (st : St S X) : (endModule E s stale st).log = st.log := by
  unfold endModule skipped introduce resync
  cases st.since <;> rfl

theorem endModule_prev (E : Env S X) (s : S) (stale : List X) (st : St S X) : (endModule E s stale st).prev = st.prev := by
  unfold endModule skipped introduce resync
  cases st.since <;> rfl

theorem exec_one (E : Env S X) (r : Run S) (hr : Regular E.header r) (hn : (begun r).Nodup) (st : St S X) (hp : pend E st = [])
    (hf : ∀ s ∈ begun r, s ∉ st.log) :
    (exec E (events r) st).log = st.log ++ order E.header r ∧ pend E (exec E (events r) st) = [] ∧
      ((exec E (events r) st).prev = st.prev ∨ ∃ q ∈ begun r, (exec E (events r) st).prev = some q) := by
  by_cases hb : begun r = []
  · have h0 := nothing_of_begun (X := X) hb E.header
    rw [h0.1, h0.2, List.append_nil]
    exact ⟨rfl, hp, .inl rfl⟩
  · obtain ⟨h1, h2, h3⟩ := does E r st hr hn ⟨hf, fun s _ h => by rw [hp] at h; cases h⟩ hb
    rw [hp, List.append_nil] at h1
    exact ⟨h1, h2, .inr h3⟩

omit [DecidableEq S] [DecidableEq X] in
theorem nodup_cell {p : S × Run S × List X} {l : List (S × Run S × List X)} (hn : ((p :: l).flatMap fun p => begun p.2.1).Nodup) :
    (begun p.2.1).Nodup ∧ (l.flatMap fun p => begun p.2.1).Nodup ∧ ∀ s ∈ begun p.2.1, ∀ q ∈ l, s ∉ begun q.2.1 := by
  rw [List.flatMap_cons, List.nodup_append] at hn
  exact ⟨hn.1, hn.2.1, fun s hs q hq hm => hn.2.2 s hs s (List.mem_flatMap.2 ⟨q, hq, hm⟩) rfl⟩

theorem cell_log (E : Env S X) (prog : List (S × Run S × List X)) : ∀ st : St S X, pend E st = [] →
    (∀ p ∈ prog, Regular E.header p.2.1) → (prog.flatMap fun p => begun p.2.1).Nodup → (∀ p ∈ prog, ∀ s ∈ begun p.2.1, s ∉ st.log) →
    (exec E (cellEvents prog) st).log = st.log ++ prog.flatMap fun p => order E.header p.2.1 := by
  induction prog with
  | nil => intro st _ _ _ _; simp [cellEvents, exec]
  | cons p l ih =>
    intro st hp hr hn hf
    obtain ⟨s, r, stale⟩ := p
    obtain ⟨hn1, hn2, hn3⟩ := nodup_cell hn
    obtain ⟨h1, h2, h3⟩ := exec_one E r (hr _ List.mem_cons_self) hn1 st hp (hf _ List.mem_cons_self)
    rw [cellEvents, exec_append, exec_cons]
    show (exec E (cellEvents l) (endModule E s stale (exec E (events r) st))).log = _
    rw [ih _ ?_ (fun p hp => hr p (List.mem_cons_of_mem _ hp)) hn2 ?_, endModule_log, h1, List.flatMap_cons, List.append_assoc]
    · exact (pend_alike E ⟨endModule_log E s stale _, endModule_prev E s stale _⟩).trans h2
    · intro q hq t ht
      rw [endModule_log, h1, List.mem_append]
      rintro (h | h)
      · exact hf q (List.mem_cons_of_mem _ hq) t ht h
      · exact hn3 t (order_sub _ _ t h) q hq ht

theorem cell_noted (E : Env S X) (prog : List (S × Run S × List X)) : ∀ st : St S X, pend E st = [] → Noted E st →
    (∀ p ∈ prog, Regular E.header p.2.1) → (prog.flatMap fun p => begun p.2.1).Nodup →
    (∀ p ∈ prog, ∀ s ∈ begun p.2.1, s ∉ st.log ∧ st.prev ≠ some s) →
    ∀ {top : S} {r : Run S} {stale : List X}, (top, r, stale) ∈ prog → ∀ {s : S}, Completed E.header r s → ∀ {x : X}, x ∈ E.binds s →
    s ∈ order E.header r ∨ x ∈ stale ∧ (Found (E.code top) x ∨ x ∈ E.reads top ∧ x ∈ st.syms) → x ∈ (exec E (cellEvents prog) st).noted := by
  induction prog with
  | nil => intro st _ _ _ _ _ top r stale hm; cases hm
  | cons p l ih =>
    intro st hp hk hr hn hf top r stale hm s hc x hx ha
    obtain ⟨s', r', stale'⟩ := p
    obtain ⟨hn1, hn2, hn3⟩ := nodup_cell hn
    have hev : cellEvents ((s', r', stale') :: l) = (events r' ++ [.endModule s' stale']) ++ cellEvents l := by
      rw [cellEvents, List.append_assoc]; rfl
    rw [hev, exec_append]
    rcases List.mem_cons.1 hm with h | h
    · obtain ⟨rfl, rfl, rfl⟩ : top = s' ∧ r = r' ∧ stale = stale' := by
        simpa using h
      exact exec_kept E _ _ x (noted_after_statement E r top stale st hk (hr _ List.mem_cons_self) hn1 (hf _ List.mem_cons_self) hc hx ha)
    · obtain ⟨h1, h2, h3⟩ := exec_one E r' (hr _ List.mem_cons_self) hn1 st hp fun t ht => (hf _ List.mem_cons_self t ht).1
      have hst : exec E (events r' ++ [.endModule s' stale']) st = endModule E s' stale' (exec E (events r') st) := by
        rw [exec_append]; rfl
      rw [hst]
      refine ih _ ((pend_alike E ⟨endModule_log E s' stale' _, endModule_prev E s' stale' _⟩).trans h2) ?_
        (fun p hp => hr p (List.mem_cons_of_mem _ hp)) hn2 ?_ h hc hx (ha.imp_right fun h => h.imp_right fun h => h.imp_right fun h => h.imp_right fun h => ?_)
      · rw [← hst]; exact exec_noted E _ hk
      · intro q hq t ht
        rw [endModule_log, endModule_prev, h1, List.mem_append]
        have hq' := hf q (List.mem_cons_of_mem _ hq) t ht
        refine ⟨?_, ?_⟩
        · rintro (h | h)
          · exact hq'.1 h
          · exact hn3 t (order_sub _ _ t h) q hq ht
        · rcases h3 with h3 | ⟨z, hz, h3⟩
          · rw [h3]; exact hq'.2
          · rw [h3]
            intro he
            exact hn3 z hz q hq (Option.some.inj he ▸ ht)
      · rw [← hst]; exact exec_syms E _ _ x h

/-- **C103.** Same for the statements of a cell, one after the other. -/
theorem cell_dealt_with_partial (E : Env S X) (prog : List (S × Run S × List X)) (syms : List X) (hr : ∀ p ∈ prog, Regular E.header p.2.1)
    (hn : (prog.flatMap fun p => begun p.2.1).Nodup) :
    (exec E (cellEvents prog) (start syms)).log = prog.flatMap fun p => order E.header p.2.1 := by
  have := cell_log E prog (start syms) rfl hr hn fun _ _ _ _ h => (nomatch h)
  rw [this]; rfl

/-- **C104.** After a cell, each variable that a statement of it has bound has been noted: if the statement was dealt with; or, when it was run in a later iteration
only, if the variable has then another value than the one recorded, and either the outermost statement assigns it on all paths or it reads it and the variable was
known before.

Missing: other variables bound in a later iteration only; in a loop without `else` that includes all that are not read (`loop_unnoted`, `Verif.Steps.Witness`). -/
theorem noted_partial (E : Env S X) (prog : List (S × Run S × List X)) (syms : List X) (hr : ∀ p ∈ prog, Regular E.header p.2.1)
    (hn : (prog.flatMap fun p => begun p.2.1).Nodup) {top : S} {r : Run S} {stale : List X} (hm : (top, r, stale) ∈ prog)
    {s : S} (hc : Completed E.header r s) {x : X} (hx : x ∈ E.binds s)
    (ha : s ∈ order E.header r ∨ x ∈ stale ∧ (Found (E.code top) x ∨ x ∈ E.reads top ∧ x ∈ syms)) :
    x ∈ (exec E (cellEvents prog) (start syms)).noted :=
  cell_noted E prog (start syms) rfl (fun _ h => (nomatch h)) hr hn (fun _ _ _ _ => ⟨fun h => (nomatch h), fun h => (nomatch h)⟩) hm hc hx ha

/-- Nothing that was known is forgotten. -/
theorem still_known (E : Env S X) (evs : List (Ev S X)) (syms : List X) {x : X} (hx : x ∈ syms) : x ∈ (exec E evs (start syms)).syms :=
  exec_syms E evs (start syms) x hx

/-- What has been noted was bound by a statement that was dealt with, or has another value than the one recorded and is read, or assigned on all paths, by a
statement of the cell. -/
theorem only_noted (E : Env S X) (prog : List (S × Run S × List X)) (syms : List X) {x : X} (hx : x ∈ (exec E (cellEvents prog) (start syms)).noted) :
    (∃ s ∈ (exec E (cellEvents prog) (start syms)).log, x ∈ E.binds s) ∨ ∃ p ∈ prog, x ∈ p.2.2 ∧ (Found (E.code p.1) x ∨ x ∈ E.reads p.1) := by
  -- invariant over events
  have key : ∀ (evs : List (Ev S X)) (st : St S X) (A : List X), (∀ s stale, Ev.endModule s stale ∈ evs → ∀ x ∈ E.reads s ++ dead (E.code s), x ∈ stale → x ∈ A) →
      (∀ x ∈ st.noted, (∃ s ∈ st.log, x ∈ E.binds s) ∨ x ∈ A) →
      ∀ x ∈ (exec E evs st).noted, (∃ s ∈ (exec E evs st).log, x ∈ E.binds s) ∨ x ∈ A := by
    intro evs
    induction evs with
    | nil => intro st A _ h; exact h
    | cons e l ih =>
      intro st A hA h
      refine ih _ A (fun s stale hm => hA s stale (List.mem_cons_of_mem _ hm)) ?_
      have ha : ∀ s : S, ∀ x ∈ (after E s st).noted, (∃ s' ∈ (after E s st).log, x ∈ E.binds s') ∨ x ∈ A := by
        intro s x hx
        by_cases hs : s ∈ st.log
        · have : (after E s st).noted = st.noted := by unfold after; simp [hs]
          rw [this] at hx
          rw [after_log_mem E hs]
          exact h x hx
        · have : (after E s st).noted = st.noted ++ E.binds s := by unfold after; simp [hs]
          rw [this, List.mem_append] at hx
          rw [after_log E hs]
          rcases hx with hx | hx
          · rcases h x hx with ⟨t, ht, hx⟩ | h
            · exact .inl ⟨t, List.mem_append_left _ ht, hx⟩
            · exact .inr h
          · exact .inl ⟨s, by simp, hx⟩
      cases e with
      | before s =>
        show ∀ x ∈ (before E s st).noted, (∃ s' ∈ (before E s st).log, x ∈ E.binds s') ∨ x ∈ A
        unfold before
        by_cases hs : s ∈ st.log
        · rw [if_pos hs]; exact h
        · rw [if_neg hs]
          show ∀ x ∈ (enterBody E st).noted, (∃ s' ∈ (enterBody E st).log, x ∈ E.binds s') ∨ x ∈ A
          unfold enterBody
          cases st.prev with
          | none => exact h
          | some p =>
            by_cases hp : E.header p = true
            · simp only [hp, if_true]; exact ha p
            · simp only [hp]; exact h
      | after s => exact ha s
      | iter => exact h
      | endModule s stale =>
        intro x hx
        have hx : x ∈ (endModule E s stale st).noted := hx
        show (∃ s' ∈ (endModule E s stale st).log, x ∈ E.binds s') ∨ x ∈ A
        rw [endModule_log]
        unfold endModule at hx
        cases hsi : st.since with
        | false => rw [hsi] at hx; exact h x hx
        | true =>
          rw [hsi] at hx
          have hx : x ∈ st.noted ++ (E.reads s ++ dead (E.code s)).filter (fun x => decide (x ∈ stale) && decide (x ∈ st.syms)) ++
            (dead (E.code s)).filter (fun x => decide (x ∈ stale) && decide (x ∉ st.syms)) := hx
          rw [List.mem_append, List.mem_append] at hx
          rcases hx with (hx | hx) | hx
          · exact h x hx
          · rw [List.mem_filter] at hx
            refine .inr (hA s stale List.mem_cons_self x hx.1 ?_)
            have := hx.2
            rw [Bool.and_eq_true, decide_eq_true_eq] at this
            exact this.1
          · rw [List.mem_filter] at hx
            refine .inr (hA s stale List.mem_cons_self x (List.mem_append_right _ hx.1) ?_)
            have := hx.2
            rw [Bool.and_eq_true, decide_eq_true_eq] at this
            exact this.1
  have hmem : ∀ (l : List (S × Run S × List X)) (s : S) (stale : List X), Ev.endModule s stale ∈ cellEvents l → ∃ r, (s, r, stale) ∈ l := by
    intro l
    induction l with
    | nil => intro s stale h; cases h
    | cons p l ih =>
      intro s stale h
      obtain ⟨s', r', stale'⟩ := p
      rw [cellEvents, List.mem_append, List.mem_cons] at h
      rcases h with h | h | h
      · exact absurd (events_inner r' _ h) id
      · simp only [Ev.endModule.injEq] at h
        exact ⟨r', h.1 ▸ h.2 ▸ List.mem_cons_self⟩
      · obtain ⟨r, hr⟩ := ih s stale h
        exact ⟨r, List.mem_cons_of_mem _ hr⟩
  have := key (cellEvents prog) (start syms) (prog.flatMap fun p => (E.reads p.1 ++ dead (E.code p.1)).filter fun x => decide (x ∈ p.2.2)) ?_ ?_ x hx
  · rcases this with h | h
    · exact .inl h
    · rw [List.mem_flatMap] at h
      obtain ⟨p, hp, h⟩ := h
      rw [List.mem_filter, decide_eq_true_eq, List.mem_append] at h
      exact .inr ⟨p, hp, h.2, h.1.elim .inr fun h => .inl (mem_dead.1 h)⟩
  · intro s stale hm y hy hyh
    obtain ⟨r, hr⟩ := hmem prog s stale hm
    exact List.mem_flatMap.2 ⟨_, hr, List.mem_filter.2 ⟨hy, by simpa using hyh⟩⟩
  · intro y hy
    cases hy

omit [DecidableEq X] in
/-- Nothing is found assigned in a loop, or a branch, without `else`. -/
theorem nothing_found (t : List X) (b : Syn X) (x : X) : ¬ Found (.branch t b (.assign [])) x := by
  intro h
  cases h with
  | target _ h => cases h; contradiction
  | both _ h => cases h; contradiction

/-- **C104 fails** for loops: in a cell made of a loop without `else`, a variable that is bound in a later iteration only, and not read in the loop, is never noted. -/
theorem loop_unnoted (E : Env S X) {top : S} {first rest : Run S} (ok : Bool) (stale syms : List X) (hr : Regular E.header (.loop top first rest .done ok))
    (hn : (begun (.loop top first rest .done ok)).Nodup) {t : List X} {b : Syn X} (hcode : E.code top = .branch t b (.assign []))
    {x : X} (hx : ∀ s ∈ order E.header (.loop top first rest .done ok), x ∉ E.binds s) (hrd : x ∉ E.reads top) :
    x ∉ (exec E (cellEvents [(top, .loop top first rest .done ok, stale)]) (start syms)).noted := by
  intro h
  rcases only_noted E _ syms h with ⟨s, hs, hb⟩ | ⟨p, hp, _, h⟩
  · rw [cell_dealt_with_partial E _ syms (by simpa using hr) (by simpa using hn)] at hs
    exact hx s (by simpa using hs) hb
  · rw [List.mem_singleton] at hp
    subst hp
    rcases h with h | h
    · exact nothing_found t b x (hcode ▸ h)
    · exact hrd h

end Verif.Steps
