import Verif.Paint.Lemmas

/-!
# C145: marks on cells

After each schedule that ends a run, and when a code cell becomes active, the marks are those of the last schedule (`painted_partial`). Until the
next such event they stay, except that executed cells lose their marks of readiness (`kept`). Not so: a cell that has been executed is marked as
ready again (`run_marked_again`); a text cell that becomes active does not change the slice (`text_keeps_slice`); with `reactive` highlights the cells
that are ready are not marked (`ready_forgotten`).

# C146: notebooks side by side

The selection of one notebook is painted by the connections of all of them, the last one wins (`selected_last`), so that marks of the shown notebook
vanish (`selected_erased`), and the other notebooks forget their own cells (`mapping_lost`, `background_runs_nothing`). -/

namespace Verif.Paint
open Verif Store

/-- **C145**. After the end of a run, and when a code cell becomes active, the marks on the cells of the shown notebook are those that the last
schedule calls for, whatever they were before: `run` are the cells that running the chosen cells would run. Missing is what the theorems below say
about other events. -/
theorem painted_partial (fl : Fuel) (w w' : World) (k : Nat) (e : Event) (he : Refreshes k e) (hc : w.current = k)
    (h : step fl w e = .ok w') :
    ∃ start run, Chosen (w'.st k) start ∧ raw (w'.st k).data (w'.st k).opts fl.n fl.m fl.k start true false = .ok run ∧
      Painted w' k (w'.st k) (· ∈ run) := by
  cases he with
  | schedule p =>
    have h' : updateUI fl k k { w with st := upd w.st k (finish (receive p (w.st k))) } = .ok w' := h
    exact updateUI_painted fl k k _ w' (by exact hc) h'
  | activate a =>
    have h' : updateUI fl k k { w with st := upd w.st k { w.st k with active := some (a, true) } } = .ok w' := h
    exact updateUI_painted fl k k _ w' (by exact hc) h'

/-- **C145**. What the last schedule says is what the marks are made from; the cells that are ready are the exception, see `ready_forgotten`. -/
theorem told (fl : Fuel) (w w' : World) (k : Nat) (p : Payload) (h : step fl w (.schedule k p .done) = .ok w') :
    (w'.st k).data.waiting = p.data.waiting ∧ (w'.st k).makers = p.makers ∧ (w'.st k).data.children = p.data.children ∧
      (w'.st k).data.parents = p.data.parents ∧ (w'.st k).opts = p.opts ∧ (w'.st k).highlights = p.highlights ∧
      (w'.st k).reactive = p.reactive ∧ (w'.st k).classic = p.classic ∧
      ((p.highlights = .reactive → (w.st k).reacting = false ∧ p.reacting = false ∧ p.reactive = false) →
        (w'.st k).data.ready = p.data.ready) := by
  have h' : updateUI fl k k { w with st := upd w.st k (finish (receive p (w.st k))) } = .ok w' := h
  obtain ⟨b, hf⟩ := (updateUI_frame fl k k _ w' h').2.2.2.2.2
  dsimp only at hf
  rw [upd_same] at hf
  rw [hf]
  unfold finish
  refine ⟨?_, ?_, ?_, ?_, ?_, ?_, ?_, ?_, fun hr => ?_⟩
  case refine_9 =>
    rw [if_neg]
    · rfl
    · simp only [receive, Bool.and_eq_true]
      rintro ⟨h1, h2⟩
      obtain ⟨g1, g2, g3⟩ := hr (of_decide_eq_true h2)
      simp [g1, g2, g3] at h1
  all_goals split <;> rfl

/-- **C145**. The cells whose slice is shown are those that were selected last, or the cell that became active last. -/
theorem asked (fl : Fuel) (w w' : World) (k : Nat) (hc : w.current = k) :
    (∀ a, step fl w (.activate k (some (a, true))) = .ok w' →
      (w'.st k).active = some (a, true) ∧ (w'.st k).selected = (w.st k).selected) ∧
    ∀ ids, w.order = [k] → step fl w (.select ids) = .ok w' → (w'.st k).selected = ids ∧ (w'.st k).active = (w.st k).active := by
  constructor
  · intro a h
    have h' : updateUI fl k k { w with st := upd w.st k { w.st k with active := some (a, true) } } = .ok w' := h
    obtain ⟨b, hf⟩ := (updateUI_frame fl k k _ w' h').2.2.2.2.2
    dsimp only at hf
    rw [upd_same] at hf
    rw [hf]
    exact ⟨rfl, rfl⟩
  · intro ids ho h
    simp only [step] at h
    rw [if_pos (by rw [ho, hc]; simp), ho] at h
    simp only [List.foldlM_cons, List.foldlM_nil, bind, Except.bind] at h
    cases hj : onSelection fl ids w k with
    | error e => rw [hj] at h; cases h
    | ok u =>
      rw [hj] at h
      simp only [pure, Except.pure, Except.ok.injEq] at h
      subst h
      unfold onSelection at hj
      obtain ⟨b, hf⟩ := (updateUI_frame fl k w.current _ u hj).2.2.2.2.2
      dsimp only at hf
      rw [hc, upd_same] at hf
      rw [hf]
      exact ⟨rfl, rfl⟩

/-- **C145**. Without `pull_reactive_updates` and with finitely many cells the marks are always updated, and the marked slices are the cells computed
from the chosen ones, and the cells that these are computed from. -/
theorem painted_push_partial (fl : Fuel) (w : World) (k a : Nat) (hc : w.current = k) (hp : (w.st k).opts.pull = false)
    (U : Finset Nat) (hch : ∀ x ∈ U, ∀ y, Lists (w.st k).data.children x y → y ∈ U)
    (hpa : ∀ x ∈ U, ∀ y, Lists (w.st k).data.parents x y → y ∈ U) (ha : a ∈ U) (hs : ∀ x ∈ (w.st k).selected, x ∈ U)
    (hn : U.card + 2 ≤ fl.n) :
    ∃ w' start, step fl w (.activate k (some (a, true))) = .ok w' ∧ Chosen (w'.st k) start ∧
      Painted w' k (w'.st k) (Runs (w'.st k).data start) := by
  let w1 : World := { w with st := upd w.st k { w.st k with active := some (a, true) } }
  let σ : State := { w.st k with active := some (a, true), byId := w.cells k }
  have hstart : ∃ start, starts σ = .ok start ∧ ∀ x ∈ start, x ∈ U := by
    unfold starts
    by_cases hsel : (w.st k).selected = []
    · exact ⟨[a], by rw [if_pos (show σ.selected = [] from hsel)], by simpa using ha⟩
    · exact ⟨(w.st k).selected, by rw [if_neg (show ¬ σ.selected = [] from hsel)], hs⟩
  obtain ⟨start, hst, hsU⟩ := hstart
  obtain ⟨run, hr, -, hrun⟩ := closure_exact σ.data σ.opts false true (.inr hp) start σ.data.children rfl U hch hsU fl.n fl.m fl.k hn
  have hrunU : ∀ x ∈ run, x ∈ U := by
    intro x hx
    obtain ⟨⟨s, hs', hsx⟩, -⟩ := (hrun x).1 hx
    induction hsx with
    | refl => exact hsU s hs'
    | tail h1 h2 ih => exact hch _ (ih ((hrun _).2 ⟨⟨s, hs', h1⟩, by simp⟩)) _ h2
  obtain ⟨n', hn'⟩ : ∃ n', fl.n = n' + 1 := ⟨fl.n - 1, by omega⟩
  obtain ⟨back, hb⟩ := backs_ok σ.data.parents U hpa n' (by omega) run hrunU
  rw [← hn'] at hb
  have hw1 : w1.st k = { w.st k with active := some (a, true) } := upd_same _ _ _
  have hu : ∃ w', updateUI fl k k w1 = .ok w' := by
    refine ⟨{ w1 with
      st := upd w1.st k { w1.st k with byId := w1.cells k }
      marks := upd w1.marks k (repaint { w1.st k with byId := w1.cells k } run back (w1.cells k) (w1.marks k)) }, ?_⟩
    unfold updateUI
    rw [if_neg (by simpa [w1] using hc)]
    have hσ : { w1.st k with byId := w1.cells k } = σ := by rw [hw1]
    rw [hσ]
    simp only [bind, Except.bind]
    rw [hst]
    dsimp only
    rw [hr]
    dsimp only
    rw [hb]
    dsimp only
    rw [if_neg (by simp [σ])]
  obtain ⟨w', hw'⟩ := hu
  have hw'' : step fl w (.activate k (some (a, true))) = .ok w' := hw'
  obtain ⟨start', run', h1, h2, h3⟩ := painted_partial fl w w' k _ (.activate a) hc hw''
  obtain ⟨b, hframe⟩ := (updateUI_frame fl k k w1 w' hw').2.2.2.2.2
  rw [hw1] at hframe
  have hdata : (w'.st k).data = (w.st k).data := by rw [hframe]
  have hopts : (w'.st k).opts = (w.st k).opts := by rw [hframe]
  have hsel : (w'.st k).selected = (w.st k).selected := by rw [hframe]
  have hact : (w'.st k).active = some (a, true) := by rw [hframe]
  have hs' : ∀ x ∈ start', x ∈ U := by
    rcases h1 with ⟨_, h1⟩ | ⟨_, b, hb', h1⟩
    · rw [h1, hsel]; exact hs
    · rw [hact] at hb'
      injection hb' with hb'
      subst hb'
      rw [h1]; simpa using ha
  obtain ⟨run'', hr'', -, hrun''⟩ := closure_exact (w'.st k).data (w'.st k).opts false true (.inr (by rw [hopts]; exact hp)) start'
    (w'.st k).data.children rfl U (by rw [hdata]; exact hch) hs' fl.n fl.m fl.k hn
  rw [h2] at hr''
  injection hr'' with hr''
  subst hr''
  have hR : (fun c => c ∈ run') = Runs (w'.st k).data start' := by
    funext c
    exact propext ((hrun'' c).trans ⟨fun h => h.1, fun h => ⟨h, by simp⟩⟩)
  rw [hR] at h3
  exact ⟨w', start', hw'', h1, h3⟩

theorem onSelection_frame (fl : Fuel) (ids : List Nat) (k j : Nat) (w w' : World) (hk : w.current ≠ k) (h : onSelection fl ids w j = .ok w') :
    w'.marks k = w.marks k ∧ w'.current = w.current ∧ w'.cells = w.cells ∧ w'.order = w.order := by
  obtain ⟨h1, h2, h3, -, h5, -⟩ := updateUI_frame fl j w.current _ w' h
  exact ⟨h5 k (.inl (Ne.symm hk)), h3, h1, h2⟩

theorem select_frame (fl : Fuel) (ids : List Nat) (k : Nat) (l : List Nat) (w w' : World) (hk : w.current ≠ k)
    (h : l.foldlM (onSelection fl ids) w = .ok w') : w'.marks k = w.marks k ∧ w'.current = w.current ∧ w'.cells = w.cells := by
  induction l generalizing w with
  | nil =>
    simp only [List.foldlM_nil, pure, Except.pure, Except.ok.injEq] at h
    subst h
    exact ⟨rfl, rfl, rfl⟩
  | cons j l ih =>
    rw [List.foldlM_cons] at h
    cases hm : onSelection fl ids w j with
    | error e => rw [hm] at h; cases h
    | ok mid =>
      rw [hm] at h
      obtain ⟨g1, g2, g3, -⟩ := onSelection_frame fl ids k j w mid hk hm
      obtain ⟨i1, i2, i3⟩ := ih mid (by rw [g2]; exact hk) h
      exact ⟨i1.trans g1, i2.trans g2, i3.trans g3⟩

/-- One event that does not refresh the marks. -/
theorem quiet_kept (fl : Fuel) (k c : Nat) (w w' : World) (e : Event) (hq : Quiet k w.current e) (hc : ∃ p ∈ w.cells k, p.1 = c)
    (h : step fl w e = .ok w') (m : Mark) :
    w'.marks k c m = true ↔ w.marks k c m = true ∧ ¬ (e = .executed k c ∧ m.goes) := by
  have key : ∀ (P : Prop), w'.marks k = w.marks k → ¬ P → (w'.marks k c m = true ↔ w.marks k c m = true ∧ ¬ P) := by
    intro P h1 h2
    rw [h1]
    exact ⟨fun h => ⟨h, h2⟩, fun h => h.1⟩
  cases hq with
  | deferred j p => injection h with h; subst h; exact key _ rfl (by simp)
  | batch j p ids => injection h with h; subst h; exact key _ rfl (by simp)
  | one j p id => injection h with h; subst h; exact key _ rfl (by simp)
  | done j p hj =>
    refine key _ ((updateUI_frame fl j j _ w' h).2.2.2.2.1 k ?_) (by simp)
    rcases hj with hj | hj
    · exact .inl (Ne.symm hj)
    · by_cases e : k = j
      · subst e; exact .inr hj
      · exact .inl e
  | executed j x =>
    injection h with h
    subst h
    by_cases hj : k = j
    · subst hj
      by_cases hx : c = x
      · subst hx
        simp only [onExecution, upd_same]
        cases m <;> simp [removeMark, Mark.goes]
      · have : (onExecution k x w).marks k c = w.marks k c := by
          simp only [onExecution, upd_same]
          exact upd_other _ _ hx
        rw [this]
        simp [Ne.symm hx]
    · refine key _ ?_ (by simp [Ne.symm hj])
      simp only [onExecution]
      exact upd_other _ _ hj
  | finished j ids => injection h with h; subst h; exact key _ rfl (by simp)
  | text j a => injection h with h; subst h; exact key _ rfl (by simp)
  | active j a hj =>
    refine key _ ((updateUI_frame fl j j _ w' h).2.2.2.2.1 k ?_) (by simp)
    rcases hj with hj | hj
    · exact .inl (Ne.symm hj)
    · by_cases e : k = j
      · subst e; exact .inr hj
      · exact .inl e
  | select ids hk =>
    refine key _ ?_ (by simp)
    simp only [step] at h
    split at h
    · exact (select_frame fl ids k _ w w' hk h).1
    · injection h with h; subst h; rfl
  | cells j l =>
    injection h with h
    subst h
    have : (upd w.marks j fun c => if ∃ p ∈ w.cells j, p.1 = c then w.marks j c else fun _ => false) k c = w.marks k c := by
      by_cases hj : k = j
      · subst hj
        rw [upd_same, if_pos hc]
      · rw [upd_other _ _ hj]
    dsimp only
    rw [this]
    simp
  | switch j => injection h with h; subst h; exact key _ rfl (by simp)
  | connect j a hj =>
    refine key _ ?_ (by simp)
    simp only [step, onConnect, onActive] at h
    split at h
    · refine (updateUI_frame fl j j _ w' h).2.2.2.2.1 k ?_
      rcases hj with hj | hj
      · exact .inl (Ne.symm hj)
      · by_cases e : k = j
        · subst e; exact .inr hj
        · exact .inl e
    · injection h with h; subst h; rfl

/-- **C145**. Between such events the marks stay what they are, except that a cell that is executed loses the marks of readiness (not those of
waiting, or of making others ready), whatever else happens in this and other notebooks. -/
theorem kept (fl : Fuel) (k c : Nat) (w w' : World) (es : List Event) (h : Idle fl k c w es w') (m : Mark) :
    w'.marks k c m = true ↔ w.marks k c m = true ∧ ¬ (.executed k c ∈ es ∧ m.goes) := by
  induction h with
  | nil w => simp
  | cons hq hc h1 _ ih =>
    rw [ih, quiet_kept fl k c _ _ _ hq hc h1 m, List.mem_cons]
    constructor
    · rintro ⟨⟨g1, g2⟩, g3⟩
      exact ⟨g1, fun ⟨g4, g5⟩ => g4.elim (fun e => g2 ⟨e.symm, g5⟩) fun e => g3 ⟨e, g5⟩⟩
    · rintro ⟨g1, g2⟩
      exact ⟨⟨g1, fun g => g2 ⟨.inl g.1.symm, g.2⟩⟩, fun g => g2 ⟨.inr g.1, g.2⟩⟩

/-- **C145** (violated). A ready cell that has been executed is marked as ready again as soon as a code cell becomes active, before the next schedule
arrives. -/
theorem run_marked_again (fl : Fuel) (w w1 w2 : World) (k c a : Nat) (hc : w.current = k) (hm : (c, true) ∈ w.cells k)
    (hr : (w.st k).data.ready c = true) (hw : (w.st k).data.waiting c = false) (hh : (w.st k).highlights ≠ .none)
    (h1 : step fl w (.executed k c) = .ok w1) (h2 : step fl w1 (.activate k (some (a, true))) = .ok w2) :
    w1.marks k c .ready = false ∧ w1.marks k c .readyInput = false ∧ (w1.st k).data.executed c = true ∧
      w2.marks k c .ready = true ∧ w2.marks k c .readyInput = true := by
  injection h1 with h1
  have hm1 : w1.marks k c = removeMark .readyInput (removeMark .ready (w.marks k c)) := by
    rw [← h1]; simp only [onExecution, upd_same]
  have hd1 : (w1.st k).data.ready = (w.st k).data.ready ∧ (w1.st k).data.waiting = (w.st k).data.waiting ∧
      (w1.st k).highlights = (w.st k).highlights ∧ (w1.st k).data.executed c = true ∧ w1.cells = w.cells ∧ w1.current = k := by
    rw [← h1]
    refine ⟨?_, ?_, ?_, ?_, rfl, hc⟩ <;> simp only [onExecution, upd_same]
  obtain ⟨d1, d2, d3, d4, d5, d6⟩ := hd1
  obtain ⟨start, run, -, -, hp, -⟩ := painted_partial fl w1 w2 k _ (.activate a) d6 h2
  have h2' : updateUI fl k k { w1 with st := upd w1.st k { w1.st k with active := some (a, true) } } = .ok w2 := h2
  have hf := updateUI_frame fl k k _ w2 h2'
  obtain ⟨b, hframe⟩ := hf.2.2.2.2.2
  dsimp only at hframe
  rw [upd_same] at hframe
  have e1 : (w2.st k).data = (w1.st k).data := by rw [hframe]
  have e2 : (w2.st k).highlights = (w1.st k).highlights := by rw [hframe]
  have hm2 : (c, true) ∈ w2.cells k := by rw [hf.1]; dsimp only; rw [d5]; exact hm
  refine ⟨by rw [hm1]; simp [removeMark], by rw [hm1]; simp [removeMark], d4, (hp c .ready hm2).2 ?_, (hp c .readyInput hm2).2 ?_⟩
  · refine ⟨by rw [e2, d3]; exact hh, .inr (.inl ?_)⟩
    rw [e1, d1]; exact hr
  · refine ⟨by rw [e2, d3]; exact hh, ?_, ?_⟩
    · rw [e1, d1]; exact hr
    · rw [e1, d2, hw]; simp

/-- **C145** (violated). When a text cell becomes active, the marked slices remain those of the cell that was active before. -/
theorem text_keeps_slice (fl : Fuel) (w w' : World) (k a : Nat) (h : step fl w (.activate k (some (a, false))) = .ok w') :
    (w'.st k).active = some (a, false) ∧ w'.marks = w.marks := by
  injection h with h
  subst h
  exact ⟨by dsimp only; rw [upd_same], rfl⟩

/-- **C145** (violated). With `reactive` highlights, at the end of a reactive run the cells marked as ready are those that ran (or were to run) and
are not waiting. The client has forgotten which cells the kernel says are ready, and its closures take the ones that ran for ready. -/
theorem ready_forgotten (fl : Fuel) (w w' : World) (k : Nat) (p : Payload) (hc : w.current = k) (hp : p.reactive = true)
    (hh : p.highlights = .reactive) (h : step fl w (.schedule k p .done) = .ok w') (c : Nat) :
    ((w'.st k).data.ready c = true ↔ (w.st k).ran c = true ∨ c = p.last) ∧
      ((c, true) ∈ w'.cells k →
        (w'.marks k c .readyInput = true ↔ ((w.st k).ran c = true ∨ c = p.last) ∧ ¬ p.data.waiting c = true)) := by
  obtain ⟨start, run, -, -, hpaint, -⟩ := painted_partial fl w w' k _ (.schedule p) hc h
  have h' : updateUI fl k k { w with st := upd w.st k (finish (receive p (w.st k))) } = .ok w' := h
  obtain ⟨b, hf⟩ := (updateUI_frame fl k k _ w' h').2.2.2.2.2
  dsimp only at hf
  rw [upd_same] at hf
  have hfin : finish (receive p (w.st k)) =
      { receive p (w.st k) with
        data := { (receive p (w.st k)).data with ready := upd (w.st k).ran p.last true }, reacting := false, ran := fun _ => false } := by
    unfold finish
    have : ((receive p (w.st k)).reacting && decide ((receive p (w.st k)).highlights = .reactive)) = true := by
      simp [receive, hp, hh]
    rw [if_pos this]
    rfl
  rw [hfin] at hf
  have hd : (w'.st k).data = { (receive p (w.st k)).data with ready := upd (w.st k).ran p.last true } := by rw [hf]
  have hhl : (w'.st k).highlights = p.highlights := by rw [hf]; rfl
  have hready : (w'.st k).data.ready c = true ↔ (w.st k).ran c = true ∨ c = p.last := by
    rw [hd]
    dsimp only
    by_cases hcl : c = p.last
    · subst hcl; rw [upd_same]; simp
    · rw [upd_other _ _ hcl]; simp [hcl]
  refine ⟨hready, fun hm => (hpaint c .readyInput hm).trans ?_⟩
  simp only [Shows]
  rw [hready, hhl, hh, hd]
  simp [receive]

/-! ## Notebooks side by side -/

theorem onSelection_st (fl : Fuel) (ids : List Nat) (k : Nat) (w w' : World) (h : onSelection fl ids w k = .ok w') :
    w'.cells = w.cells ∧ w'.current = w.current ∧ (w'.st k).byId = w.cells w.current ∧
      (∀ j, j ≠ w.current → ∃ b, w'.st j = { w.st j with byId := b }) ∧ (∀ j, j ≠ k → (w'.st j).byId = (w.st j).byId) ∧
      ∃ start run, Chosen (w'.st k) start ∧ raw (w'.st k).data (w'.st k).opts fl.n fl.m fl.k start true false = .ok run ∧
        Painted w' w.current (w'.st k) (· ∈ run) := by
  unfold onSelection at h
  have hf := updateUI_frame fl k w.current _ w' h
  obtain ⟨start, run, back, g1, g2, g3, g4⟩ := updateUI_shown fl k w.current _ w' (by rfl) h
  refine ⟨hf.1, hf.2.2.1, ?_, fun j hj => ?_, fun j hj => ?_, updateUI_painted fl k w.current _ w' (by rfl) h⟩
  · rw [g4]; dsimp only; rw [upd_same]
  · by_cases hjk : j = k
    · subst hjk
      obtain ⟨b, hd⟩ := hf.2.2.2.2.2
      dsimp only at hd
      rw [upd_other _ _ hj] at hd
      exact ⟨b, hd⟩
    · have hs := hf.2.2.2.1 j hjk
      dsimp only at hs
      rw [upd_other _ _ hj] at hs
      exact ⟨(w.st j).byId, hs⟩
  · have hs := hf.2.2.2.1 j hj
    dsimp only at hs
    rw [hs]
    by_cases hjc : j = w.current
    · subst hjc; rw [upd_same]
    · rw [upd_other _ _ hjc]

theorem selects_keep (fl : Fuel) (ids : List Nat) (k : Nat) (l : List Nat) (w w' : World) (hk : k ∉ l)
    (h : l.foldlM (onSelection fl ids) w = .ok w') : (w'.st k).byId = (w.st k).byId := by
  induction l generalizing w with
  | nil =>
    simp only [List.foldlM_nil, pure, Except.pure, Except.ok.injEq] at h
    subst h; rfl
  | cons b l ih =>
    rw [List.foldlM_cons] at h
    cases hb : onSelection fl ids w b with
    | error e => rw [hb] at h; cases h
    | ok v =>
      rw [hb] at h
      rw [ih v (fun h => hk (List.mem_cons_of_mem _ h)) h]
      exact (onSelection_st fl ids b w v hb).2.2.2.2.1 k fun e => hk (by rw [e]; exact List.mem_cons_self ..)

theorem selects (fl : Fuel) (ids : List Nat) (l : List Nat) (w w' : World) (h : l.foldlM (onSelection fl ids) w = .ok w') :
    w'.cells = w.cells ∧ w'.current = w.current ∧ (∀ k ∈ l, (w'.st k).byId = w.cells w.current) ∧
      ∀ j, j ≠ w.current → ∃ b, w'.st j = { w.st j with byId := b } := by
  induction l generalizing w with
  | nil =>
    simp only [List.foldlM_nil, pure, Except.pure, Except.ok.injEq] at h
    subst h
    exact ⟨rfl, rfl, by simp, fun j _ => ⟨(w.st j).byId, rfl⟩⟩
  | cons a l ih =>
    rw [List.foldlM_cons] at h
    cases hm : onSelection fl ids w a with
    | error e => rw [hm] at h; cases h
    | ok mid =>
      rw [hm] at h
      obtain ⟨g1, g2, g4, g5, -⟩ := onSelection_st fl ids a w mid hm
      obtain ⟨i1, i2, i4, i5⟩ := ih mid h
      refine ⟨i1.trans g1, i2.trans g2, fun k hk => ?_, fun j hj => ?_⟩
      · by_cases hkl : k ∈ l
        · rw [i4 k hkl, g1, g2]
        · have hka : k = a := (List.mem_cons.1 hk).resolve_right hkl
          subst hka
          rw [selects_keep fl ids k l mid w' hkl h, g4]
      · obtain ⟨b, hb⟩ := g5 j hj
        obtain ⟨b', hb'⟩ := i5 j (by rw [g2]; exact hj)
        exact ⟨b', by rw [hb', hb]⟩

/-- **C146**. When the selection changes, the marks on the cells of the shown notebook become those of the state of the notebook that was connected
last, whichever that is. -/
theorem selected_last (fl : Fuel) (ids : List Nat) (w w' : World) (j : Nat) (l : List Nat) (ho : w.order = l ++ [j])
    (hc : w.current ∈ w.order) (h : step fl w (.select ids) = .ok w') :
    ∃ start run, Chosen (w'.st j) start ∧ raw (w'.st j).data (w'.st j).opts fl.n fl.m fl.k start true false = .ok run ∧
      Painted w' w.current (w'.st j) (· ∈ run) := by
  simp only [step] at h
  rw [if_pos hc, ho, List.foldlM_append] at h
  cases hm : l.foldlM (onSelection fl ids) w with
  | error e => rw [hm] at h; cases h
  | ok mid =>
    rw [hm] at h
    simp only [List.foldlM_cons, List.foldlM_nil, bind, Except.bind] at h
    cases hj : onSelection fl ids mid j with
    | error e => rw [hj] at h; cases h
    | ok u =>
      rw [hj] at h
      simp only [pure, Except.pure, Except.ok.injEq] at h
      subst h
      obtain ⟨-, g2, -⟩ := selects fl ids l w mid hm
      rw [← g2]
      exact (onSelection_st fl ids j mid u hj).2.2.2.2.2

/-- **C146**. If the shown notebook is the one connected last (in particular if it is the only one), the marks are those of its own state. -/
theorem selected_partial (fl : Fuel) (ids : List Nat) (w w' : World) (k : Nat) (l : List Nat) (ho : w.order = l ++ [k]) (hc : w.current = k)
    (h : step fl w (.select ids) = .ok w') :
    ∃ start run, Chosen (w'.st k) start ∧ raw (w'.st k).data (w'.st k).opts fl.n fl.m fl.k start true false = .ok run ∧
      Painted w' k (w'.st k) (· ∈ run) := by
  have := selected_last fl ids w w' k l ho (by rw [ho, hc]; simp) h
  rwa [hc] at this

/-- **C146** (violated). If another notebook was connected later, then whenever the selection in the shown notebook changes, a cell that the other
notebook knows nothing about loses all its marks, be it waiting, ready, or selected. -/
theorem selected_erased (fl : Fuel) (ids : List Nat) (w w' : World) (j c : Nat) (l : List Nat) (ho : w.order = l ++ [j])
    (hc : w.current ∈ w.order) (hj : j ≠ w.current) (hw : (w.st j).data.waiting c = false) (hr : (w.st j).data.ready c = false)
    (hm : (w.st j).makers c = false) (hs : c ∉ (w.st j).selected) (ha : ∀ b, (w.st j).active ≠ some (c, b))
    (hp : (w.st j).opts.pull = false) (U : Finset Nat) (hU : ∀ x ∈ U, ∀ y, Lists (w.st j).data.children x y → y ∈ U)
    (hsU : ∀ x ∈ (w.st j).selected, x ∈ U) (haU : ∀ x b, (w.st j).active = some (x, b) → x ∈ U) (hn : U.card + 2 ≤ fl.n)
    (hch : ∀ x, ¬ Lists (w.st j).data.children x c) (hpa : ∀ x, ¬ Lists (w.st j).data.parents x c)
    (hcell : (c, true) ∈ w.cells w.current) (h : step fl w (.select ids) = .ok w') (m : Mark) (hmc : m ≠ .classic) :
    w'.marks w.current c m = false := by
  obtain ⟨start, run, h1, h2, h3, -⟩ := selected_last fl ids w w' j l ho hc h
  simp only [step] at h
  rw [if_pos hc] at h
  obtain ⟨e1, -, -, e2⟩ := selects fl ids w.order w w' h
  obtain ⟨b, hb⟩ := e2 j hj
  rw [hb] at h1 h2 h3
  rw [e1] at h3
  have hcs : c ∉ start := by
    rcases h1 with ⟨_, h1⟩ | ⟨_, b, hb, h1⟩
    · rw [h1]; exact hs
    · rw [h1, List.mem_singleton]
      rintro rfl
      exact ha b.2 hb
  have hstU : ∀ x ∈ start, x ∈ U := by
    rcases h1 with ⟨_, h1⟩ | ⟨_, b, hb, h1⟩
    · rw [h1]; exact hsU
    · rw [h1]
      intro x hx
      rw [List.mem_singleton] at hx
      rw [hx]
      exact haU b.1 b.2 hb
  have hcr : c ∉ run := by
    obtain ⟨run', hr', -, hrun⟩ := closure_exact (w.st j).data (w.st j).opts false true (.inr hp) start
      (w.st j).data.children rfl U hU hstU fl.n fl.m fl.k hn
    rw [h2] at hr'
    injection hr' with hr'
    subst hr'
    intro hcr
    obtain ⟨⟨s, hs', hsc⟩, -⟩ := (hrun c).1 hcr
    rcases hsc.cases_tail with e | ⟨x, _, hx⟩
    · subst e; exact hcs hs'
    · exact hch x hx
  have hfeeds : ¬ Feeds (w.st j).data (· ∈ run) c := by
    rintro ⟨r, hr', hrc⟩
    rcases hrc.cases_tail with e | ⟨x, _, hx⟩
    · subst e; exact hcr hr'
    · exact hpa x hx
  rw [← Bool.not_eq_true, h3 c m hcell]
  cases m <;> simp [Shows, hw, hr, hm, hcr, hfeeds] at hmc ⊢

/-- **C146** (violated). When the selection in the shown notebook changes, every connected notebook takes the cells of the shown one for its own. -/
theorem mapping_lost (fl : Fuel) (ids : List Nat) (w w' : World) (k : Nat) (hk : k ∈ w.order) (hc : w.current ∈ w.order)
    (h : step fl w (.select ids) = .ok w') : (w'.st k).byId = w.cells w.current ∧ w'.cells = w.cells := by
  simp only [step] at h
  rw [if_pos hc] at h
  have := selects fl ids w.order w w' h
  exact ⟨this.2.2.1 k hk, this.1⟩

/-- **C146** (violated). After that, a notebook in the background that shares no cell with the shown one runs none of its cells, whichever it should run
(with in-order semantics; `ids'` are the cells that a schedule calls for). -/
theorem background_runs_nothing (fl : Fuel) (ids : List Nat) (w w' : World) (k : Nat) (hk : k ∈ w.order) (hc : w.current ∈ w.order)
    (h : step fl w (.select ids) = .ok w') (ids' : List Nat) (hd : ∀ c ∈ ids', ∀ b, (c, b) ∉ w.cells w.current) (n : Nat) :
    toCells (w'.st k).table (w'.st k).data.children false n ids' = .ok (some []) := by
  have hb := (mapping_lost fl ids w w' k hk hc h).1
  have : (ids'.filter fun x => x ∈ (w'.st k).table.keys) = [] := by
    rw [List.filter_eq_nil_iff]
    intro x hx
    rw [decide_eq_true_eq]
    intro hm
    have hm : x ∈ (w'.st k).byId.map Prod.fst := hm
    rw [hb, List.mem_map] at hm
    obtain ⟨p, hp, rfl⟩ := hm
    exact hd _ hx p.2 hp
  unfold toCells
  rw [this]
  rfl

end Verif.Paint
