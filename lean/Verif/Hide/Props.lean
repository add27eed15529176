import Verif.Hide.Spec

/-!
# C144: Tracebacks show the frames of the program, and no others -/

namespace Verif.Hide
open Verif Spec

theorem within_iff (s t : Text) : within s t = true ↔ s <:+: t := by
  induction t with
  | nil => simp [within]
  | cons c t ih => simp [within, ih, List.infix_cons_iff]

theorem hidden_iff (N : Names) (f : Frame) : hidden N f = true ↔ Marked N f := by
  simp only [hidden, Marked, Bool.or_eq_true, decide_eq_true_eq, within_iff, List.isPrefixOf_iff_prefix, or_assoc]

theorem Tb.det {next : Nat → Option Nat} {t : Option Nat} {l l' : List Nat} (h : Tb next t l) (h' : Tb next t l') : l = l' := by
  induction h generalizing l' with
  | nil => cases h'; rfl
  | cons _ ih => cases h' with
    | cons h' => rw [ih h']

theorem Tb.suffix {next : Nat → Option Nat} {t : Option Nat} {l : List Nat} (h : Tb next t l) {a : Nat} (ha : a ∈ l) :
    ∃ m, Tb next (some a) (a :: m) ∧ (a :: m) <:+ l := by
  induction h with
  | nil => cases ha
  | @cons b l h ih =>
    by_cases e : a = b
    · subst e; exact ⟨l, .cons h, List.suffix_refl _⟩
    · rcases List.mem_cons.1 ha with e' | ha
      · exact absurd e' e
      · obtain ⟨m, h1, h2⟩ := ih ha
        exact ⟨m, h1, h2.trans (List.suffix_cons _ _)⟩

/-- A traceback has no node twice. -/
theorem Tb.nodup {next : Nat → Option Nat} {t : Option Nat} {l : List Nat} (h : Tb next t l) : l.Nodup := by
  induction h with
  | nil => exact List.nodup_nil
  | @cons a l h ih =>
    refine List.nodup_cons.2 ⟨fun ha => ?_, ih⟩
    obtain ⟨m, h1, h2⟩ := Tb.suffix h ha
    have := Tb.det h1 (.cons h)
    rw [this] at h2
    have := h2.length_le
    simp only [List.length_cons] at this
    omega

/-- Pointers that are not followed do not matter. -/
theorem Tb.congr {next next' : Nat → Option Nat} {t : Option Nat} {l : List Nat} (h : Tb next t l) (e : ∀ n ∈ l, next' n = next n) : Tb next' t l := by
  induction h with
  | nil => exact .nil
  | @cons a l h ih =>
    refine .cons ?_
    rw [e a List.mem_cons_self]
    exact ih fun n hn => e n (List.mem_cons_of_mem _ hn)

theorem nodes_eq {next : Nat → Option Nat} {t : Option Nat} {l : List Nat} (h : Tb next t l) {fuel : Nat} (hf : l.length ≤ fuel) : nodes next fuel t = .ok l := by
  induction h generalizing fuel with
  | nil => cases fuel <;> rfl
  | @cons a l h ih =>
    cases fuel with
    | zero => simp at hf
    | succ n =>
      simp only [List.length_cons] at hf
      simp only [nodes, ih (show l.length ≤ n by omega)]
      rfl

theorem allNodes_eq {next : Nat → Option Nat} {ts : List (Option Nat)} {ls : List (List Nat)} (h : Tbs next ts ls) {fuel : Nat} (hf : ∀ l ∈ ls, l.length ≤ fuel) :
    allNodes next fuel ts = .ok ls := by
  induction h with
  | nil => rfl
  | cons h1 _ ih =>
    simp only [allNodes, nodes_eq h1 (hf _ List.mem_cons_self), ih fun l hl => hf l (List.mem_cons_of_mem _ hl)]
    rfl

/-- The nodes that are not hidden. -/
def kept (N : Names) (w : World) (l : List Nat) : List Nat := l.filter fun n => !hidden N (w.frame n)

/-- The loop from a node `p` on that is kept. -/
theorem loop_from (N : Names) {l : List Nat} {p : Nat} {w : World} (h : Tb w.next (some p) (p :: l)) {fuel : Nat} (hf : l.length ≤ fuel) :
    ∃ w', loop N fuel w (some p) (w.next p) = .ok w' ∧ w'.frame = w.frame ∧ Tb w'.next (some p) (p :: kept N w l) ∧
      (∀ n, n ∉ p :: l → w'.next n = w.next n) ∧
      ∀ n, w'.next n ≠ w.next n → ∃ t, w.next n = some t ∧ t ∈ l ∧ hidden N (w.frame t) = true := by
  induction l generalizing p w fuel with
  | nil =>
    have hp : w.next p = none := by
      cases h with
      | cons h => cases hn : w.next p with
        | none => rfl
        | some t => rw [hn] at h; cases h
    refine ⟨w, ?_, rfl, h, fun _ _ => rfl, fun n hn => absurd rfl hn⟩
    rw [hp]
    cases fuel <;> rfl
  | cons t l ih =>
    have hnd := Tb.nodup h
    obtain ⟨hp, ht⟩ : w.next p = some t ∧ Tb w.next (some t) (t :: l) := by
      cases h with
      | cons h =>
        cases hn : w.next p with
        | none => rw [hn] at h; cases h
        | some t' => rw [hn] at h; cases h with
          | cons h => exact ⟨rfl, .cons h⟩
    have htp : t ≠ p := by
      rintro rfl
      exact (List.nodup_cons.1 hnd).1 List.mem_cons_self
    cases fuel with
    | zero => simp at hf
    | succ n =>
    simp only [List.length_cons] at hf
    rw [hp]
    by_cases hh : hidden N (w.frame t) = true
    · have h' : Tb (w.link p (w.next t)).next (some p) (p :: l) := by
        refine .cons ?_
        have e : (w.link p (w.next t)).next p = w.next t := by simp [World.link]
        rw [e]
        cases ht with
        | cons ht =>
          refine Tb.congr ht fun m hm => ?_
          have : m ≠ p := by
            rintro rfl
            exact (List.nodup_cons.1 hnd).1 (List.mem_cons_of_mem _ hm)
          simp [World.link, this]
      obtain ⟨w', e1, e2, e3, e4, e5⟩ := ih h' (show l.length ≤ n by omega)
      refine ⟨w', ?_, e2, ?_, ?_, ?_⟩
      · have e : (w.link p (w.next t)).next t = (w.link p (w.next t)).next p := by simp [World.link, htp]
        simp only [loop, hh, if_true]
        rw [e]
        exact e1
      · have : kept N w (t :: l) = kept N (w.link p (w.next t)) l := by simp [kept, hh, World.link]
        rw [this]
        exact e3
      · intro m hm
        have h1 : m ≠ p := fun e => hm (by simp [e])
        rw [e4 m (fun h' => hm (by rcases List.mem_cons.1 h' with h' | h' <;> simp [h']))]
        simp [World.link, h1]
      · intro m hm
        by_cases h1 : m = p
        · subst h1; exact ⟨t, hp, List.mem_cons_self, hh⟩
        · have e : (w.link p (w.next t)).next m = w.next m := by simp [World.link, h1]
          obtain ⟨s, h2, h3, h4⟩ := e5 m (by rw [e]; exact hm)
          rw [e] at h2
          exact ⟨s, h2, List.mem_cons_of_mem _ h3, h4⟩
    · obtain ⟨w', e1, e2, e3, e4, e5⟩ := ih ht (show l.length ≤ n by omega)
      refine ⟨w', ?_, e2, ?_, ?_, ?_⟩
      · simp only [loop, hh, if_false, Bool.false_eq_true]
        exact e1
      · have : kept N w (t :: l) = t :: kept N w l := by simp [kept, hh]
        rw [this]
        refine .cons ?_
        have : w'.next p = w.next p := e4 p (List.nodup_cons.1 hnd).1
        rw [this, hp]
        exact e3
      · intro m hm
        exact e4 m fun h' => hm (List.mem_cons_of_mem _ h')
      · intro m hm
        obtain ⟨s, h2, h3, h4⟩ := e5 m hm
        exact ⟨s, h2, List.mem_cons_of_mem _ h3, h4⟩

/-- The whole loop. -/
theorem loop_all (N : Names) {l : List Nat} {a : Nat} {w : World} (h : Tb w.next (some a) (a :: l)) {fuel : Nat} (hf : l.length < fuel) :
    ∃ w', loop N fuel w none (some a) = .ok w' ∧ w'.frame = w.frame ∧ Tb w'.next (some a) (a :: kept N w l) ∧
      (∀ n, n ∉ a :: l → w'.next n = w.next n) ∧
      ∀ n, w'.next n ≠ w.next n → ∃ t, w.next n = some t ∧ t ∈ l ∧ hidden N (w.frame t) = true := by
  cases fuel with
  | zero => omega
  | succ n => exact loop_from N h (fuel := n) (by omega)

theorem Tb.next_mem {next : Nat → Option Nat} {t : Option Nat} {l : List Nat} (h : Tb next t l) {n s : Nat} (hn : n ∈ l) (hs : next n = some s) : s ∈ l := by
  obtain ⟨m, h1, h2⟩ := Tb.suffix h hn
  cases h1 with
  | cons h1 =>
    rw [hs] at h1
    cases h1 with
    | cons _ => exact h2.subset (by simp)

theorem Tbs.congr {next next' : Nat → Option Nat} {ts : List (Option Nat)} {ls : List (List Nat)} (h : Tbs next ts ls) (e : ∀ l ∈ ls, ∀ n ∈ l, next' n = next n) :
    Tbs next' ts ls := by
  induction h with
  | nil => exact .nil
  | cons h1 _ ih => exact .cons (Tb.congr h1 (e _ List.mem_cons_self)) (ih fun l hl => e l (List.mem_cons_of_mem _ hl))

/-- What is shown in general, when the exceptions that the raised one came from have tracebacks of their own: the frames that are not recognised, for the raised one; and
everything for the others. -/
theorem shown_exact (N : Names) {w : World} {a : Nat} {l : List Nat} {causes : List (Option Nat)} {ls : List (List Nat)} (h : Tb w.next (some a) (a :: l))
    (hc : Tbs w.next causes ls) (hd : ∀ m ∈ ls, ∀ n ∈ m, n ∉ a :: l) {fuel : Nat} (hf : ∀ m ∈ (a :: l) :: ls, m.length ≤ fuel) :
    ∃ w' k, showtraceback N false fuel w (some a :: causes) = .ok (w', some (k :: ls)) ∧ k.Sublist l ∧ ∀ n, n ∈ k ↔ n ∈ l ∧ ¬ Marked N (w.frame n) := by
  have hl : l.length < fuel := by have := hf _ List.mem_cons_self; simp only [List.length_cons] at this; omega
  obtain ⟨w', e1, e2, e3, e4, _⟩ := loop_all N h hl
  have hk : (a :: kept N w l).length ≤ fuel := by
    have := List.length_filter_le (fun n => !hidden N (w.frame n)) l
    simp only [List.length_cons, kept] at *
    omega
  refine ⟨w', kept N w l, ?_, List.filter_sublist, fun n => ?_⟩
  · simp only [showtraceback, Bool.false_eq_true, if_false, e1]
    simp only [Except.bind, nodes_eq e3 hk, allNodes_eq (Tbs.congr hc fun m hm n hn => e4 n (hd m hm n hn)) fun m hm => hf m (List.mem_cons_of_mem _ hm), List.drop_succ_cons,
      List.drop_zero]
  · simp only [kept, List.mem_filter, Bool.not_eq_true', ← hidden_iff, Bool.not_eq_true]

/-- If just the frames of the machinery are recognised, and none is in the tracebacks of the exceptions that the raised one came from – which may share nodes with it –, then
just the other frames are shown, in order. What is missing: `user_frame_lost`; in the tracebacks of the others all frames are shown (`shown_exact`). -/
theorem shown_partial (N : Names) (own : Nat → Bool) {w : World} {a : Nat} {l : List Nat} {causes : List (Option Nat)} {ls : List (List Nat)}
    (h : Tb w.next (some a) (a :: l)) (hc : Tbs w.next causes ls) (ht : Told N own w l) (ho : ∀ m ∈ ls, ∀ n ∈ m, own n = false) {fuel : Nat}
    (hf : ∀ m ∈ (a :: l) :: ls, m.length ≤ fuel) :
    ∃ w', showtraceback N false fuel w (some a :: causes) = .ok (w', some (l.filter (fun n => !own n) :: ls)) := by
  have hl : l.length < fuel := by have := hf _ List.mem_cons_self; simp only [List.length_cons] at this; omega
  obtain ⟨w', e1, e2, e3, _, e5⟩ := loop_all N h hl
  have hk : (a :: kept N w l).length ≤ fuel := by
    have := List.length_filter_le (fun n => !hidden N (w.frame n)) l
    simp only [List.length_cons, kept] at *
    omega
  have he : kept N w l = l.filter fun n => !own n := by
    unfold kept
    refine List.filter_congr fun n hn => ?_
    have := (ht n hn).trans (hidden_iff N _).symm
    cases h1 : own n <;> cases h2 : hidden N (w.frame n) <;> simp_all
  have hcs : ∀ m ∈ ls, ∀ n ∈ m, w'.next n = w.next n := by
    intro m hm n hn
    by_contra hne
    obtain ⟨t, t1, t2, t3⟩ := e5 n hne
    have : own t = true := (ht t t2).2 ((hidden_iff N _).1 t3)
    have hmem : t ∈ m := by
      clear e3 hk he ho hf
      induction hc with
      | nil => cases hm
      | cons h1 _ ih =>
        rcases List.mem_cons.1 hm with rfl | hm
        · exact Tb.next_mem h1 hn t1
        · exact ih hm
    rw [ho m hm t hmem] at this
    cases this
  refine ⟨w', ?_⟩
  simp only [showtraceback, Bool.false_eq_true, if_false, e1]
  simp only [Except.bind, nodes_eq e3 hk, allNodes_eq (Tbs.congr hc hcs) fun m hm => hf m (List.mem_cons_of_mem _ hm), List.drop_succ_cons, List.drop_zero, he]

/-- A frame of the program in a file whose path contains `pyccolo` is not shown, wherever it is in the traceback. -/
theorem user_frame_lost (N : Names) {w : World} {a n : Nat} {l : List Nat} {causes : List (Option Nat)} {ls : List (List Nat)} (h : Tb w.next (some a) (a :: l))
    (hc : Tbs w.next causes ls) (hd : ∀ m ∈ ls, ∀ n ∈ m, n ∉ a :: l) {fuel : Nat} (hf : ∀ m ∈ (a :: l) :: ls, m.length ≤ fuel)
    (hn : "pyccolo".toList <:+: (w.frame n).file) : ∃ w' k, showtraceback N false fuel w (some a :: causes) = .ok (w', some (k :: ls)) ∧ n ∉ k := by
  obtain ⟨w', k, e, _, hk⟩ := shown_exact N h hc hd hf
  exact ⟨w', k, e, fun h' => ((hk n).1 h').2 (.inr (.inr (.inr (.inr (.inr hn)))))⟩

/-- Showing the traceback once more, as `%tb` does, shows the same. -/
theorem again (N : Names) {w : World} {a : Nat} {l : List Nat} {causes : List (Option Nat)} {ls : List (List Nat)} (h : Tb w.next (some a) (a :: l))
    (hc : Tbs w.next causes ls) (hd : ∀ m ∈ ls, ∀ n ∈ m, n ∉ a :: l) {fuel : Nat} (hf : ∀ m ∈ (a :: l) :: ls, m.length ≤ fuel) :
    ∃ w' w'' s, showtraceback N false fuel w (some a :: causes) = .ok (w', s) ∧ showtraceback N false fuel w' (some a :: causes) = .ok (w'', s) := by
  have hl : l.length < fuel := by have := hf _ List.mem_cons_self; simp only [List.length_cons] at this; omega
  obtain ⟨w', e1, e2, e3, e4, _⟩ := loop_all N h hl
  have hkl := List.length_filter_le (fun n => !hidden N (w.frame n)) l
  have hk : (a :: kept N w l).length ≤ fuel := by
    simp only [List.length_cons, kept] at *
    omega
  have hc' := Tbs.congr hc fun m hm n hn => e4 n (hd m hm n hn)
  obtain ⟨w'', f1, f2, f3, f4, _⟩ := loop_all N e3 (fuel := fuel) (by simp only [kept]; omega)
  have hsub : ∀ n, n ∉ a :: l → n ∉ a :: kept N w l := by
    intro n hn h'
    rcases List.mem_cons.1 h' with h' | h'
    · exact hn (by simp [h'])
    · exact hn (List.mem_cons_of_mem _ (List.mem_filter.1 h').1)
  have hc'' := Tbs.congr hc' fun m hm n hn => f4 n (hsub n (hd m hm n hn))
  have hkk : kept N w' (kept N w l) = kept N w l := by
    simp [kept, e2, List.filter_filter]
  rw [hkk] at f3
  refine ⟨w', w'', some (kept N w l :: ls), ?_, ?_⟩
  · simp only [showtraceback, Bool.false_eq_true, if_false, e1]
    simp only [Except.bind, nodes_eq e3 hk, allNodes_eq hc' fun m hm => hf m (List.mem_cons_of_mem _ hm), List.drop_succ_cons, List.drop_zero]
  · simp only [showtraceback, Bool.false_eq_true, if_false, f1]
    simp only [Except.bind, nodes_eq f3 hk, allNodes_eq hc'' fun m hm => hf m (List.mem_cons_of_mem _ hm), List.drop_succ_cons, List.drop_zero]

/-- With `PYCCOLO_DEV_MODE` set, everything is shown and nothing is changed. -/
theorem dev_all (N : Names) {w : World} {a : Nat} {l : List Nat} {causes : List (Option Nat)} {ls : List (List Nat)} (h : Tb w.next (some a) (a :: l))
    (hc : Tbs w.next causes ls) {fuel : Nat} (hf : ∀ m ∈ (a :: l) :: ls, m.length ≤ fuel) :
    showtraceback N true fuel w (some a :: causes) = .ok (w, some (l :: ls)) := by
  simp only [showtraceback, if_true, Except.bind, nodes_eq h (hf _ List.mem_cons_self), allNodes_eq hc fun m hm => hf m (List.mem_cons_of_mem _ hm), List.drop_succ_cons,
    List.drop_zero]

end Verif.Hide
