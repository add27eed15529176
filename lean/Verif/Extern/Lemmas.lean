import Verif.Extern.Spec

/-!
# Lemmas for C114
-/

namespace Verif.Extern
open Verif

theorem inArgs_iff {c : Call} {s : Nat} : s ∈ argSyms c ↔ InArgs c s := by
  unfold argSyms InArgs
  rw [List.mem_flatMap]
  simp only [List.mem_append]

/-- Marks are only added. -/
theorem mark_mono {w : World} {r : Rec} {deps : List Nat} {s : Nat} : ∀ p ∈ r.marks, p ∈ (mark w r deps s).1.marks := by
  intro p hp
  unfold mark
  dsimp only
  split
  · exact hp
  · split
    · exact hp
    · exact List.mem_cons_of_mem _ hp

theorem mark_new {w : World} {r : Rec} {deps : List Nat} {s s' : Nat} {d : List Nat}
    (h : Marked (mark w r deps s).1 s' d) :
    Marked r s' d ∨ (s' = s ∧ d = deps.filter (· ≠ s) ∧ (w.sym s).loaded = false ∧
      w.kind (w.sym s).obj ≠ .frozen ∧ w.kind (w.sym s).obj ≠ .bytearray) := by
  unfold Marked mark at *
  dsimp only at h
  split at h
  · exact .inl h
  · split at h
    · exact .inl h
    · rename_i h1 h2
      rcases List.mem_cons.1 h with h | h
      · injection h with e1 e2
        exact .inr ⟨e1, e2, by simpa using h1, fun e => h2 (.inl e), fun e => h2 (.inr e)⟩
      · exact .inl h

theorem mark_deps_sub {w : World} {r : Rec} {deps : List Nat} {s x : Nat} (h : x ∈ (mark w r deps s).2) : x ∈ deps := by
  unfold mark at h
  dsimp only at h
  split at h
  · exact h
  · split at h
    · exact h
    · exact (List.mem_filter.1 h).1

theorem mark_deps_keep {w : World} {r : Rec} {deps : List Nat} {s x : Nat} (h : x ∈ deps) (hx : x ≠ s) :
    x ∈ (mark w r deps s).2 := by
  unfold mark
  dsimp only
  split
  · exact h
  · split
    · exact h
    · exact List.mem_filter.2 ⟨h, by simpa using hx⟩

theorem mark_self {w : World} {r : Rec} {deps : List Nat} {s : Nat} (h1 : (w.sym s).loaded = false)
    (h2 : w.kind (w.sym s).obj ≠ .frozen) (h3 : w.kind (w.sym s).obj ≠ .bytearray) :
    Marked (mark w r deps s).1 s (deps.filter (· ≠ s)) := by
  unfold Marked mark
  dsimp only
  rw [h1, if_neg (by simp), if_neg (by rintro (h | h); exacts [h2 h, h3 h])]
  exact List.mem_cons_self

theorem mark_cleared {w : World} {r : Rec} {deps : List Nat} {s : Nat} : (mark w r deps s).1.cleared = r.cleared := by
  unfold mark
  dsimp only
  split
  · rfl
  · split <;> rfl

theorem markAll_mono {w : World} : ∀ (l : List Nat) (r : Rec) (deps : List Nat), ∀ p ∈ r.marks, p ∈ (markAll w r deps l).marks
  | [], _, _, _, hp => hp
  | _ :: ss, _, _, p, hp => markAll_mono ss _ _ p (mark_mono p hp)

theorem markAll_new {w : World} : ∀ (l : List Nat) (r : Rec) (deps : List Nat) (s : Nat) (d : List Nat),
    Marked (markAll w r deps l) s d → Marked r s d ∨ (s ∈ l ∧ (∀ x ∈ d, x ∈ deps) ∧
      (∀ x ∈ deps, x ∉ l → x ∈ d) ∧ (w.sym s).loaded = false ∧
      w.kind (w.sym s).obj ≠ .frozen ∧ w.kind (w.sym s).obj ≠ .bytearray)
  | [], _, _, _, _, h => .inl h
  | a :: l, r, deps, s, d, h => by
    rcases markAll_new l _ _ s d h with h | ⟨h1, h2, h3, h4⟩
    · rcases mark_new h with h | ⟨rfl, rfl, h5⟩
      · exact .inl h
      · refine .inr ⟨by simp, fun x hx => (List.mem_filter.1 hx).1, fun x hx hn => ?_, h5⟩
        rw [List.mem_cons, not_or] at hn
        exact List.mem_filter.2 ⟨hx, by simpa using hn.1⟩
    · refine .inr ⟨List.mem_cons_of_mem _ h1, fun x hx => mark_deps_sub (h2 x hx), fun x hx hn => ?_, h4⟩
      rw [List.mem_cons, not_or] at hn
      exact h3 x (mark_deps_keep hx hn.1) hn.2

theorem markAll_all {w : World} : ∀ (l : List Nat) (r : Rec) (deps : List Nat) (s : Nat), s ∈ l → (w.sym s).loaded = false →
    w.kind (w.sym s).obj ≠ .frozen → w.kind (w.sym s).obj ≠ .bytearray → ∃ d, Marked (markAll w r deps l) s d
  | [], _, _, _, h, _, _, _ => by simp at h
  | a :: l, r, deps, s, h, h1, h2, h3 => by
    rcases List.mem_cons.1 h with rfl | h
    · exact ⟨_, markAll_mono l _ _ _ (mark_self h1 h2 h3)⟩
    · exact markAll_all l _ _ s h h1 h2 h3

theorem markAll_cleared {w : World} : ∀ (l : List Nat) (r : Rec) (deps : List Nat), (markAll w r deps l).cleared = r.cleared
  | [], _, _ => rfl
  | _ :: l, _, _ => (markAll_cleared l _ _).trans mark_cleared

/-- The symbols that `mutate_caller` goes through. -/
theorem mutateCaller_eq {w : World} {c : Call} {o : Nat} {r : Rec} :
    ∃ l, mutateCaller w c (some o) r = markAll w r (argSyms c) l ∧ (∀ s ∈ l, s ∈ w.names o) ∧
      (∀ s, CalledBy w c o s → s ∈ l) := by
  unfold mutateCaller
  dsimp only
  cases hn : c.name with
  | none =>
    exact ⟨w.names o, by rw [if_pos rfl], fun _ h => h, fun _ h => h.1⟩
  | some n =>
    dsimp only
    by_cases he : (w.names o).filter (fun s => (w.sym s).name = n) = []
    · rw [if_pos he]
      exact ⟨w.names o, rfl, fun _ h => h, fun _ h => h.1⟩
    · rw [if_neg he]
      refine ⟨_, rfl, fun s h => (List.mem_filter.1 h).1, fun s h => List.mem_filter.2 ⟨h.1, ?_⟩⟩
      simpa using h.2.2 n hn

theorem mutateCaller_marks {w : World} {c : Call} {o s : Nat} {r : Rec} (hw : Wf w)
    (h2 : w.kind o ≠ .frozen) (h3 : w.kind o ≠ .bytearray) (hs : CalledBy w c o s) :
    ∃ d, Marked (mutateCaller w c (some o) r) s d := by
  obtain ⟨l, he, -, hl⟩ := mutateCaller_eq (w := w) (c := c) (o := o) (r := r)
  rw [he]
  have ho := hw o s hs.1
  exact markAll_all l _ _ s (hl s hs) hs.2.1 (by rw [ho]; exact h2) (by rw [ho]; exact h3)

theorem mutateCaller_new {w : World} {c : Call} {caller : Option Nat} {r : Rec} {s : Nat} {d : List Nat}
    (h : Marked (mutateCaller w c caller r) s d) : Marked r s d ∨ ∃ o, caller = some o ∧ s ∈ w.names o ∧
      (∀ x ∈ d, InArgs c x) ∧ (∀ x, InArgs c x → x ∉ w.names o → x ∈ d) ∧
      w.kind (w.sym s).obj ≠ .frozen ∧ w.kind (w.sym s).obj ≠ .bytearray := by
  cases caller with
  | none => exact .inl h
  | some o =>
    obtain ⟨l, he, hl, -⟩ := mutateCaller_eq (w := w) (c := c) (o := o) (r := r)
    rw [he] at h
    rcases markAll_new l _ _ s d h with h | ⟨h1, h2, h3, -, h4⟩
    · exact .inl h
    · exact .inr ⟨o, rfl, hl s h1, fun x hx => inArgs_iff.1 (h2 x hx),
        fun x hx hn => h3 x (inArgs_iff.2 hx) fun hm => hn (hl x hm), h4⟩

theorem argMutate_mono {w : World} : ∀ (l : List Nat) (r : Rec), ∀ p ∈ r.marks, p ∈ (argMutate w r l).marks
  | [], _, _, hp => hp
  | s :: ss, r, p, hp => by
    unfold argMutate
    refine argMutate_mono ss _ p ?_
    split
    · exact hp
    · exact mark_mono p hp

theorem argMutate_new {w : World} : ∀ (l : List Nat) (r : Rec) (s : Nat) (d : List Nat), Marked (argMutate w r l) s d →
    Marked r s d ∨ (s ∈ l ∧ w.kind (w.sym s).obj ≠ .frozen ∧ w.kind (w.sym s).obj ≠ .bytearray)
  | [], _, _, _, h => .inl h
  | a :: l, r, s, d, h => by
    unfold argMutate at h
    rcases argMutate_new l _ s d h with h | h
    · split at h
      · exact .inl h
      · rcases mark_new h with h | ⟨rfl, -, -, h⟩
        · exact .inl h
        · exact .inr ⟨by simp, h⟩
    · exact .inr ⟨List.mem_cons_of_mem _ h.1, h.2⟩

theorem argMutate_all {w : World} : ∀ (l : List Nat) (r : Rec) (s : Nat), s ∈ l → (w.sym s).anonymous = false →
    (w.sym s).loaded = false → w.kind (w.sym s).obj ≠ .frozen → w.kind (w.sym s).obj ≠ .bytearray →
    ∃ d, Marked (argMutate w r l) s d
  | [], _, _, h, _, _, _, _ => by simp at h
  | a :: l, r, s, h, h0, h1, h2, h3 => by
    unfold argMutate
    rcases List.mem_cons.1 h with rfl | h
    · rw [h0, if_neg (by simp)]
      exact ⟨_, argMutate_mono l _ _ (mark_self h1 h2 h3)⟩
    · exact argMutate_all l _ s h h0 h1 h2 h3

theorem depending_sub {w : World} {f : List Nat} {args : List (Nat × List Nat)} {a : Nat × List Nat}
    (h : a ∈ depending w f args) : ∃ b ∈ args, a.1 = b.1 ∧ ∀ s ∈ a.2, s ∈ b.2 := by
  unfold depending at h
  obtain ⟨b, hb, rfl⟩ := List.mem_map.1 (List.mem_filter.1 h).1
  exact ⟨b, hb, rfl, fun s hs => (List.mem_filter.1 hs).1⟩

theorem choose_cases {w : World} {c : Call} {h : Handler} (hc : choose w c = some h) :
    (found w c = none ∧ h = .standard) ∨ (found w c = some .notYet ∧ h = .standard) ∨
      (found w c = some h ∧ h ≠ .noop ∧ h ≠ .notYet) := by
  unfold choose at hc
  split at hc
  · simp at hc
  split at hc
  · simp at hc
  split at hc
  · simp at hc
  split at hc
  · simp at hc
  split at hc
  · injection hc with e; exact .inl ⟨by assumption, e.symm⟩
  · simp at hc
  · injection hc with e; exact .inr (.inl ⟨by assumption, e.symm⟩)
  · rename_i h' h1 h2 h3
    injection hc with e
    subst e
    refine .inr (.inr ⟨h3, ?_, ?_⟩)
    · rintro rfl; exact h1 rfl
    · rintro rfl; exact h2 rfl

/-- What becomes of the annotation found, `tracing/external_calls/__init__.py` 85-91. -/
def pick : Option Handler → Option Handler
  | none => some .standard
  | some .noop => none
  | some .notYet => some .standard
  | some h => some h

theorem choose_eq {w : World} {c : Call} (h1 : silent w c = false) (h2 : ownCaller w c = false)
    (h3 : callerOf w c = none ∨ c.method ≠ none) (h4 : c.func ≠ .unhashable) : choose w c = pick (found w c) := by
  unfold choose
  rw [h1, h2, if_neg (by simp), if_neg (by simp), if_neg (by rintro ⟨a, b⟩; rcases h3 with h | h; exacts [a h, h b])]
  cases hf : c.func with
  | unhashable => exact absurd hf h4
  | meth k m =>
    dsimp only
    cases found w c with
    | none => rfl
    | some h => cases h <;> rfl
  | print =>
    dsimp only
    cases found w c with
    | none => rfl
    | some h => cases h <;> rfl
  | plain =>
    dsimp only
    cases found w c with
    | none => rfl
    | some h => cases h <;> rfl

theorem container_caller {w : World} {c : Call} {o : Nat} {m : Meth} (h : OnContainer w c o m) :
    callerOf w c = some o ∧ moduleOf w c = none := by
  have : onModule w c = false := by
    unfold onModule; rw [h.caller]
    rcases h.kind with e | e | e <;> simp [e, Kind.isModule]
  unfold callerOf moduleOf
  rw [this]
  exact ⟨h.caller, h.module⟩

theorem choose_container {w : World} {c : Call} {o : Nat} {m : Meth} (h : OnContainer w c o m) :
    choose w c = pick (registered (w.kind o) m) := by
  obtain ⟨hc, hm⟩ := container_caller h
  rw [choose_eq]
  · congr 1
    unfold found
    rw [h.func, hc, h.method]
    dsimp only
    cases hr : registered (w.kind o) m with
    | some _ => rfl
    | none =>
      dsimp only
      split <;> rfl
  · unfold silent; rw [hm, h.func]; rfl
  · unfold ownCaller; rw [hc]
    rcases h.kind with e | e | e <;> simp [e]
  · right; rw [h.method]; simp
  · rw [h.func]; simp

theorem other_caller {w : World} {c : Call} {o : Nat} {m : Meth} (h : OnOther w c o m) :
    callerOf w c = some o ∧ moduleOf w c = c.module := by
  have : onModule w c = false := by
    unfold onModule; rw [h.caller]; simp [h.kind, Kind.isModule]
  unfold callerOf moduleOf
  rw [this]
  exact ⟨h.caller, rfl⟩

theorem choose_other {w : World} {c : Call} {o : Nat} {m : Meth} (h : OnOther w c o m) :
    choose w c = some .standard := by
  obtain ⟨hc, hm⟩ := other_caller h
  rw [choose_eq]
  · have : found w c = none := by
      unfold found
      rw [h.func, hc, h.method]
      simp [h.kind, registered]
    rw [this]; rfl
  · unfold silent; rw [hm, h.func]
    cases hk : c.module with
    | none => rfl
    | some k =>
      rcases h.module k hk with e | e <;> simp [e]
  · unfold ownCaller; rw [hc]; simp [h.kind]
  · right; rw [h.method]; simp
  · rw [h.func]; simp

theorem module_caller {w : World} {c : Call} {k : Nat} (h : OfModule w c k) :
    callerOf w c = none ∧ moduleOf w c = some k := by
  rcases h.caller with hc | hc
  · have : onModule w c = false := by unfold onModule; rw [hc]
    unfold callerOf moduleOf
    rw [this]
    exact ⟨hc, h.module⟩
  · have : onModule w c = true := by unfold onModule; rw [hc]; simp [h.kind, Kind.isModule]
    unfold callerOf moduleOf
    rw [this, h.module]
    exact ⟨rfl, rfl⟩

theorem choose_module {w : World} {c : Call} {k : Nat} (h : OfModule w c k) : choose w c = some .standard := by
  obtain ⟨hc, hm⟩ := module_caller h
  rw [choose_eq]
  · have : found w c = none := by
      unfold found
      rw [h.func, hc]
    rw [this]; rfl
  · unfold silent; rw [hm, h.func]; simp [h.kind]
  · unfold ownCaller; rw [hc]
  · exact .inl hc
  · rw [h.func]; simp

end Verif.Extern
