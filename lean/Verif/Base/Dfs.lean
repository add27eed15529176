import Mathlib.Logic.Relation
import Mathlib.Data.Finset.Card
import Mathlib.Data.List.Basic

/-!
# Recursive visitors with a shared visited set

Several functions of the code base have the shape

```
def visit(self, seen):
    if self in seen: return
    seen.add(self)
    for x in successors(self):
        visit(x, seen)
```

(`slicing/mixin.py` 421-432, `api/lift.py` 82-87, `store.ts` 152-177). `dfs` is that shape. `seen` is a list in
insertion order (the Python object is a `set`). Successor computation may raise (`Err.crash`). Python recursion is
unbounded here: the recursion depth is passed as fuel, running out of it is the separate outcome `Err.fuel`, and
`dfs_terminates` shows that fuel beyond the number of nodes is never needed. -/

namespace Verif

/-- Outcomes other than a normal return: a Python exception, or exhausted fuel (an artefact of the model). -/
inductive Err where
  | crash
  | fuel
  deriving DecidableEq, Repr

variable {α : Type*} [DecidableEq α]

/-- The recursive visitor shape described at the top of this file. -/
def dfs (succ : α → Except Err (List α)) : Nat → List α → α → Except Err (List α)
  | 0, _, _ => .error .fuel
  | n + 1, seen, x =>
    if x ∈ seen then .ok seen
    else match succ x with
      | .error e => .error e
      | .ok ys => ys.foldlM (fun s y => dfs succ n s y) (seen ++ [x])

/-- `y` is a successor of `x` for a visitor whose successor computation may fail. -/
def StepOf (succ : α → Except Err (List α)) (x y : α) : Prop :=
  ∃ ys, succ x = .ok ys ∧ y ∈ ys

end Verif

namespace Verif
variable {α : Type*} [DecidableEq α]

/-- What a visit that returned normally guarantees. -/
structure VisitPost (succ : α → Except Err (List α)) (seen : List α) (roots : List α) (out : List α) : Prop where
  mono : seen ⊆ out
  roots_mem : ∀ x ∈ roots, x ∈ out
  reach : ∀ y ∈ out, y ∈ seen ∨ ∃ x ∈ roots, Relation.ReflTransGen (StepOf succ) x y
  closed : ∀ y ∈ out, y ∉ seen → ∃ ys, succ y = .ok ys ∧ ∀ z ∈ ys, z ∈ out
  nodup : seen.Nodup → out.Nodup

theorem foldl_post (succ : α → Except Err (List α)) (f : List α → α → Except Err (List α))
    (hf : ∀ seen x out, f seen x = .ok out → VisitPost succ seen [x] out) :
    ∀ (ys seen out : List α), ys.foldlM f seen = .ok out → VisitPost succ seen ys out := by
  intro ys
  induction ys with
  | nil =>
    intro seen out h
    simp only [List.foldlM_nil, pure, Except.pure, Except.ok.injEq] at h
    subst h
    exact ⟨fun _ h => h, by simp, fun y hy => .inl hy, fun y hy hn => absurd hy hn, id⟩
  | cons y ys ih =>
    intro seen out h
    rw [List.foldlM_cons] at h
    cases hfy : f seen y with
    | error e => rw [hfy] at h; simp [bind, Except.bind] at h
    | ok mid =>
      rw [hfy] at h
      simp only [bind, Except.bind] at h
      have h1 := hf _ _ _ hfy
      have h2 := ih _ _ h
      refine ⟨fun z hz => h2.mono (h1.mono hz), ?_, ?_, ?_, fun hn => h2.nodup (h1.nodup hn)⟩
      · intro x hx
        rcases List.mem_cons.1 hx with rfl | hx
        · exact h2.mono (h1.roots_mem _ (by simp))
        · exact h2.roots_mem _ hx
      · intro z hz
        rcases h2.reach z hz with hz | ⟨x, hx, hr⟩
        · rcases h1.reach z hz with hz | ⟨x, hx, hr⟩
          · exact .inl hz
          · exact .inr ⟨x, by simp only [List.mem_singleton] at hx; simp [hx], hr⟩
        · exact .inr ⟨x, List.mem_cons_of_mem _ hx, hr⟩
      · intro z hz hn
        by_cases hm : z ∈ mid
        · obtain ⟨ys', e, hc⟩ := h1.closed z hm hn
          exact ⟨ys', e, fun w hw => h2.mono (hc w hw)⟩
        · exact h2.closed z hz hm

theorem dfs_post (succ : α → Except Err (List α)) :
    ∀ (n : Nat) (seen : List α) (x : α) (out : List α), dfs succ n seen x = .ok out → VisitPost succ seen [x] out := by
  intro n
  induction n with
  | zero => intro seen x out h; simp [dfs] at h
  | succ n ih =>
    intro seen x out h
    unfold dfs at h
    by_cases hx : x ∈ seen
    · simp only [hx, if_true, Except.ok.injEq] at h
      subst h
      exact ⟨fun _ h => h, by simpa using hx, fun y hy => .inl hy, fun y hy hn => absurd hy hn, id⟩
    · simp only [hx, if_false] at h
      cases hs : succ x with
      | error e => rw [hs] at h; simp at h
      | ok ys =>
        rw [hs] at h
        have hp := foldl_post succ _ ih ys _ out h
        refine ⟨fun z hz => hp.mono (by simp [hz]), ?_, ?_, ?_, ?_⟩
        · intro z hz
          simp only [List.mem_singleton] at hz
          subst hz
          exact hp.mono (by simp)
        · intro z hz
          rcases hp.reach z hz with hz | ⟨w, hw, hr⟩
          · rcases List.mem_append.1 hz with hz | hz
            · exact .inl hz
            · simp only [List.mem_singleton] at hz
              subst hz
              exact .inr ⟨z, by simp, .refl⟩
          · exact .inr ⟨x, by simp, .head ⟨ys, hs, hw⟩ hr⟩
        · intro z hz hn
          by_cases hzx : z = x
          · subst hzx
            exact ⟨ys, hs, hp.roots_mem⟩
          · exact hp.closed z hz (by simp [hn, hzx])
        · intro hn
          apply hp.nodup
          rw [List.nodup_append]
          refine ⟨hn, by simp, ?_⟩
          intro a ha b hb
          simp only [List.mem_singleton] at hb
          subst hb
          exact fun e => hx (e ▸ ha)

/-- Visiting a list of roots one after the other with a shared visited set, starting from nothing. -/
theorem visit_exact (succ : α → Except Err (List α)) (n : Nat) (roots out : List α)
    (h : roots.foldlM (fun s y => dfs succ n s y) [] = .ok out) (y : α) :
    y ∈ out ↔ ∃ x ∈ roots, Relation.ReflTransGen (StepOf succ) x y := by
  have hp := foldl_post succ _ (dfs_post succ n) roots [] out h
  constructor
  · intro hy
    rcases hp.reach y hy with h | h
    · simp at h
    · exact h
  · rintro ⟨x, hx, hr⟩
    induction hr with
    | refl => exact hp.roots_mem x hx
    | tail _ hstep ih =>
      obtain ⟨ys, hs, hm⟩ := hstep
      obtain ⟨ys', hs', hc⟩ := hp.closed _ ih (by simp)
      rw [hs] at hs'
      cases hs'
      exact hc _ hm

/-! ### Enough fuel -/

/-- A crash cannot be produced unless some reachable successor computation crashes. -/
theorem foldl_noFuel (succ : α → Except Err (List α)) (U : Finset α) (n : Nat)
    (f : List α → α → Except Err (List α))
    (hpost : ∀ seen x out, f seen x = .ok out → VisitPost succ seen [x] out)
    (hf : ∀ seen x, x ∈ U → (U.filter (· ∉ seen)).card ≤ n → f seen x ≠ .error .fuel) :
    ∀ (ys seen : List α), (∀ y ∈ ys, y ∈ U) → (U.filter (· ∉ seen)).card ≤ n →
      ys.foldlM f seen ≠ .error .fuel := by
  intro ys
  induction ys with
  | nil => intro seen _ _ h; simp [pure, Except.pure] at h
  | cons y ys ih =>
    intro seen hU hc h
    rw [List.foldlM_cons] at h
    cases hfy : f seen y with
    | error e =>
      rw [hfy] at h
      simp only [bind, Except.bind, Except.error.injEq] at h
      exact hf seen y (hU y (by simp)) hc (by rw [hfy, h])
    | ok mid =>
      rw [hfy] at h
      simp only [bind, Except.bind] at h
      refine ih mid (fun z hz => hU z (by simp [hz])) ?_ h
      refine le_trans (Finset.card_le_card ?_) hc
      intro z hz
      simp only [Finset.mem_filter] at hz ⊢
      exact ⟨hz.1, fun hm => hz.2 ((hpost _ _ _ hfy).mono hm)⟩

/-- With a finite universe closed under successors, fuel above its size is never exhausted. -/
theorem dfs_noFuel (succ : α → Except Err (List α)) (U : Finset α)
    (hU : ∀ x ∈ U, ∀ ys, succ x = .ok ys → ∀ y ∈ ys, y ∈ U)
    (hsf : ∀ x, succ x ≠ .error .fuel) :
    ∀ (n : Nat) (seen : List α) (x : α), x ∈ U → (U.filter (· ∉ seen)).card ≤ n →
      dfs succ (n + 1) seen x ≠ .error .fuel := by
  intro n
  induction n with
  | zero =>
    intro seen x hx hc h
    have : x ∈ seen := by
      by_contra hn
      have : x ∈ U.filter (· ∉ seen) := by simp [hx, hn]
      have := Finset.card_pos.2 ⟨x, this⟩
      omega
    simp [dfs, this] at h
  | succ n ih =>
    intro seen x hx hc h
    unfold dfs at h
    by_cases hm : x ∈ seen
    · simp [hm] at h
    · simp only [hm, if_false] at h
      cases hs : succ x with
      | error e =>
        rw [hs] at h
        simp only [Except.error.injEq] at h
        exact hsf x (by rw [hs, h])
      | ok ys =>
        rw [hs] at h
        refine foldl_noFuel succ U n _ (dfs_post succ (n + 1)) ih ys (seen ++ [x]) (hU x hx ys hs) ?_ h
        have : (U.filter (· ∉ seen ++ [x])).card < (U.filter (· ∉ seen)).card := by
          apply Finset.card_lt_card
          rw [Finset.ssubset_iff_of_subset]
          · exact ⟨x, by simp [hx, hm], by simp⟩
          · intro z hz
            simp only [Finset.mem_filter, List.mem_append, not_or] at hz ⊢
            exact ⟨hz.1, hz.2.1⟩
        omega

/-- More fuel does not change an outcome that was not an exhaustion of fuel. -/
theorem dfs_fuel_mono (succ : α → Except Err (List α)) :
    ∀ (n : Nat) (seen : List α) (x : α) (r : Except Err (List α)), dfs succ n seen x = r → r ≠ .error .fuel →
      dfs succ (n + 1) seen x = r := by
  intro n
  induction n with
  | zero => intro seen x r h hr; exact absurd h.symm (by simpa [dfs] using hr)
  | succ n ih =>
    intro seen x r h hr
    unfold dfs at h ⊢
    by_cases hm : x ∈ seen
    · simpa [hm] using h
    · simp only [hm, if_false] at h ⊢
      cases hs : succ x with
      | error e => rw [hs] at h; exact h
      | ok ys =>
        rw [hs] at h
        simp only at h ⊢
        have key : ∀ (l s : List α) (r : Except Err (List α)), l.foldlM (fun s y => dfs succ n s y) s = r →
            r ≠ .error .fuel → l.foldlM (fun s y => dfs succ (n + 1) s y) s = r := by
          intro l
          induction l with
          | nil => intro s r h _; simpa using h
          | cons y l ihl =>
            intro s r h hr
            rw [List.foldlM_cons] at h ⊢
            cases hy : dfs succ n s y with
            | error e =>
              rw [hy] at h
              simp only [bind, Except.bind] at h
              have he : e ≠ .fuel := fun he => hr (by rw [← h, he])
              rw [ih s y (.error e) hy (by simpa using he)]
              exact h
            | ok mid =>
              rw [hy] at h
              rw [ih s y (.ok mid) hy (by simp)]
              exact ihl mid r h hr
        exact key ys _ r h hr

/-- A visit that raised did so at a node reachable from its root. -/
theorem dfs_crash (succ : α → Except Err (List α)) :
    ∀ (n : Nat) (seen : List α) (x : α), dfs succ n seen x = .error .crash →
      ∃ y, Relation.ReflTransGen (StepOf succ) x y ∧ succ y = .error .crash := by
  intro n
  induction n with
  | zero => intro seen x h; simp [dfs] at h
  | succ n ih =>
    intro seen x h
    unfold dfs at h
    by_cases hm : x ∈ seen
    · simp [hm] at h
    · simp only [hm, if_false] at h
      cases hs : succ x with
      | error e =>
        rw [hs] at h
        simp only [Except.error.injEq] at h
        exact ⟨x, .refl, by rw [hs, h]⟩
      | ok ys =>
        rw [hs] at h
        simp only at h
        have key : ∀ (l s : List α), (∀ y ∈ l, y ∈ ys) → l.foldlM (fun s y => dfs succ n s y) s = .error .crash →
            ∃ y ∈ ys, ∃ z, Relation.ReflTransGen (StepOf succ) y z ∧ succ z = .error .crash := by
          intro l
          induction l with
          | nil => intro s _ h; simp [pure, Except.pure] at h
          | cons y l ihl =>
            intro s hl h
            rw [List.foldlM_cons] at h
            cases hy : dfs succ n s y with
            | error e =>
              rw [hy] at h
              simp only [bind, Except.bind, Except.error.injEq] at h
              subst h
              exact ⟨y, hl y (by simp), ih s y hy⟩
            | ok mid =>
              rw [hy] at h
              exact ihl mid (fun z hz => hl z (by simp [hz])) h
        obtain ⟨y, hy, z, hr, hz⟩ := key ys _ (fun _ h => h) h
        exact ⟨z, .head ⟨ys, hs, hy⟩ hr, hz⟩

end Verif
