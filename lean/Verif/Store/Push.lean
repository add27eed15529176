import Verif.Store.Model

/-! # C49: closures without pulling are exactly reachability -/

namespace Verif.Store
open Verif

/-- Specification: `y` is listed under `x` in the table. -/
def Lists (edges : Nat → Option (List Nat)) (x y : Nat) : Prop := ∃ l, edges x = some l ∧ y ∈ l

theorem mem_add {x y : Nat} {c : List Nat} : y ∈ add x c ↔ y = x ∨ y ∈ c := by
  unfold add
  split
  · rename_i h
    exact ⟨Or.inr, fun h' => h'.elim (fun e => e ▸ h) id⟩
  · simp [or_comm]

theorem nodup_add {x : Nat} {c : List Nat} (h : c.Nodup) : (add x c).Nodup := by
  unfold add
  split
  · exact h
  · rename_i hx
    exact List.nodup_append.2 ⟨h, by simp, fun a ha b hb e => by
      rw [List.mem_singleton] at hb; subst hb; subst e; exact hx ha⟩

theorem foldl_add (ids c : List Nat) (hc : c.Nodup) :
    (ids.foldl (fun c x => add x c) c).Nodup ∧ ∀ y, y ∈ ids.foldl (fun c x => add x c) c ↔ y ∈ c ∨ y ∈ ids := by
  induction ids generalizing c with
  | nil => exact ⟨hc, by simp⟩
  | cons a ids ih =>
    obtain ⟨h1, h2⟩ := ih (add a c) (nodup_add hc)
    refine ⟨h1, fun y => ?_⟩
    rw [List.foldl_cons, h2, mem_add, List.mem_cons]
    tauto

theorem mem_setOf {ids : List Nat} {y : Nat} : y ∈ setOf ids ↔ y ∈ ids := by
  unfold setOf; rw [(foldl_add ids [] List.nodup_nil).2]; simp

theorem nodup_setOf (ids : List Nat) : (setOf ids).Nodup := (foldl_add ids [] List.nodup_nil).1

/-- The successors as `dfs` wants them. -/
def succOf (edges : Nat → Option (List Nat)) (x : Nat) : Except Err (List Nat) := .ok ((edges x).getD [])

theorem stepOf_iff (edges : Nat → Option (List Nat)) (x y : Nat) : StepOf (succOf edges) x y ↔ Lists edges x y := by
  unfold StepOf succOf Lists
  constructor
  · rintro ⟨ys, h, hy⟩
    injection h with h
    subst h
    cases he : edges x with
    | none => rw [he] at hy; simp at hy
    | some l => rw [he] at hy; exact ⟨l, rfl, hy⟩
  · rintro ⟨l, h, hy⟩
    exact ⟨_, rfl, by rw [h]; exact hy⟩

theorem push_false (edges : Nat → Option (List Nat)) (n : Nat) (c : List Nat) (x : Nat) :
    push edges n c x false = dfs (succOf edges) n c x := by
  induction n generalizing c x with
  | zero => rfl
  | succ n ih =>
    have hf : (fun c r => push edges n c r false) = fun s y => dfs (succOf edges) n s y := by funext c r; exact ih c r
    unfold push dfs
    by_cases hx : x ∈ c
    · simp [hx]
    · rw [hf]
      simp only [hx, Bool.not_false, decide_false, Bool.and_false, Bool.false_eq_true, if_false, succOf, add]
      cases edges x <;> rfl

/-- With the first check skipped, only the successors are visited. -/
theorem push_true (edges : Nat → Option (List Nat)) (n : Nat) (c : List Nat) (x : Nat) :
    push edges (n + 1) c x true = ((edges x).getD []).foldlM (fun s y => dfs (succOf edges) n s y) (add x c) := by
  have hf : (fun c r => push edges n c r false) = fun s y => dfs (succOf edges) n s y := by funext c r; exact push_false edges n c r
  unfold push
  rw [hf]
  simp only [Bool.not_true, Bool.false_and, Bool.false_eq_true, if_false]
  cases edges x <;> rfl

/-- The loop over the start cells, all of which are already in the closure. -/
theorem pushAll_post (edges : Nat → Option (List Nat)) (n : Nat) (R : Nat → Prop) (hR : ∀ x y, R x → Lists edges x y → R y)
    (ids : List Nat) (c out : List Nat) (hsub : ∀ x ∈ ids, x ∈ c) (hc : ∀ x ∈ c, R x)
    (hcl : ∀ x ∈ c, x ∈ ids ∨ ∀ y, Lists edges x y → y ∈ c) (h : pushAll edges (n + 1) c ids = .ok out) :
    c ⊆ out ∧ (∀ x ∈ out, R x) ∧ (∀ x ∈ out, ∀ y, Lists edges x y → y ∈ out) ∧ (c.Nodup → out.Nodup) := by
  induction ids generalizing c with
  | nil =>
    simp only [pushAll, List.foldlM_nil, pure, Except.pure, Except.ok.injEq] at h
    subst h
    refine ⟨fun _ h => h, hc, fun x hx y hy => ?_, id⟩
    rcases hcl x hx with h | h
    · simp at h
    · exact h y hy
  | cons a ids ih =>
    unfold pushAll at h
    rw [List.foldlM_cons, push_true] at h
    have hac : add a c = c := by unfold add; rw [if_pos (hsub a (List.mem_cons_self ..))]
    rw [hac] at h
    cases hm : ((edges a).getD []).foldlM (fun s y => dfs (succOf edges) n s y) c with
    | error e => rw [hm] at h; simp [bind, Except.bind] at h
    | ok mid =>
      rw [hm] at h
      simp only [bind, Except.bind] at h
      have hp := foldl_post _ _ (dfs_post (succOf edges) n) _ _ _ hm
      have hreach : ∀ x y, R x → Relation.ReflTransGen (StepOf (succOf edges)) x y → R y := by
        intro x y hx hr
        induction hr with
        | refl => exact hx
        | tail _ hs ih => exact hR _ _ ih ((stepOf_iff edges _ _).1 hs)
      have hmR : ∀ x ∈ mid, R x := by
        intro x hx
        rcases hp.reach x hx with h' | ⟨r, hr, hrx⟩
        · exact hc x h'
        · refine hreach r x (hR a r (hc a (hsub a (List.mem_cons_self ..))) ?_) hrx
          cases he : edges a with
          | none => rw [he] at hr; simp at hr
          | some l => rw [he] at hr; exact ⟨l, he, hr⟩
      have hmcl : ∀ x ∈ mid, x ∈ ids ∨ ∀ y, Lists edges x y → y ∈ mid := by
        intro x hx
        by_cases hxc : x ∈ c
        · rcases hcl x hxc with h' | h'
          · rcases List.mem_cons.1 h' with rfl | h'
            · right
              rintro y ⟨l, hl, hy⟩
              exact hp.roots_mem y (by rw [hl]; exact hy)
            · exact .inl h'
          · exact .inr fun y hy => hp.mono (h' y hy)
        · right
          intro y hy
          obtain ⟨ys, hs, hall⟩ := hp.closed x hx hxc
          obtain ⟨ys', hs', hy'⟩ := (stepOf_iff edges x y).2 hy
          rw [hs] at hs'
          injection hs' with hs'
          subst hs'
          exact hall y hy'
      obtain ⟨h1, h2, h3, h4⟩ := ih mid (fun x hx => hp.mono (hsub x (List.mem_cons_of_mem _ hx))) hmR hmcl h
      exact ⟨fun x hx => h1 (hp.mono hx), h2, h3, fun hn => h4 (hp.nodup hn)⟩

theorem foldl_dfs_ok (edges : Nat → Option (List Nat)) (U : Finset Nat) (hU : ∀ x ∈ U, ∀ y, Lists edges x y → y ∈ U) (n : Nat)
    (hn : U.card ≤ n) (l c : List Nat) (hl : ∀ y ∈ l, y ∈ U) :
    ∃ out, l.foldlM (fun s y => dfs (succOf edges) (n + 1) s y) c = .ok out := by
  cases h : l.foldlM (fun s y => dfs (succOf edges) (n + 1) s y) c with
  | ok out => exact ⟨out, rfl⟩
  | error e =>
    exfalso
    have hU' : ∀ x ∈ U, ∀ ys, succOf edges x = .ok ys → ∀ y ∈ ys, y ∈ U := fun x hx ys hs y hy =>
      hU x hx y ((stepOf_iff edges x y).1 ⟨ys, hs, hy⟩)
    have hfuel : ∀ seen : List Nat, (U.filter (· ∉ seen)).card ≤ n := fun seen => le_trans (Finset.card_filter_le _ _) hn
    cases e with
    | fuel =>
      exact foldl_noFuel (succOf edges) U n _ (dfs_post _ _)
        (fun seen x hx hc => dfs_noFuel (succOf edges) U hU' (by simp [succOf]) n seen x hx hc) l c hl (hfuel c) h
    | crash =>
      have : ∀ (l c : List Nat), l.foldlM (fun s y => dfs (succOf edges) (n + 1) s y) c ≠ .error .crash := by
        intro l
        induction l with
        | nil => intro c h; simp [pure, Except.pure] at h
        | cons a l ih =>
          intro c h
          rw [List.foldlM_cons] at h
          cases hd : dfs (succOf edges) (n + 1) c a with
          | ok mid => rw [hd] at h; exact ih mid h
          | error e =>
            rw [hd] at h
            simp only [bind, Except.bind, Except.error.injEq] at h
            subst h
            obtain ⟨y, _, hy⟩ := dfs_crash _ _ _ _ hd
            simp [succOf] at hy
      exact this l c h

theorem pushAll_ok (edges : Nat → Option (List Nat)) (U : Finset Nat) (hU : ∀ x ∈ U, ∀ y, Lists edges x y → y ∈ U) (n : Nat)
    (hn : U.card ≤ n) (ids c : List Nat) (hi : ∀ y ∈ ids, y ∈ U) : ∃ out, pushAll edges (n + 2) c ids = .ok out := by
  induction ids generalizing c with
  | nil => exact ⟨c, rfl⟩
  | cons a ids ih =>
    unfold pushAll
    rw [List.foldlM_cons, push_true]
    obtain ⟨mid, hm⟩ := foldl_dfs_ok edges U hU n hn ((edges a).getD []) (add a c) (fun y hy => by
      refine hU a (hi a (List.mem_cons_self ..)) y ?_
      cases he : edges a with
      | none => rw [he] at hy; simp at hy
      | some l => rw [he] at hy; exact ⟨l, he, hy⟩)
    rw [hm]
    exact ih mid fun y hy => hi y (List.mem_cons_of_mem _ hy)

/-- What the loop over the start cells computes. -/
theorem pushAll_exact (edges : Nat → Option (List Nat)) (n : Nat) (start out : List Nat)
    (h : pushAll edges (n + 1) (setOf start) start = .ok out) :
    out.Nodup ∧ ∀ y, y ∈ out ↔ ∃ x ∈ start, Relation.ReflTransGen (Lists edges) x y := by
  obtain ⟨h1, h2, h3, h4⟩ := pushAll_post edges n (fun y => ∃ x ∈ start, Relation.ReflTransGen (Lists edges) x y)
    (fun x y ⟨s, hs, hr⟩ hy => ⟨s, hs, hr.tail hy⟩) start (setOf start) out (fun x hx => mem_setOf.2 hx)
    (fun x hx => ⟨x, mem_setOf.1 hx, .refl⟩) (fun x hx => .inl (mem_setOf.1 hx)) h
  refine ⟨h4 (nodup_setOf start), fun y => ⟨h2 y, ?_⟩⟩
  rintro ⟨x, hx, hr⟩
  induction hr with
  | refl => exact h1 (mem_setOf.2 hx)
  | tail _ hs ih => exact h3 _ ih _ hs

/-- **C49**: in push mode (along children), and for backward closures (along parents), the computation ends on every finite graph, cyclic or
not, and gives each cell that is reachable from the start cells, and no other, once; without `inclusive` the start cells are left out. -/
theorem closure_exact (d : Data) (o : Opts) (parents inclusive : Bool) (hm : parents = true ∨ o.pull = false) (start : List Nat)
    (edges : Nat → Option (List Nat)) (he : edges = if parents then d.parents else d.children)
    (U : Finset Nat) (hU : ∀ x ∈ U, ∀ y, Lists edges x y → y ∈ U) (hs : ∀ x ∈ start, x ∈ U) (n m k : Nat) (hn : U.card + 2 ≤ n) :
    ∃ out, raw d o n m k start inclusive parents = .ok out ∧ out.Nodup ∧
      ∀ y, y ∈ out ↔ (∃ x ∈ start, Relation.ReflTransGen (Lists edges) x y) ∧ (inclusive = false → y ∉ start) := by
  obtain ⟨n', rfl⟩ : ∃ n', n = n' + 2 := ⟨n - 2, by omega⟩
  obtain ⟨out, ho⟩ := pushAll_ok edges U hU n' (by omega) start (setOf start) hs
  obtain ⟨h1, h2⟩ := pushAll_exact edges (n' + 1) start out ho
  have hr : raw d o (n' + 2) m k start inclusive parents = .ok (if inclusive then out else out.filter fun x => x ∉ start) := by
    unfold raw
    cases parents with
    | true =>
      simp only [if_true] at he ⊢
      rw [he] at ho
      rw [ho]; rfl
    | false =>
      have hp : o.pull = false := hm.resolve_left (by simp)
      simp only [Bool.false_eq_true, if_false] at he
      rw [he] at ho
      simp only [hp, Bool.false_eq_true, if_false]
      rw [ho]; rfl
  refine ⟨_, hr, ?_, fun y => ?_⟩
  · cases inclusive with
    | true => exact h1
    | false => exact h1.filter _
  · cases inclusive with
    | true => simp only [if_true, h2]; simp
    | false =>
      simp only [Bool.false_eq_true, if_false, List.mem_filter, decide_eq_true_eq, h2]
      simp

/-- A cycle 1 → 2 → 3 → 1 with a branch to 4. -/
example : let d : Data := ⟨fun _ => none, fun x => match x with
      | 1 => some [2]
      | 2 => some [3, 4]
      | 3 => some [1]
      | _ => none, fun _ => true, fun _ => false, fun _ => false, fun _ => false, fun _ => [], fun _ => [], fun _ => []⟩
    raw d ⟨false, true⟩ 10 10 10 [2, 2] true false = .ok [2, 3, 1, 4] ∧
      raw d ⟨false, true⟩ 10 10 10 [2, 2] false false = .ok [3, 1, 4] := by decide

end Verif.Store
