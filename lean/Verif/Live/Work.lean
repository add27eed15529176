import Mathlib.Logic.Relation
import Mathlib.Data.Finset.Card
import Verif.Base.Dfs

/-!
# Live-reference analysis: functions defined in other cells (C36, C63)

Models the work list of `_compute_call_chain_live_symbols_and_cells`, `core/ipyflow/analysis/live_refs.py` 577-660. What the
analysis of one body yields is a parameter: it depends on the called symbol (with the marks of the call) only, since the
visitor is created anew for each body (lines 603-607) and resolving references does not change the scopes. Usage information
that is recorded on the way (lines 645-655) has no influence on the result and is left out.
-/

namespace Verif.Live.Work
open Verif

variable {W R : Type} [DecidableEq W]

/-- What the analysis of a called function yields: the calls it makes and the live symbols it contributes
(lines 608-644). -/
structure Body (W R : Type) where
  calls : List W
  lives : List R

/-- The loop, lines 588-644. The end of the Python list is the head of `work`. `body w` is `none` if the symbol is not a
function of the notebook (lines 594-599). The fuel bounds the number of rounds. -/
def loop (body : W → Except Err (Option (Body W R))) : Nat → List W → List W → List R → Except Err (List W × List R)
  | 0, _, _, _ => .error .fuel
  | _ + 1, [], seen, live => .ok (seen, live)
  | n + 1, w :: work, seen, live =>
    if w ∈ seen then loop body n work seen live
    else match body w with
      | .error e => .error e
      | .ok none => loop body n work seen live
      | .ok (some b) => loop body n (b.calls.reverse ++ work) (w :: seen) (live ++ b.lives)

/-- `_compute_call_chain_live_symbols_and_cells`: the functions followed and the live symbols, lines 577-660. -/
def callChain (body : W → Except Err (Option (Body W R))) (n : Nat) (init : List W) : Except Err (List W × List R) :=
  loop body n init.reverse [] []

/-! ## Specification -/

/-- `w` is a function and calls `v`. -/
def CallsTo (body : W → Except Err (Option (Body W R))) (w v : W) : Prop := ∃ b, body w = .ok (some b) ∧ v ∈ b.calls

/-- `w` is a function that one of `init` is or calls, directly or indirectly. -/
def Called (body : W → Except Err (Option (Body W R))) (init : List W) (w : W) : Prop :=
  (∃ b, body w = .ok (some b)) ∧ ∃ v ∈ init, Relation.ReflTransGen (CallsTo body) v w

/-! ## Proofs -/

variable {body : W → Except Err (Option (Body W R))}

/-- Invariants of the loop. -/
structure Inv (body : W → Except Err (Option (Body W R))) (init work seen : List W) (live : List R) : Prop where
  fromInit : ∀ w, w ∈ work ∨ w ∈ seen → ∃ v ∈ init, Relation.ReflTransGen (CallsTo body) v w
  functions : ∀ w ∈ seen, ∃ b, body w = .ok (some b)
  closed : ∀ w ∈ seen, ∀ b, body w = .ok (some b) → ∀ v ∈ b.calls, v ∈ work ∨ v ∈ seen ∨ body v = .ok none
  covers : ∀ v ∈ init, v ∈ work ∨ v ∈ seen ∨ body v = .ok none
  once : seen.Nodup
  lives : ∀ r, r ∈ live ↔ ∃ w ∈ seen, ∃ b, body w = .ok (some b) ∧ r ∈ b.lives

omit [DecidableEq W] in
theorem inv_init (init : List W) : Inv body init init.reverse [] [] where
  fromInit w hw := ⟨w, by simpa using hw, .refl⟩
  functions w hw := absurd hw List.not_mem_nil
  closed w hw := absurd hw List.not_mem_nil
  covers v hv := .inl (List.mem_reverse.2 hv)
  once := List.nodup_nil
  lives r := by simp

omit [DecidableEq W] in
theorem inv_skip {init work seen : List W} {live : List R} {w : W} (h : Inv body init (w :: work) seen live)
    (hw : w ∈ seen ∨ body w = .ok none) : Inv body init work seen live where
  fromInit v hv := h.fromInit v (hv.imp (List.mem_cons_of_mem _) id)
  functions := h.functions
  closed u hu b hb v hv := by
    rcases h.closed u hu b hb v hv with h1 | h1
    · rcases List.mem_cons.1 h1 with rfl | h1
      · exact .inr hw
      · exact .inl h1
    · exact .inr h1
  covers v hv := by
    rcases h.covers v hv with h1 | h1
    · rcases List.mem_cons.1 h1 with rfl | h1
      · exact .inr hw
      · exact .inl h1
    · exact .inr h1
  once := h.once
  lives := h.lives

omit [DecidableEq W] in
theorem inv_step {init work seen : List W} {live : List R} {w : W} {b : Body W R}
    (h : Inv body init (w :: work) seen live) (hs : w ∉ seen) (hb : body w = .ok (some b)) :
    Inv body init (b.calls.reverse ++ work) (w :: seen) (live ++ b.lives) where
  fromInit v hv := by
    rcases hv with hv | hv
    · rcases List.mem_append.1 hv with hv | hv
      · obtain ⟨u, hu, hr⟩ := h.fromInit w (.inl List.mem_cons_self)
        exact ⟨u, hu, hr.tail ⟨b, hb, List.mem_reverse.1 hv⟩⟩
      · exact h.fromInit v (.inl (List.mem_cons_of_mem _ hv))
    · rcases List.mem_cons.1 hv with rfl | hv
      · exact h.fromInit v (.inl List.mem_cons_self)
      · exact h.fromInit v (.inr hv)
  functions v hv := by
    rcases List.mem_cons.1 hv with rfl | hv
    · exact ⟨b, hb⟩
    · exact h.functions v hv
  closed u hu b' hb' v hv := by
    rcases List.mem_cons.1 hu with rfl | hu
    · rw [hb] at hb'
      cases hb'
      exact .inl (List.mem_append_left _ (List.mem_reverse.2 hv))
    · rcases h.closed u hu b' hb' v hv with h1 | h1 | h1
      · rcases List.mem_cons.1 h1 with rfl | h1
        · exact .inr (.inl List.mem_cons_self)
        · exact .inl (List.mem_append_right _ h1)
      · exact .inr (.inl (List.mem_cons_of_mem _ h1))
      · exact .inr (.inr h1)
  covers v hv := by
    rcases h.covers v hv with h1 | h1 | h1
    · rcases List.mem_cons.1 h1 with rfl | h1
      · exact .inr (.inl List.mem_cons_self)
      · exact .inl (List.mem_append_right _ h1)
    · exact .inr (.inl (List.mem_cons_of_mem _ h1))
    · exact .inr (.inr h1)
  once := List.nodup_cons.2 ⟨hs, h.once⟩
  lives r := by
    rw [List.mem_append, h.lives r]
    constructor
    · rintro (⟨u, hu, h1⟩ | h1)
      · exact ⟨u, List.mem_cons_of_mem _ hu, h1⟩
      · exact ⟨w, List.mem_cons_self, b, hb, h1⟩
    · rintro ⟨u, hu, b', hb', h1⟩
      rcases List.mem_cons.1 hu with rfl | hu
      · rw [hb] at hb'
        cases hb'
        exact .inr h1
      · exact .inl ⟨u, hu, b', hb', h1⟩

theorem loop_inv {init : List W} : ∀ (n : Nat) (work seen : List W) (live : List R) (out : List W × List R),
    Inv body init work seen live → loop body n work seen live = .ok out → Inv body init [] out.1 out.2 := by
  intro n
  induction n with
  | zero => exact fun _ _ _ _ _ h => by cases h
  | succ n ih =>
    intro work seen live out hI h
    cases work with
    | nil =>
      unfold loop at h
      cases h
      exact hI
    | cons w work =>
      unfold loop at h
      by_cases hw : w ∈ seen
      · rw [if_pos hw] at h
        exact ih _ _ _ _ (inv_skip hI (.inl hw)) h
      · rw [if_neg hw] at h
        cases hb : body w with
        | error e =>
          rw [hb] at h
          cases h
        | ok o =>
          rw [hb] at h
          cases o with
          | none => exact ih _ _ _ _ (inv_skip hI (.inr hb)) h
          | some b => exact ih _ _ _ _ (inv_step hI hw hb) h

/-- C63. The functions that the analysis follows are exactly the functions called directly or indirectly; each is followed
once; the live symbols are exactly those that these functions contribute. -/
theorem call_chain_exact {n : Nat} {init : List W} {out : List W × List R} (h : callChain body n init = .ok out) :
    (∀ w, w ∈ out.1 ↔ Called body init w) ∧ out.1.Nodup ∧
      ∀ r, r ∈ out.2 ↔ ∃ w, Called body init w ∧ ∃ b, body w = .ok (some b) ∧ r ∈ b.lives := by
  have hI := loop_inv n _ _ _ out (inv_init init) h
  have key : ∀ w, w ∈ out.1 ↔ Called body init w := by
    intro w
    constructor
    · exact fun hw => ⟨hI.functions w hw, hI.fromInit w (.inr hw)⟩
    · rintro ⟨⟨b, hb⟩, v, hv, hr⟩
      have aux : ∀ u, Relation.ReflTransGen (CallsTo body) v u → u ∈ out.1 ∨ body u = .ok none := by
        intro u hu
        induction hu with
        | refl => exact (hI.covers v hv).resolve_left List.not_mem_nil
        | tail _ hs ih =>
          obtain ⟨b', hb', hc⟩ := hs
          rcases ih with ih | ih
          · exact (hI.closed _ ih b' hb' _ hc).resolve_left List.not_mem_nil
          · rw [hb'] at ih
            cases ih
      rcases aux w hr with h1 | h1
      · exact h1
      · rw [hb] at h1
        cases h1
  refine ⟨key, hI.once, fun r => ?_⟩
  rw [hI.lives r]
  constructor
  · rintro ⟨w, hw, h1⟩
    exact ⟨w, (key w).1 hw, h1⟩
  · rintro ⟨w, hw, h1⟩
    exact ⟨w, (key w).2 hw, h1⟩

/-- The number of rounds that are left: the work list, and the calls of the functions not followed yet. -/
def rounds (body : W → Except Err (Option (Body W R))) (U : List W) (work seen : List W) : Nat :=
  work.length + ((U.filter (fun w => w ∉ seen)).map (fun w =>
    match body w with
    | .ok (some b) => b.calls.length
    | _ => 0)).sum

theorem sum_filter_le {f : W → Nat} {seen : List W} {w : W} : ∀ (U : List W), w ∈ U → w ∉ seen →
    f w + ((U.filter (fun x => x ∉ w :: seen)).map f).sum ≤ ((U.filter (fun x => x ∉ seen)).map f).sum
  | [], h, _ => absurd h List.not_mem_nil
  | u :: U, h, hn => by
    have mono : ∀ V : List W, ((V.filter (fun x => x ∉ w :: seen)).map f).sum ≤ ((V.filter (fun x => x ∉ seen)).map f).sum := by
      intro V
      induction V with
      | nil => exact le_refl _
      | cons v V ih =>
        by_cases h1 : v ∈ seen
        · rw [List.filter_cons_of_neg (by simp [h1]), List.filter_cons_of_neg (by simp [h1])]
          exact ih
        · rw [List.filter_cons_of_pos (p := fun x => decide (x ∉ seen)) (by simp [h1])]
          by_cases h2 : v = w
          · rw [List.filter_cons_of_neg (by simp [h2])]
            simp only [List.map_cons, List.sum_cons]
            omega
          · rw [List.filter_cons_of_pos (by simp [h1, h2])]
            simp only [List.map_cons, List.sum_cons]
            omega
    by_cases huw : u = w
    · subst huw
      rw [List.filter_cons_of_neg (by simp), List.filter_cons_of_pos (by simp [hn])]
      have := mono U
      simp only [List.map_cons, List.sum_cons]
      omega
    · have hU : w ∈ U := (List.mem_cons.1 h).resolve_left (fun e => huw e.symm)
      have ih := sum_filter_le (f := f) U hU hn
      by_cases h1 : u ∈ seen
      · rw [List.filter_cons_of_neg (by simp [h1]), List.filter_cons_of_neg (by simp [h1])]
        exact ih
      · rw [List.filter_cons_of_pos (by simp [h1, huw]), List.filter_cons_of_pos (by simp [h1])]
        simp only [List.map_cons, List.sum_cons]
        omega

theorem loop_returns {U : List W} (hU : ∀ w ∈ U, ∀ b, body w = .ok (some b) → ∀ v ∈ b.calls, v ∈ U)
    (hb : ∀ w, body w ≠ .error .fuel) : ∀ (n : Nat) (work seen : List W) (live : List R), (∀ w ∈ work, w ∈ U) →
      rounds body U work seen < n → loop body n work seen live ≠ .error .fuel := by
  intro n
  induction n with
  | zero => exact fun _ _ _ _ h => absurd h (Nat.not_lt_zero _)
  | succ n ih =>
    intro work seen live hw hn
    cases work with
    | nil =>
      unfold loop
      exact fun h => by cases h
    | cons w work =>
      unfold loop
      have hwork : ∀ v ∈ work, v ∈ U := fun v hv => hw v (List.mem_cons_of_mem _ hv)
      have hlt : rounds body U work seen < n := by
        unfold rounds at hn ⊢
        simp only [List.length_cons] at hn
        omega
      by_cases hs : w ∈ seen
      · rw [if_pos hs]
        exact ih _ _ _ hwork hlt
      · rw [if_neg hs]
        cases hbw : body w with
        | error e =>
          simp only
          intro h
          cases h
          exact hb w hbw
        | ok o =>
          cases o with
          | none => exact ih _ _ _ hwork hlt
          | some b =>
            simp only
            refine ih _ _ _ (fun v hv => ?_) ?_
            · rcases List.mem_append.1 hv with hv | hv
              · exact hU w (hw w List.mem_cons_self) b hbw v (List.mem_reverse.1 hv)
              · exact hwork v hv
            · have := sum_filter_le (f := fun w =>
                match body w with
                | .ok (some b) => b.calls.length
                | _ => 0) U (hw w List.mem_cons_self) hs
              simp only [hbw] at this
              unfold rounds at hn ⊢
              simp only [List.length_append, List.length_reverse, List.length_cons] at hn ⊢
              omega

/-- C36. Following calls into functions of other cells ends, however they call each other: `U` stands for the finitely many
symbols of the notebook. -/
theorem call_chain_terminates {U init : List W} (hinit : ∀ w ∈ init, w ∈ U)
    (hU : ∀ w ∈ U, ∀ b, body w = .ok (some b) → ∀ v ∈ b.calls, v ∈ U) (hb : ∀ w, body w ≠ .error .fuel) :
    ∃ n, ∀ m, n ≤ m → callChain body m init ≠ .error .fuel := by
  refine ⟨rounds body U init.reverse [] + 1, fun m hm => ?_⟩
  exact loop_returns hU hb m _ _ _ (fun w hw => hinit w (List.mem_reverse.1 hw)) (by omega)

/-- Two functions that call each other and a third symbol that is not a function; both contribute. -/
example : ∃ out, callChain (W := Nat) (R := Nat)
      (fun w => .ok (if w = 0 then some ⟨[1, 2], [10]⟩ else if w = 1 then some ⟨[0, 1], [11]⟩ else none)) 20 [0] = .ok out ∧
    out.1 = [1, 0] ∧ out.2 = [10, 11] := ⟨_, rfl, rfl, rfl⟩

end Verif.Live.Work
