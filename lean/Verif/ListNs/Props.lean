import Verif.ListNs.Model

set_option linter.unusedSectionVars false

/-! # Properties of the per-element symbols of a list: C23, C24 -/

namespace Verif.ListNs
open Verif
variable {σ α : Type}

/-! ## Specification -/

/-- Only elements of a list of length `n` have symbols. -/
def Within (n : Int) (T : Tab σ) : Prop := ∀ j, T j ≠ none → 0 ≤ j ∧ j < n

/-- The index at which `list.insert(i, _)` puts the element in a list of length `n` (Python semantics). -/
def insertIdx (n i : Int) : Int := if i < 0 then max 0 (n + i) else min i n

/-- The index of the element that `del lst[i]` or `lst.pop(i)` removes from a list of length `n` (Python semantics). -/
def itemIdx (n i : Int) : Int := if i < 0 then n + i else i

/-- `T'` has, for every element of the list of length `n` before an insertion at `p`, the symbol that it had in `T`. -/
def FollowsInsert (n p : Int) (T T' : Tab σ) : Prop :=
  ∀ j, 0 ≤ j → j < n → T' (if j < p then j else j + 1) = T j

/-- `T'` has, for every element of the list of length `n` that is left after the deletion at `p`, the symbol that it had
in `T`; and no other symbols. -/
def FollowsDelete (n p : Int) (T T' : Tab σ) : Prop :=
  (∀ j, 0 ≤ j → j < n → j ≠ p → T' (if j < p then j else j - 1) = T j) ∧ Within (n - 1) T'

/-! ## Lemmas -/

theorem remap_apply (T : Tab σ) (a b j : Int) (hb : T b = none) :
    remap T a b j = if j = b then T a else if j = a then none else T j := by
  unfold remap
  cases ha : T a with
  | none =>
    simp only
    by_cases h1 : j = b
    · rw [if_pos h1, h1, hb]
    · by_cases h2 : j = a
      · rw [if_neg h1, if_pos h2, h2, ha]
      · rw [if_neg h1, if_neg h2]
  | some s =>
    simp only [Function.update_apply]

theorem up_apply (n : Int) (T : Tab σ) (hT : T (n - 1) = none) (m : Nat) (j : Int) :
    up n m T j = if n - 1 - m < j ∧ j ≤ n - 1 then T (j - 1) else if j = n - 1 - m then none else T j := by
  induction m generalizing j with
  | zero =>
    simp only [up]
    rw [if_neg (by omega)]
    split
    · rename_i h; rw [h]; simpa using hT
    · rfl
  | succ m ih =>
    simp only [up]
    rw [remap_apply _ _ _ _ (by rw [ih]; rw [if_neg (by omega), if_pos (by omega)])]
    rw [ih, ih]
    by_cases h1 : j = n - 1 - m
    · subst h1
      rw [if_pos rfl, if_neg (by omega), if_neg (by omega), if_pos (by omega)]
    · rw [if_neg h1]
      by_cases h2 : j = n - 1 - m - 1
      · subst h2
        rw [if_pos rfl, if_neg (by omega), if_pos (by omega)]
      · rw [if_neg h2]
        by_cases h3 : n - 1 - m < j ∧ j ≤ n - 1
        · rw [if_pos h3, if_pos (by omega)]
        · rw [if_neg h3, if_neg h1, if_neg (by omega), if_neg (by omega)]

theorem down_apply (pos : Int) (T : Tab σ) (hT : T pos = none) (m : Nat) (j : Int) :
    down pos m T j = if pos ≤ j ∧ j < pos + m then T (j + 1) else if j = pos + m then none else T j := by
  induction m generalizing j with
  | zero =>
    simp only [down]
    rw [if_neg (by omega)]
    split
    · rename_i h; rw [h]; simpa using hT
    · rfl
  | succ m ih =>
    simp only [down]
    rw [remap_apply _ _ _ _ (by rw [ih]; rw [if_neg (by omega), if_pos (by omega)])]
    rw [ih, ih]
    by_cases h1 : j = pos + 1 + m - 1
    · subst h1
      rw [if_pos rfl, if_neg (by omega), if_neg (by omega), if_pos (by omega)]
      congr 1; omega
    · rw [if_neg h1]
      by_cases h2 : j = pos + 1 + m
      · subst h2
        rw [if_pos rfl, if_neg (by omega), if_pos (by omega)]
      · rw [if_neg h2]
        by_cases h3 : pos ≤ j ∧ j < pos + m
        · rw [if_pos h3, if_pos (by omega)]
        · rw [if_neg h3, if_neg (by omega), if_neg (by omega), if_neg (by omega)]

theorem deleteName_follows {n p : Int} {T : Tab σ} (hT : Within n T) (hp : 0 ≤ p ∧ p < n) :
    FollowsDelete n p T (shuffleDown (n - 1) p (Function.update T p none)) := by
  have key : ∀ j, shuffleDown (n - 1) p (Function.update T p none) j =
      if p ≤ j ∧ j < n - 1 then T (j + 1) else if j = n - 1 then none else T j := by
    intro j
    unfold shuffleDown
    rw [down_apply _ _ (by simp)]
    have hm : (((n - 1 + 1 - (p + 1)).toNat : Nat) : Int) = n - 1 - p := by omega
    rw [hm]
    have e : p + (n - 1 - p) = n - 1 := by omega
    rw [e]
    by_cases h1 : p ≤ j ∧ j < n - 1
    · rw [if_pos h1, if_pos h1, Function.update_of_ne (by omega)]
    · rw [if_neg h1, if_neg h1]
      by_cases h2 : j = n - 1
      · rw [if_pos h2, if_pos h2]
      · rw [if_neg h2, if_neg h2, Function.update_of_ne]
        omega
  constructor
  · intro j h0 h1 hne
    rw [key]
    by_cases h2 : j < p
    · rw [if_pos h2, if_neg (by omega), if_neg (by omega)]
    · rw [if_neg h2, if_pos (by omega)]
      congr 1; omega
  · intro j hj
    rw [key] at hj
    by_cases h1 : p ≤ j ∧ j < n - 1
    · omega
    · rw [if_neg h1] at hj
      by_cases h2 : j = n - 1
      · rw [if_pos h2] at hj; exact absurd rfl hj
      · rw [if_neg h2] at hj
        have := hT j hj
        omega

/-! ## Properties -/

/-- C23, partial. Insertion at an index between zero and the length, with at most one symbol known for the inserted
object: it does not raise, every element keeps its symbol, the inserted element gets the new symbol, and no other index
has one.

Missing: negative indices, indices beyond the end, and inserted objects with several names, see `insert_violated`. -/
theorem insert_follows_partial (n i : Int) (nsyms : Nat) (fresh : σ) (T : Tab σ) (hT : Within n T)
    (hi : 0 ≤ i ∧ i ≤ n) (hs : nsyms ≤ 1) :
    ∃ T', listInsert (n + 1) i nsyms fresh T = .ok T' ∧ FollowsInsert n (insertIdx n i) T T' ∧
      T' (insertIdx n i) = some fresh ∧ Within (n + 1) T' := by
  have hnone : ∀ j, ¬ (0 ≤ j ∧ j < n) → T j = none := by
    intro j hj
    by_contra h
    exact hj (hT j h)
  have hidx : insertIdx n i = i := by unfold insertIdx; rw [if_neg (by omega), min_eq_left hi.2]
  have key : ∀ j, shuffleUp (n + 1) i T j = if i < j ∧ j ≤ n then T (j - 1) else if j = i then none else T j := by
    intro j
    unfold shuffleUp
    rw [up_apply _ _ (hnone _ (by omega))]
    have hm : (((n + 1 - 1 - i).toNat : Nat) : Int) = n - i := by omega
    rw [hm]
    have e : n + 1 - 1 - (n - i) = i := by omega
    have e' : n + 1 - 1 = n := by omega
    rw [e, e']
  have hTi : shuffleUp (n + 1) i T i = none := by rw [key, if_neg (by omega), if_pos rfl]
  have happ : ∀ j, upsert (shuffleUp (n + 1) i T) i fresh j =
      if j = i then some fresh else if i < j ∧ j ≤ n then T (j - 1) else T j := by
    intro j
    unfold upsert
    rw [hTi]
    simp only [Function.update_apply]
    by_cases hj : j = i
    · rw [if_pos hj, if_pos hj]
    · rw [if_neg hj, if_neg hj, key, if_neg hj]
  refine ⟨upsert (shuffleUp (n + 1) i T) i fresh, ?_, ?_, ?_, ?_⟩
  · unfold listInsert
    rw [if_neg (by omega)]
    simp only
    rw [if_neg (by omega)]
  · intro j h0 h1
    rw [hidx, happ]
    by_cases h2 : j < i
    · rw [if_pos h2, if_neg (by omega), if_neg (by omega)]
    · rw [if_neg h2, if_neg (by omega), if_pos (by omega)]
      congr 1; omega
  · rw [hidx, happ, if_pos rfl]
  · intro j hj
    rw [happ] at hj
    by_cases h1 : j = i
    · omega
    · rw [if_neg h1] at hj
      by_cases h2 : i < j ∧ j ≤ n
      · omega
      · rw [if_neg h2] at hj
        have := hT j hj; omega

/-- A list of four elements of which the first, second and last have symbols. -/
def tEx : Tab Nat := fun j => if j = 0 then some 100 else if j = 1 then some 101 else if j = 3 then some 103 else none

theorem within_tEx : Within 4 tEx := by
  intro j hj
  unfold tEx at hj
  split at hj
  · omega
  · split at hj
    · omega
    · split at hj
      · omega
      · exact absurd rfl hj

example : Within 4 tEx ∧ (0 : Int) ≤ 1 ∧ ((listInsert 5 1 1 7 tEx).toOption.map fun T => (List.range 5).map fun k => T k) =
    some [some 100, some 7, some 101, none, some 103] := ⟨within_tEx, by decide, by decide⟩

/-- C23 fails for negative indices (all symbols move, also those of elements that stay), for indices beyond the end
(the handler raises, although `list.insert` accepts them) and for inserted objects with two names (no symbol moves). -/
theorem insert_violated :
    (∃ T', listInsert 5 (-1) 1 7 tEx = .ok T' ∧ ¬ FollowsInsert 4 (insertIdx 4 (-1)) tEx T') ∧
    listInsert 5 9 1 7 tEx = .error .crash ∧
    (∃ T', listInsert 5 1 2 7 tEx = .ok T' ∧ ¬ FollowsInsert 4 (insertIdx 4 1) tEx T') := by
  refine ⟨⟨upsert (shuffleUp 5 (-1) tEx) (-1) 7, rfl, ?_⟩, rfl, ⟨tEx, rfl, ?_⟩⟩
  · intro h
    have := h 1 (by decide) (by decide)
    revert this
    decide
  · intro h
    have := h 1 (by decide) (by decide)
    revert this
    decide

/-- C24, partial, `del lst[i]` and `lst.pop(i)` for an index from -1 to the length: the symbol of the removed element is
gone, every other element keeps its symbol, and no index outside the list has one.

Missing: indices below -1, `pop()` without argument, and lists with a symbol under a negative name (which an assignment
to `lst[-1]` creates, see `negative_name_violated`), see `delete_violated`. -/
theorem delete_follows_partial (n i : Int) (T : Tab σ) (hT : Within n T) (hn : 0 < n) (hi : -1 ≤ i ∧ i < n) :
    FollowsDelete n (itemIdx n i) T (deleteName (n - 1) i T) ∧
    FollowsDelete n (itemIdx n i) T (listPop (n - 1) (some i) T) := by
  have hname : delName (n - 1) i T = itemIdx n i := by
    unfold delName itemIdx
    by_cases h : i = -1
    · subst h
      have : T (-1) = none := by
        by_contra hne
        have := hT _ hne; omega
      rw [if_pos ⟨this, rfl⟩, if_pos (by omega)]
      omega
    · rw [if_neg (fun h' => h h'.2), if_neg (by omega)]
  have : FollowsDelete n (itemIdx n i) T (deleteName (n - 1) i T) := by
    unfold deleteName
    rw [hname]
    refine deleteName_follows hT ?_
    unfold itemIdx
    split <;> omega
  exact ⟨this, this⟩

example : Within 4 tEx ∧ (List.range 4).map (fun k => deleteName 3 1 tEx k) = [some 100, none, some 103, none] ∧
    (List.range 4).map (fun k => deleteName 3 (-1) tEx k) = [some 100, some 101, none, none] :=
  ⟨within_tEx, by decide, by decide⟩

/-- C24, `lst.remove(v)` for a value in the list: the first element equal to `v` loses its symbol and all others keep
theirs. -/
theorem remove_follows [DecidableEq α] (L : List α) (v : α) (hv : v ∈ L) (T : Tab σ) (hT : Within L.length T) :
    FollowsDelete L.length (L.idxOf v) T (listRemove L v T) := by
  have h1 : L.idxOf v < L.length := List.idxOf_lt_length_of_mem hv
  unfold listRemove
  rw [if_pos hv]
  have := (delete_follows_partial (L.length : Int) (L.idxOf v : Int) T hT (by omega) (by omega)).1
  have e : itemIdx (L.length : Int) (L.idxOf v : Int) = L.idxOf v := by unfold itemIdx; rw [if_neg (by omega)]
  rwa [e] at this

example : Within ([5, 6, 7, 6] : List Nat).length tEx ∧ 6 ∈ ([5, 6, 7, 6] : List Nat) ∧
    (List.range 4).map (fun k => listRemove ([5, 6, 7, 6] : List Nat) 6 tEx k) = [some 100, none, some 103, none] :=
  ⟨within_tEx, by decide, by decide⟩

/-- C24, `lst.remove(v)` for a value not in the list (which raises `ValueError` in the list itself) leaves the symbols. -/
theorem remove_absent [DecidableEq α] (L : List α) (v : α) (hv : v ∉ L) (T : Tab σ) : listRemove L v T = T := by
  unfold listRemove; rw [if_neg hv]

example : 9 ∉ ([5, 6] : List Nat) := by decide

/-- C24 fails after an assignment to `lst[-1]` (deleting `lst[-1]` then moves the symbols of all elements), for an index
below -1 (the symbols of all elements move down by one, the first to `-1`) and for `pop()`
(the symbol of the removed last element stays). -/
theorem delete_violated :
    ¬ FollowsDelete 4 (itemIdx 4 (-1)) tEx (deleteName 3 (-1) (upsert tEx (-1) 99)) ∧
    ¬ FollowsDelete 4 (itemIdx 4 (-2)) tEx (deleteName 3 (-2) tEx) ∧
    ¬ FollowsDelete 4 (itemIdx 4 (-1)) tEx (listPop 3 none tEx) := by
  refine ⟨?_, ?_, ?_⟩
  · intro h
    have := h.1 0 (by decide) (by decide) (by decide)
    revert this
    decide
  · intro h
    have := h.1 0 (by decide) (by decide) (by decide)
    revert this
    decide
  · intro h
    have := h.2 3 (by decide)
    revert this
    decide

/-- C59, partial. As long as only elements have symbols, looking up any valid index, negative ones included, gives the
symbol of the element it denotes.

Missing: lists with a symbol under a negative name, see `negative_name_violated`. -/
theorem lookup_follows_partial (n i : Int) (T : Tab σ) (hT : Within n T) (hi : -n ≤ i ∧ i < n) :
    lookup n i T = T (itemIdx n i) := by
  unfold lookup itemIdx
  by_cases h : i < 0
  · have : T i = none := by
      by_contra hne
      have := hT i hne; omega
    rw [this, if_pos h, if_pos h]
  · simp only [if_neg h]
    cases T i <;> rfl

example : Within 4 tEx ∧ lookup 4 (-3) tEx = some 101 ∧ lookup 4 (-2) tEx = none := ⟨within_tEx, by decide, by decide⟩

/-- C59 fails after an assignment to `lst[-1]`: a second symbol appears for the last element, so that `lst[3]` and
`lst[-1]` have different symbols; and after an insertion at the end, `lst[-1]` still has the symbol of what is now the
second to last element. -/
theorem negative_name_violated :
    let T := upsert tEx (-1) 99
    lookup 4 (-1) T = some 99 ∧ lookup 4 3 T = some 103 ∧
    ∃ T', listInsert 5 4 1 7 T = .ok T' ∧ lookup 5 4 T' = some 7 ∧ lookup 5 (-1) T' = some 99 :=
  ⟨by decide, by decide, _, rfl, by decide, by decide⟩

end Verif.ListNs
