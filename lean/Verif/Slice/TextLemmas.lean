import Verif.Slice.Text

namespace Verif.Slice
open Verif

theorem joinWith_cons (sep t : Text) (ts : List Text) (h : ts ≠ []) :
    joinWith sep (t :: ts) = t ++ sep ++ joinWith sep ts := by
  cases ts with
  | nil => exact absurd rfl h
  | cons a as => rfl

theorem joinWith_append (sep : Text) (a b : List Text) (ha : a ≠ []) (hb : b ≠ []) :
    joinWith sep (a ++ b) = joinWith sep a ++ sep ++ joinWith sep b := by
  induction a with
  | nil => exact absurd rfl ha
  | cons t ts ih =>
    by_cases hts : ts = []
    · subst hts; simp [joinWith_cons sep t b hb, joinWith]
    · rw [List.cons_append, joinWith_cons _ _ _ (by simp [hts]), ih hts, joinWith_cons _ _ _ hts]
      simp

/-- Joining the joins of non-empty groups is joining everything. -/
theorem joinWith_flatten (sep : Text) (ls : List (List Text)) (h : ∀ l ∈ ls, l ≠ []) :
    joinWith sep (ls.map (joinWith sep)) = joinWith sep ls.flatten := by
  induction ls with
  | nil => rfl
  | cons l ls ih =>
    have hl := h l (by simp)
    have ih' := ih (fun x hx => h x (by simp [hx]))
    by_cases hls : ls = []
    · subst hls; simp [joinWith]
    · have hf : ls.flatten ≠ [] := by
        obtain ⟨a, as, rfl⟩ := List.exists_cons_of_ne_nil hls
        simp [h a (by simp)]
      rw [List.map_cons, joinWith_cons _ _ _ (by simpa using hls), ih', List.flatten_cons,
        joinWith_append sep l _ hl hf]

/-- The texts of cell `n`, in order. -/
def textsOf (closure : List (Int × Text)) (n : Int) : List Text :=
  (closure.filter fun x => x.1 = n).map Prod.snd

structure GroupInv (l : List (Int × Text)) (d : List (Int × List Text)) : Prop where
  nodup : (d.map Prod.fst).Nodup
  entries : ∀ e ∈ d, e.2 = textsOf l e.1 ∧ e.2 ≠ []
  keys : ∀ n, n ∈ d.map Prod.fst ↔ n ∈ l.map Prod.fst

theorem keys_setdefaultAppend (k : Int) (t : Text) (d : List (Int × List Text)) :
    (setdefaultAppend k t d).map Prod.fst = if k ∈ d.map Prod.fst then d.map Prod.fst else d.map Prod.fst ++ [k] := by
  induction d with
  | nil => simp [setdefaultAppend]
  | cons e rest ih =>
    obtain ⟨k', ts⟩ := e
    unfold setdefaultAppend
    by_cases h : k' = k
    · subst h; simp
    · simp only [h, if_false, List.map_cons, ih, List.mem_cons]
      have : ¬ k = k' := fun e => h e.symm
      simp only [this, false_or]
      split <;> simp

theorem mem_setdefaultAppend (k : Int) (t : Text) (d : List (Int × List Text)) (hn : (d.map Prod.fst).Nodup)
    (e : Int × List Text) :
    e ∈ setdefaultAppend k t d ↔ (e ∈ d ∧ e.1 ≠ k) ∨
      (e.1 = k ∧ ((∃ ts, (k, ts) ∈ d ∧ e.2 = ts ++ [t]) ∨ (k ∉ d.map Prod.fst ∧ e.2 = [t]))) := by
  induction d with
  | nil =>
    obtain ⟨a, b⟩ := e
    simp [setdefaultAppend]
  | cons x rest ih =>
    obtain ⟨k', ts⟩ := x
    simp only [List.map_cons, List.nodup_cons] at hn
    unfold setdefaultAppend
    by_cases h : k' = k
    · subst h
      simp only [if_true, List.mem_cons, List.map_cons]
      constructor
      · rintro (rfl | he)
        · right; exact ⟨rfl, .inl ⟨ts, by simp, rfl⟩⟩
        · left
          refine ⟨.inr he, fun hk => hn.1 ?_⟩
          rw [← hk]
          exact List.mem_map.2 ⟨e, he, rfl⟩
      · rintro (⟨rfl | he, hne⟩ | ⟨he, h | h⟩)
        · exact absurd rfl hne
        · exact .inr he
        · obtain ⟨ts', hts, h2⟩ := h
          rcases hts with hts | hts
          · simp only [Prod.mk.injEq, true_and] at hts
            left
            obtain ⟨a, b⟩ := e
            simp only at he h2
            rw [he, h2, hts]
          · exact absurd (List.mem_map.2 ⟨_, hts, rfl⟩) hn.1
        · exact absurd (Or.inl trivial) h.1
    · simp only [h, if_false, List.mem_cons, List.map_cons]
      rw [ih hn.2]
      have h' : ¬ k = k' := fun e => h e.symm
      constructor
      · rintro (rfl | ⟨he, hne⟩ | ⟨he, hh⟩)
        · exact .inl ⟨.inl rfl, h⟩
        · exact .inl ⟨.inr he, hne⟩
        · refine .inr ⟨he, ?_⟩
          rcases hh with ⟨ts', hts, h2⟩ | ⟨h1, h2⟩
          · exact .inl ⟨ts', .inr hts, h2⟩
          · exact .inr ⟨by simp only [not_or]; exact ⟨h', h1⟩, h2⟩
      · rintro (⟨rfl | he, hne⟩ | ⟨he, hh⟩)
        · exact .inl rfl
        · exact .inr (.inl ⟨he, hne⟩)
        · refine .inr (.inr ⟨he, ?_⟩)
          rcases hh with ⟨ts', hts, h2⟩ | ⟨h1, h2⟩
          · rcases hts with hts | hts
            · simp only [Prod.mk.injEq] at hts; exact absurd hts.1 h'
            · exact .inl ⟨ts', hts, h2⟩
          · simp only [not_or] at h1
            exact .inr ⟨h1.2, h2⟩

theorem group_step (l : List (Int × Text)) (d : List (Int × List Text)) (x : Int × Text) (h : GroupInv l d) :
    GroupInv (l ++ [x]) (setdefaultAppend x.1 x.2 d) := by
  obtain ⟨k, t⟩ := x
  refine ⟨?_, ?_, ?_⟩
  · rw [keys_setdefaultAppend]
    split
    · exact h.nodup
    · rename_i hk
      rw [List.nodup_append]
      exact ⟨h.nodup, by simp, fun a ha b hb e => hk (by simp at hb; rw [← hb, ← e]; exact ha)⟩
  · intro e he
    rw [mem_setdefaultAppend _ _ _ h.nodup] at he
    rcases he with ⟨he, hne⟩ | ⟨hk, hh⟩
    · obtain ⟨h1, h2⟩ := h.entries e he
      refine ⟨?_, h2⟩
      rw [h1]
      have hne' : ¬ k = e.1 := fun e => hne e.symm
      simp [textsOf, List.filter_append, hne']
    · rcases hh with ⟨ts, hts, h2⟩ | ⟨h1, h2⟩
      · have := (h.entries _ hts).1
        simp only at this
        refine ⟨?_, by simp [h2]⟩
        rw [h2, this, hk]
        simp [textsOf, List.filter_append]
      · have hempty : l.filter (fun x => decide (x.1 = e.1)) = [] := by
          rw [List.filter_eq_nil_iff]
          intro y hy
          simp only [decide_eq_true_eq]
          intro hye
          apply h1
          rw [h.keys, ← hk, ← hye]
          exact List.mem_map.2 ⟨y, hy, rfl⟩
        refine ⟨?_, by simp [h2]⟩
        rw [h2]
        unfold textsOf
        rw [List.filter_append, hempty]
        simp [hk]
  · intro n
    rw [keys_setdefaultAppend]
    split
    · rename_i hk
      rw [h.keys] at hk
      rw [h.keys]
      simp only [List.map_append, List.mem_append, List.map_cons, List.map_nil, List.mem_singleton]
      constructor
      · exact .inl
      · rintro (h | rfl)
        · exact h
        · exact hk
    · simp only [List.mem_append, h.keys, List.map_append, List.map_cons, List.map_nil]

theorem foldl_group (l pre : List (Int × Text)) (d : List (Int × List Text)) (h : GroupInv pre d) :
    GroupInv (pre ++ l) (l.foldl (fun d x => setdefaultAppend x.1 x.2 d) d) := by
  induction l generalizing pre d with
  | nil => simpa using h
  | cons x l ih =>
    have := ih (pre ++ [x]) _ (group_step pre d x h)
    simpa using this

theorem group_inv (l : List (Int × Text)) : GroupInv l (groupByCell l) := by
  have := foldl_group l [] [] ⟨by simp, by simp, by simp⟩
  simpa [groupByCell] using this

/-- When cell numbers are in order, appending goes to the last group or opens a new last group. -/
theorem setdefaultAppend_last (k : Int) (t : Text) (d : List (Int × List Text))
    (hs : (d.map Prod.fst).Pairwise (· < ·)) (hk : ∀ n ∈ d.map Prod.fst, n ≤ k) :
    ((setdefaultAppend k t d).map Prod.fst).Pairwise (· < ·) ∧
      ((setdefaultAppend k t d).map Prod.snd).flatten = (d.map Prod.snd).flatten ++ [t] := by
  induction d with
  | nil => simp [setdefaultAppend]
  | cons e rest ih =>
    obtain ⟨k', ts⟩ := e
    simp only [List.map_cons, List.pairwise_cons] at hs
    unfold setdefaultAppend
    by_cases h : k' = k
    · subst h
      have hr : rest = [] := by
        cases rest with
        | nil => rfl
        | cons a as =>
          have h1 := hs.1 a.1 (by simp)
          have h2 := hk a.1 (by simp)
          omega
      subst hr
      simp
    · simp only [h, if_false, List.map_cons, List.pairwise_cons, List.flatten_cons]
      obtain ⟨h1, h2⟩ := ih hs.2 (fun n hn => hk n (by simp only [List.map_cons, List.mem_cons]; exact .inr hn))
      refine ⟨⟨?_, h1⟩, by rw [h2]; simp⟩
      intro n hn
      rw [keys_setdefaultAppend] at hn
      have hk' : k' ≤ k := hk k' (by simp)
      split at hn
      · exact hs.1 n hn
      · rcases List.mem_append.1 hn with hn | hn
        · exact hs.1 n hn
        · simp only [List.mem_singleton] at hn
          omega

theorem foldl_sorted (l : List (Int × Text)) (d : List (Int × List Text))
    (hl : (l.map Prod.fst).Pairwise (· ≤ ·)) (hd : (d.map Prod.fst).Pairwise (· < ·))
    (hdl : ∀ n ∈ d.map Prod.fst, ∀ m ∈ l.map Prod.fst, n ≤ m) :
    let r := l.foldl (fun d x => setdefaultAppend x.1 x.2 d) d
    (r.map Prod.fst).Pairwise (· < ·) ∧ (r.map Prod.snd).flatten = (d.map Prod.snd).flatten ++ l.map Prod.snd := by
  induction l generalizing d with
  | nil => simpa using hd
  | cons x l ih =>
    obtain ⟨k, t⟩ := x
    simp only [List.map_cons, List.pairwise_cons] at hl
    obtain ⟨h1, h2⟩ := setdefaultAppend_last k t d hd (fun n hn => hdl n hn k (by simp))
    have := ih (setdefaultAppend k t d) hl.2 h1 (by
      intro n hn m hm
      rw [keys_setdefaultAppend] at hn
      split at hn
      · exact hdl n hn m (by simp only [List.map_cons, List.mem_cons]; exact .inr hm)
      · rcases List.mem_append.1 hn with hn | hn
        · exact hdl n hn m (by simp only [List.map_cons, List.mem_cons]; exact .inr hm)
        · simp only [List.mem_singleton] at hn
          subst hn
          exact hl.1 m hm)
    simp only [List.foldl_cons, List.map_cons]
    refine ⟨this.1, ?_⟩
    rw [this.2, h2]; simp

theorem perm_sortedItems (d : List (Int × Text)) : (sortedItems d).Perm d := List.perm_insertionSort _ d

theorem sortedItems_sorted (d : List (Int × Text)) (hn : (d.map Prod.fst).Nodup) :
    ((sortedItems d).map Prod.fst).Pairwise (· < ·) := by
  have htot : Std.Total (fun a b : Int × Text => a.1 ≤ b.1) := ⟨fun a b => by omega⟩
  have htr : IsTrans (Int × Text) (fun a b => a.1 ≤ b.1) := ⟨fun a b c h1 h2 => by omega⟩
  have h1 := List.pairwise_insertionSort (fun a b : Int × Text => a.1 ≤ b.1) d
  have h2 : ((sortedItems d).map Prod.fst).Nodup := ((perm_sortedItems d).map _).nodup_iff.2 hn
  have h1' : ((sortedItems d).map Prod.fst).Pairwise (· ≤ ·) := by
    rw [List.pairwise_map]; exact h1
  exact (h1'.and h2).imp (fun h => by have := h.1; have := h.2; omega)

theorem sortedItems_id (d : List (Int × Text)) (h : (d.map Prod.fst).Pairwise (· < ·)) : sortedItems d = d := by
  have htot : Std.Total (fun a b : Int × Text => a.1 ≤ b.1) := ⟨fun a b => by omega⟩
  have htr : IsTrans (Int × Text) (fun a b => a.1 ≤ b.1) := ⟨fun a b c h1 h2 => by omega⟩
  unfold sortedItems
  apply List.Pairwise.insertionSort_eq
  rw [List.pairwise_map] at h
  exact h.imp (fun h => by omega)

end Verif.Slice
