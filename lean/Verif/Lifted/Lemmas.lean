import Verif.Lifted.Spec

/-!
# The variable that an argument stands for: lemmas
-/

namespace Verif.Lifted

variable {S O : Type} [DecidableEq S] [DecidableEq O]

omit [DecidableEq O] in
theorem only_iff (l : List S) (s : S) : only l = some s ↔ s ∈ l ∧ ∀ t ∈ l, t = s := by
  cases l with
  | nil => simp [only]
  | cons a l =>
    simp only [only]
    constructor
    · intro h
      cases hb : l.all (· = a) with
      | false => rw [hb] at h; cases h
      | true =>
        rw [hb] at h
        cases h
        refine ⟨List.mem_cons_self, fun t ht => ?_⟩
        rcases List.mem_cons.1 ht with rfl | ht
        · rfl
        · exact of_decide_eq_true (List.all_eq_true.1 hb t ht)
    · rintro ⟨_, h⟩
      have ha : a = s := h a List.mem_cons_self
      subst ha
      have : l.all (· = a) = true := List.all_eq_true.2 fun t ht => decide_eq_true (h t (List.mem_cons_of_mem _ ht))
      rw [this]
      rfl

/-- What a function speaks about, in terms of the symbols found. -/
theorem lift_iff (W : World S O) (e : Exp S) (v : O) (s : S) :
    lift W e v = some s ↔ s ∈ resolve W e ∧ W.obj s = v ∧ ∀ t ∈ resolve W e, W.obj t = v → t = s := by
  simp only [lift, only_iff, List.mem_filter, decide_eq_true_eq]
  constructor
  · rintro ⟨⟨h1, h2⟩, h3⟩
    exact ⟨h1, h2, fun t ht hv => h3 t ⟨ht, hv⟩⟩
  · rintro ⟨h1, h2, h3⟩
    exact ⟨⟨h1, h2⟩, fun t ht => h3 t ht.1 ht.2⟩

omit [DecidableEq S] [DecidableEq O]

/-- Symbols of chains have to do with the expression. -/
theorem walk_append (W : World S O) : ∀ (l : List Atom) (a : Atom) (s t : S), t ∈ walk W s (l ++ [a]) →
    t ∈ walk W s l ∨ ((l = [] ∧ (W.member s a.key = some t ∨ ∃ u, W.member s a.key = some u ∧ a.call = true ∧ t ∈ W.body u)) ∨
      ∃ u ∈ walk W s l, W.member u a.key = some t ∨ ∃ v, W.member u a.key = some v ∧ a.call = true ∧ t ∈ W.body v)
  | [], a, s, t, h => by
    right; left
    refine ⟨rfl, ?_⟩
    simp only [List.nil_append, walk] at h
    cases hm : W.member s a.key with
    | none => rw [hm] at h; cases h
    | some u =>
      rw [hm] at h
      cases hc : a.call with
      | true =>
        simp only [hc, if_true] at h
        rcases List.mem_cons.1 h with rfl | h
        · exact .inl rfl
        · exact .inr ⟨u, rfl, rfl, h⟩
      | false =>
        simp only [hc, Bool.false_eq_true, if_false, List.mem_singleton] at h
        subst h
        exact .inl rfl
  | b :: l, a, s, t, h => by
    simp only [List.cons_append, walk] at h ⊢
    cases hm : W.member s b.key with
    | none => rw [hm] at h; cases h
    | some u =>
      rw [hm] at h
      simp only at h ⊢
      cases hc : b.call with
      | true =>
        simp only [hc, if_true] at h ⊢
        exact .inl h
      | false =>
        simp only [hc, Bool.false_eq_true, if_false, List.mem_cons] at h ⊢
        rcases h with rfl | h
        · exact .inl (.inl rfl)
        · rcases walk_append W l a u t h with h2 | ⟨_, h2⟩ | ⟨v, hv, h2⟩
          · exact .inl (.inr h2)
          · exact .inr (.inr ⟨u, .inl rfl, h2⟩)
          · exact .inr (.inr ⟨v, .inr hv, h2⟩)

theorem chain_append (W : World S O) (l : List Atom) (a : Atom) (t : S) (h : t ∈ chainSyms W (l ++ [a])) :
    t ∈ chainSyms W l ∨ (l = [] ∧ (W.look a.key = some t ∨ ∃ u, W.look a.key = some u ∧ a.call = true ∧ t ∈ W.body u)) ∨
      ∃ u ∈ chainSyms W l, W.member u a.key = some t ∨ ∃ v, W.member u a.key = some v ∧ a.call = true ∧ t ∈ W.body v := by
  cases l with
  | nil =>
    right; left
    refine ⟨rfl, ?_⟩
    simp only [List.nil_append, chainSyms] at h
    cases hm : W.look a.key with
    | none => rw [hm] at h; cases h
    | some u =>
      rw [hm] at h
      cases hc : a.call with
      | true =>
        simp only [hc, if_true] at h
        rcases List.mem_cons.1 h with rfl | h
        · exact .inl rfl
        · exact .inr ⟨u, rfl, rfl, h⟩
      | false =>
        simp only [hc, walk, Bool.false_eq_true, if_false, List.mem_singleton] at h
        subst h
        exact .inl rfl
  | cons b l =>
    simp only [List.cons_append, chainSyms] at h ⊢
    cases hm : W.look b.key with
    | none => rw [hm] at h; cases h
    | some u =>
      rw [hm] at h
      simp only at h ⊢
      cases hc : b.call with
      | true =>
        simp only [hc, if_true] at h ⊢
        exact .inl h
      | false =>
        simp only [hc, Bool.false_eq_true, if_false, List.mem_cons] at h ⊢
        rcases h with rfl | h
        · exact .inl (.inl rfl)
        · rcases walk_append W l a u t h with h2 | ⟨_, h2⟩ | ⟨v, hv, h2⟩
          · exact .inl (.inr h2)
          · exact .inr (.inr ⟨u, .inl rfl, h2⟩)
          · exact .inr (.inr ⟨v, .inr hv, h2⟩)

theorem atoms_mentioned (W : World S O) (e : Exp S) : ∀ l, atoms e = some l → ∀ s ∈ chainSyms W l.reverse, Mentioned W e s := by
  fun_induction atoms e with
  | case1 => intro l h s hs; cases h; cases hs
  | case2 => intro l h s hs; cases h; cases hs
  | case3 x =>
    intro l h s hs
    cases h
    rcases chain_append W [] ⟨x, false⟩ s hs with h | ⟨_, h | ⟨_, _, h, _⟩⟩ | ⟨_, h, _⟩
    · cases h
    · exact .name h
    · cases h
    · cases h
  | case4 => intro l h; cases h
  | case5 e a ih =>
    intro l h s hs
    cases he : atoms e with
    | none => rw [he] at h; cases h
    | some l' =>
      rw [he] at h
      cases h
      rw [List.reverse_cons] at hs
      rcases chain_append W _ _ s hs with h | ⟨_, h | ⟨_, _, h, _⟩⟩ | ⟨u, hu, h | ⟨_, _, h, _⟩⟩
      · exact .attr (ih l' he s h)
      · exact .key h
      · cases h
      · exact .attrPart (ih l' he u hu) h
      · cases h
  | case6 ld e k ih =>
    intro l h s hs
    cases he : atoms e with
    | none => rw [he] at h; cases h
    | some l' =>
      rw [he] at h
      cases h
      rw [List.reverse_cons] at hs
      rcases chain_append W _ _ s hs with h | ⟨_, h | ⟨_, _, h, _⟩⟩ | ⟨u, hu, h | ⟨_, _, h, _⟩⟩
      · exact .item (ih l' he s h)
      · exact .index h
      · cases h
      · exact .itemPart (ih l' he u hu) h
      · cases h
  | case7 ld e i ih => intro l h s hs; exact .sub (ih l h s hs)
  | case8 e a args ih =>
    intro l h s hs
    cases he : atoms e with
    | none => rw [he] at h; cases h
    | some l' =>
      rw [he] at h
      cases h
      rw [List.reverse_cons] at hs
      rcases chain_append W _ _ s hs with h | ⟨_, h | ⟨u, h, _, hb⟩⟩ | ⟨u, hu, h | ⟨v, h, _, hb⟩⟩
      · exact .func (.attr (ih l' he s h))
      · exact .func (.key h)
      · exact .body (.key h) hb
      · exact .func (.attrPart (ih l' he u hu) h)
      · exact .body (.attrPart (ih l' he u hu) h) hb
  | case9 ld e k args ih =>
    intro l h s hs
    cases he : atoms e with
    | none => rw [he] at h; cases h
    | some l' =>
      rw [he] at h
      cases h
      rw [List.reverse_cons] at hs
      rcases chain_append W _ _ s hs with h | ⟨_, h | ⟨u, h, _, hb⟩⟩ | ⟨u, hu, h | ⟨v, h, _, hb⟩⟩
      · exact .func (.item (ih l' he s h))
      · exact .func (.index h)
      · exact .body (.index h) hb
      · exact .func (.itemPart (ih l' he u hu) h)
      · exact .body (.itemPart (ih l' he u hu) h) hb
  | case10 ld e i args ih => intro l h s hs; exact .func (.sub (ih l h s hs))
  | case11 x args =>
    intro l h s hs
    cases h
    rcases chain_append W [] ⟨x, true⟩ s hs with h | ⟨_, h | ⟨u, h, _, hb⟩⟩ | ⟨_, h, _⟩
    · cases h
    · exact .func (.name h)
    · exact .body (.name h) hb
    · cases h
  | case12 => intro l h s hs; cases h; cases hs
  | case13 => intro l h s hs; cases h; cases hs
  | case14 => intro l h; cases h
  | case15 => intro l h s hs; cases h; cases hs

theorem chain_mentioned (W : World S O) (e : Exp S) (s : S) (h : s ∈ ofChain W e) : Mentioned W e s := by
  unfold ofChain at h
  cases hb : rootBin e with
  | true => rw [hb] at h; cases h
  | false =>
    rw [hb] at h
    simp only [Bool.false_eq_true, if_false] at h
    cases ha : atoms e with
    | none => rw [ha] at h; cases h
    | some l => rw [ha] at h; exact atoms_mentioned W e l ha s h

theorem static_mentioned (W : World S O) : ∀ (e : Exp S) (b : Bool) (s : S), s ∈ static W b e → Mentioned W e s
  | .done, b, s, h => by simp [static] at h
  | .pair x y, b, s, h => by
    simp only [static, List.mem_append] at h
    rcases h with h | h
    · exact .left (static_mentioned W x b s h)
    · exact .right (static_mentioned W y b s h)
  | .name x, b, s, h => by
    cases b with
    | true => simp [static] at h
    | false => exact .name (by simpa [static] using h)
  | .lit, b, s, h => by simp [static] at h
  | .attr e a, b, s, h => by
    simp only [static, List.mem_append] at h
    rcases h with h | h
    · cases b with
      | true => cases h
      | false => exact chain_mentioned W _ s h
    · exact .attr (static_mentioned W e true s h)
  | .item l e k, b, s, h => by
    simp only [static, List.mem_append] at h
    rcases h with h | h
    · cases b with
      | true => cases h
      | false => exact chain_mentioned W _ s h
    · exact .item (static_mentioned W e true s h)
  | .sub l e i, b, s, h => by
    simp only [static, List.mem_append] at h
    rcases h with (h | h) | h
    · cases b with
      | true => cases h
      | false => exact chain_mentioned W _ s h
    · exact .sub (static_mentioned W e true s h)
    · exact .subIndex (static_mentioned W i false s h)
  | .call f args, b, s, h => by
    simp only [static, List.mem_append] at h
    rcases h with (h | h) | h
    · exact .arg (static_mentioned W args false s h)
    · cases b with
      | true => cases h
      | false => exact chain_mentioned W _ s h
    · exact .func (static_mentioned W f true s h)
  | .bin x y, b, s, h => by
    simp only [static, List.mem_append] at h
    rcases h with h | h
    · exact .binLeft (static_mentioned W x false s h)
    · exact .binRight (static_mentioned W y false s h)
  | .disp l es, b, s, h => .disp (static_mentioned W es false s (by simpa [static] using h))
  | .op es, b, s, h => .op (static_mentioned W es b s (by simpa [static] using h))

theorem direct_mentioned (W : World S O) : ∀ (e : Exp S) (s : S), s ∈ direct e → Mentioned W e s
  | .done, s, h => by simp [direct] at h
  | .pair x y, s, h => by
    simp only [direct, List.mem_append] at h
    rcases h with h | h
    · exact .left (direct_mentioned W x s h)
    · exact .right (direct_mentioned W y s h)
  | .name x, s, h => by simp [direct] at h
  | .lit, s, h => by simp [direct] at h
  | .attr e a, s, h => by
    simp only [direct] at h
    cases hc : e.isCall with
    | true => rw [hc] at h; exact .attr (direct_mentioned W e s h)
    | false => rw [hc] at h; cases h
  | .item l e k, s, h => by
    simp only [direct, List.mem_append] at h
    rcases h with h | h
    · cases hc : e.isCall with
      | true => rw [hc] at h; exact .item (direct_mentioned W e s h)
      | false => rw [hc] at h; cases h
    · exact .itemRead h
  | .sub l e i, s, h => by
    simp only [direct, List.mem_append] at h
    rcases h with (h | h) | h
    · cases hc : e.isCall with
      | true => rw [hc] at h; exact .sub (direct_mentioned W e s h)
      | false => rw [hc] at h; cases h
    · exact .subRead h
    · exact .subIndex (direct_mentioned W i s h)
  | .call f args, s, h => by
    simp only [direct, List.mem_append] at h
    rcases h with h | h
    · cases hc : f.isPart with
      | true => rw [hc] at h; exact .func (direct_mentioned W f s h)
      | false => rw [hc] at h; cases h
    · exact .arg (direct_mentioned W args s h)
  | .bin x y, s, h => by
    simp only [direct, List.mem_append] at h
    rcases h with h | h
    · exact .binLeft (direct_mentioned W x s h)
    · exact .binRight (direct_mentioned W y s h)
  | .disp l es, s, h => by
    simp only [direct] at h
    cases hc : l.isEmpty with
    | true => rw [hc] at h; exact .disp (direct_mentioned W es s h)
    | false => rw [hc] at h; cases h
  | .op es, s, h => .op (direct_mentioned W es s (by simpa [direct] using h))

/-- The chain of a path. -/
theorem path_walk (W : World S O) {e : Exp S} {s : S} {b : List S} (h : Path W e s b) :
    rootBin e = false ∧ static W true e = [] ∧ ∃ l, atoms e = some l ∧ ∀ r, chainSyms W (l.reverse ++ r) = b ++ s :: walk W s r := by
  induction h with
  | @name x s h => exact ⟨rfl, rfl, [⟨x, false⟩], rfl, fun r => by simp [chainSyms, h]⟩
  | @attr e a s t b h hm ih =>
    obtain ⟨h1, h2, l, h3, h5⟩ := ih
    refine ⟨h1, by simp [static, h2], ⟨a, false⟩ :: l, by simp [atoms, h3], fun r => ?_⟩
    rw [List.reverse_cons, List.append_assoc, h5]
    simp [walk, hm]
  | @item ld e k s t b h hm ih =>
    obtain ⟨h1, h2, l, h3, h5⟩ := ih
    refine ⟨h1, by simp [static, h2], ⟨k, false⟩ :: l, by simp [atoms, h3], fun r => ?_⟩
    rw [List.reverse_cons, List.append_assoc, h5]
    simp [walk, hm]

theorem path_chain (W : World S O) {e : Exp S} {s : S} {b : List S} (h : Path W e s b) : ofChain W e = b ++ [s] := by
  obtain ⟨h1, _, l, h3, h5⟩ := path_walk W h
  have := h5 []
  rw [List.append_nil] at this
  simp [ofChain, h1, h3, this, walk]

theorem path_noCall (W : World S O) {e : Exp S} {s : S} {b : List S} (h : Path W e s b) : e.isCall = false := by
  cases h <;> rfl

/-- Of a variable and of an attribute reached by a path, the symbols on the way and the last one are found, and no others. -/
theorem path_named (W : World S O) {e : Exp S} {s : S} {b : List S} (h : Path W e s b) (hn : Named e) : resolve W e = b ++ [s] := by
  cases h with
  | @name x s h => simp [resolve, direct, static, h]
  | @attr e a s' t b h hm =>
    have h0 : direct (.attr e a) = [] := by simp [direct, path_noCall W h]
    simp only [resolve, h0, static, Bool.false_eq_true, if_false, (path_walk W h).2.1, List.append_nil]
    exact path_chain W (.attr h hm)
  | item => exact hn.elim

/-- Of a subscript, those are found that the tracer has recorded; if it has none, those on the way. -/
theorem path_item (W : World S O) {l : List S} {e : Exp S} {k : Nat} {s : S} {b : List S} (h : Path W (.item l e k) s b) :
    resolve W (.item l e k) = if l = [] then b ++ [s] else l := by
  cases h with
  | @item _ e k s' t b h hm =>
    have h0 : direct (.item l e k) = l := by simp [direct, path_noCall W h]
    cases l with
    | nil =>
      simp only [resolve, h0, static, Bool.false_eq_true, if_false, (path_walk W h).2.1, List.append_nil, if_true]
      exact path_chain W (.item h hm)
    | cons a l => simp only [resolve, h0]; rfl

theorem denotes_path (W : World S O) (key : O → Nat) {e : Exp S} {s : S} {b : List S} (h : Path W e s b) : Denotes W key e s := by
  induction h with
  | name h => exact .name h
  | attr _ hm ih => exact .attr ih hm
  | item _ hm ih => exact .item ih hm

end Verif.Lifted
