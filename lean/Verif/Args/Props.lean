import Verif.Args.Spec
import Mathlib.Tactic.Tauto
import Mathlib.Tactic.ByContra
import Mathlib.Data.List.Basic

/-!
# Parameters depend on what was passed for them
-/

namespace Verif.Args

variable {S O : Type}

/-! ## Lists -/

theorem resolve_mentions (env : String → Option S) (e : Expr S) :
    ∀ s ∈ resolve env e, s ∈ mentions env e := by
  cases e <;> simp [resolve, mentions]

theorem resolve_simple (env : String → Option S) (e : Expr S) (h : Simple e) :
    ∀ s ∈ mentions env e, s ∈ resolve env e := by
  cases e <;> simp_all [resolve, mentions, Simple]

theorem lookup_filter_ne {β : Type} (l : List (String × β)) (x z : String) (h : z ≠ x) :
    (l.filter (fun p => decide (p.1 ≠ x))).lookup z = l.lookup z := by
  induction l with
  | nil => rfl
  | cons a l ih =>
    obtain ⟨k, v⟩ := a
    by_cases hk : k = x
    · subst hk
      have : (z == k) = false := by simpa using h
      simp only [List.filter_cons, ne_eq, not_true, decide_false, Bool.false_eq_true, if_false,
        List.lookup_cons, this]
      simpa using ih
    · simp only [List.filter_cons, ne_eq, hk, not_false_iff, decide_true, if_true,
        List.lookup_cons]
      cases z == k <;> simp_all

theorem lookup_upsert (sc : List (String × Sym S O)) (x z : String) (y : Sym S O) :
    (upsert sc x y).lookup z = if z = x then some y else sc.lookup z := by
  by_cases h : z = x
  · subst h; simp [upsert]
  · have : (z == x) = false := by simpa using h
    rw [if_neg h, upsert, List.lookup_cons, this]
    exact lookup_filter_ne sc x z h

theorem createMatched_not (locals : String → Option O) (ms : List (String × List S))
    (sc : List (String × Sym S O)) (x : String) (h : x ∉ ms.map Prod.fst) :
    (createMatched locals ms sc).lookup x = sc.lookup x := by
  induction ms generalizing sc with
  | nil => rfl
  | cons m ms ih =>
    obtain ⟨k, ds⟩ := m
    simp only [List.map_cons, List.mem_cons, not_or] at h
    rw [createMatched, ih _ h.2, lookup_upsert, if_neg h.1]

theorem createMatched_mem (locals : String → Option O) (ms : List (String × List S))
    (sc : List (String × Sym S O)) (x : String) (h : x ∈ ms.map Prod.fst) :
    ∃ ds, (x, ds) ∈ ms ∧ (createMatched locals ms sc).lookup x = some ⟨locals x, ds⟩ := by
  induction ms generalizing sc with
  | nil => cases h
  | cons m ms ih =>
    obtain ⟨k, ds⟩ := m
    by_cases hm : x ∈ ms.map Prod.fst
    · obtain ⟨d, hd, he⟩ := ih (upsert sc k ⟨locals k, ds⟩) hm
      exact ⟨d, List.mem_cons_of_mem _ hd, he⟩
    · simp only [List.map_cons, List.mem_cons] at h
      have hx : x = k := h.resolve_right hm
      subst hx
      refine ⟨ds, List.mem_cons_self, ?_⟩
      rw [createMatched, createMatched_not locals ms _ x hm, lookup_upsert, if_pos rfl]

theorem createOthers_seen (seen xs : List String) (sc : List (String × Sym S O)) (x : String)
    (h : x ∈ seen ∨ x ∉ xs) : (createOthers seen xs sc).lookup x = sc.lookup x := by
  induction xs generalizing sc with
  | nil => rfl
  | cons k xs ih =>
    rw [createOthers, ih _ (h.imp id fun g => fun m => g (List.mem_cons_of_mem _ m))]
    by_cases hk : k ∈ seen
    · rw [if_pos hk]
    · rw [if_neg hk, lookup_upsert, if_neg]
      rintro rfl
      exact h.elim hk fun g => g List.mem_cons_self

theorem createOthers_new (seen xs : List String) (sc : List (String × Sym S O)) (x : String)
    (h : x ∉ seen) (hx : x ∈ xs) :
    (createOthers seen xs sc).lookup x = some ⟨none, []⟩ := by
  induction xs generalizing sc with
  | nil => cases hx
  | cons k xs ih =>
    rw [createOthers]
    by_cases hm : x ∈ xs
    · exact ih _ hm
    · have hk : x = k := (List.mem_cons.1 hx).resolve_right hm
      subst hk
      rw [createOthers_seen seen xs _ x (Or.inr hm), if_neg h, lookup_upsert, if_pos rfl]

/-! ## What is matched -/

theorem required_le (f : Sig S) : required f ≤ f.args.length := Nat.sub_le _ _

theorem positional_eq (f : Sig S) (recv : Option (Expr S)) (h : SelfIsReceiver f recv) :
    positional f = (f.args.take (required f)).drop recv.toList.length := by
  have hp : (if f.defaults.length > 0 then f.args.take (f.args.length - f.defaults.length)
      else f.args) = f.args.take (required f) := by
    by_cases hd : f.defaults.length > 0
    · rw [if_pos hd]; rfl
    · rw [if_neg hd, required]
      have : f.defaults.length = 0 := by omega
      rw [this, Nat.sub_zero, List.take_length]
  unfold positional
  simp only [hp]
  unfold SelfIsReceiver at h
  cases hq : f.args.take (required f) with
  | nil => simp
  | cons p rest =>
    rw [hq] at h
    simp only [List.head?_cons, Option.some.injEq] at h
    by_cases hs : p = "self"
    · have := h.2 hs
      cases recv with
      | none => cases this
      | some r => simp [hs]
    · have : ¬ recv.isSome := fun g => hs (h.1 g)
      cases recv with
      | none => simp [hs]
      | some r => exact absurd rfl this

theorem mem_matchPositional (env : String → Option S) (ps : List String) (es : List (Arg S))
    (x : String) (ds : List S) (h : (x, ds) ∈ matchPositional env ps es) :
    ∃ (j : Nat) (e : Expr S), ps[j]? = some x ∧ (values es)[j]? = some e ∧
      ds = resolve env e := by
  induction ps generalizing es with
  | nil => cases es <;> simp [matchPositional] at h
  | cons p ps ih =>
    cases es with
    | nil => simp [matchPositional] at h
    | cons a es =>
      cases a with
      | star e n => simp [matchPositional] at h
      | plain e =>
        simp only [matchPositional, List.mem_cons, Prod.mk.injEq] at h
        rcases h with ⟨rfl, rfl⟩ | h
        · exact ⟨0, e, rfl, rfl, rfl⟩
        · obtain ⟨j, e', h1, h2, h3⟩ := ih es h
          exact ⟨j + 1, e', by simpa using h1, by simpa [values] using h2, h3⟩

theorem matchPositional_mem (env : String → Option S) (ps : List String) (es : List (Arg S))
    (hes : ∀ a ∈ es, ∃ e, a = .plain e) (j : Nat) (x : String) (e : Expr S)
    (hp : ps[j]? = some x) (he : (values es)[j]? = some e) :
    (x, resolve env e) ∈ matchPositional env ps es := by
  induction ps generalizing es j with
  | nil => simp at hp
  | cons p ps ih =>
    cases es with
    | nil => simp [values] at he
    | cons a es =>
      obtain ⟨e', rfl⟩ := hes a List.mem_cons_self
      rw [matchPositional]
      cases j with
      | zero =>
        simp only [List.getElem?_cons_zero, Option.some.injEq, values] at hp he
        subst hp; subst he
        exact List.mem_cons_self
      | succ j =>
        simp only [List.getElem?_cons_succ, values] at hp he
        exact List.mem_cons_of_mem _ (ih es (fun a ha => hes a (List.mem_cons_of_mem _ ha)) j hp he)

theorem mem_matchKeywords (env : String → Option S) (ks : List (Kw S)) (x : String)
    (ds : List S) :
    (x, ds) ∈ matchKeywords env ks ↔ ∃ e, Kw.named x e ∈ ks ∧ ds = resolve env e := by
  induction ks with
  | nil => simp [matchKeywords]
  | cons k ks ih =>
    cases k with
    | named y e =>
      simp only [matchKeywords, List.mem_cons, Prod.mk.injEq, ih, Kw.named.injEq]
      constructor
      · rintro (⟨rfl, rfl⟩ | ⟨e', h, rfl⟩)
        · exact ⟨e, Or.inl ⟨rfl, rfl⟩, rfl⟩
        · exact ⟨e', Or.inr h, rfl⟩
      · rintro ⟨e', ⟨rfl, rfl⟩ | h, rfl⟩
        · exact Or.inl ⟨rfl, rfl⟩
        · exact Or.inr ⟨e', h, rfl⟩
    | spread e ns => simp [matchKeywords, ih]

theorem mem_seenKeys (ks : List (Kw S)) (x : String) :
    x ∈ seenKeys ks ↔ ∃ e, Kw.named x e ∈ ks := by
  induction ks with
  | nil => simp [seenKeys]
  | cons k ks ih =>
    cases k with
    | named y e =>
      simp only [seenKeys, List.mem_cons, ih, Kw.named.injEq]
      constructor
      · rintro (rfl | ⟨e', h⟩)
        · exact ⟨e, Or.inl ⟨rfl, rfl⟩⟩
        · exact ⟨e', Or.inr h⟩
      · rintro ⟨e', ⟨rfl, _⟩ | h⟩
        · exact Or.inl rfl
        · exact Or.inr ⟨e', h⟩
    | spread e ns => simp [seenKeys, ih]

theorem lastN_get (f : Sig S)
    (h0 : 0 < f.defaults.length) (m : Nat) :
    (lastN f.args f.defaults.length)[m]? = f.args[f.args.length - f.defaults.length + m]? := by
  unfold lastN
  rw [if_neg (by omega), List.getElem?_drop]

theorem mem_matchDefaults (env : String → Option S) (f : Sig S) (seen : List String)
    (x : String) (ds : List S) :
    (x, ds) ∈ matchDefaults env f seen ↔
      ∃ (m : Nat) (e : Expr S), f.args[f.args.length - f.defaults.length + m]? = some x ∧
        f.defaults[m]? = some e ∧ x ∉ seen ∧ ds = resolve env e := by
  unfold matchDefaults
  simp only [List.mem_map, List.mem_filter, decide_eq_true_eq, Prod.mk.injEq, Prod.exists]
  constructor
  · rintro ⟨a, e, ⟨hz, hs⟩, rfl, rfl⟩
    obtain ⟨m, hm⟩ := List.mem_iff_getElem?.1 hz
    rw [List.getElem?_zip_eq_some] at hm
    refine ⟨m, e, ?_, hm.2, hs, rfl⟩
    rw [← lastN_get f ?_ m]
    · exact hm.1
    · have := (List.getElem?_eq_some_iff.1 hm.2).1
      omega
  · rintro ⟨m, e, h1, h2, h3, rfl⟩
    refine ⟨x, e, ⟨?_, h3⟩, rfl, rfl⟩
    apply List.mem_iff_getElem?.2
    refine ⟨m, ?_⟩
    rw [List.getElem?_zip_eq_some]
    refine ⟨?_, h2⟩
    rw [lastN_get f ?_ m]
    · exact h1
    · have := (List.getElem?_eq_some_iff.1 h2).1
      omega

theorem mem_lastN (f : Sig S) (x : String) (h : x ∈ lastN f.args f.defaults.length) :
    x ∈ f.args := by
  unfold lastN at h
  split at h
  · exact h
  · exact List.mem_of_mem_drop h

theorem all_known (names : List String) (ks : List (Kw S)) :
    ks.all (known names) = true ↔ ∀ k ∈ ks, ∃ x e, k = .named x e ∧ x ∈ names := by
  rw [List.all_eq_true]
  refine forall₂_congr fun k _ => ?_
  cases k with
  | named x e => simp [known]
  | spread e ns => simp [known]

/-- All that is matched has one of three reasons. -/
theorem mem_matched (env : String → Option S) (f : Sig S) (c : Call S)
    (x : String) (ds : List S) (h : (x, ds) ∈ matched env f (some c)) :
    (∀ k ∈ c.keywords, ∃ y e, k = .named y e ∧ y ∈ f.args) ∧
    ((∃ (j : Nat) (e : Expr S), (positional f)[j]? = some x ∧ (values c.args)[j]? = some e ∧
        ds = resolve env e) ∨
      (∃ e, Kw.named x e ∈ c.keywords ∧ ds = resolve env e) ∨
      (∃ (m : Nat) (e : Expr S), f.args[f.args.length - f.defaults.length + m]? = some x ∧
        f.defaults[m]? = some e ∧ (¬ ∃ e', Kw.named x e' ∈ c.keywords) ∧
        ds = resolve env e)) := by
  unfold matched at h
  simp only at h
  by_cases hc : c.keywords.all (known (lastN f.args f.defaults.length)) = true
  · rw [if_pos hc] at h
    refine ⟨fun k hk' => ?_, ?_⟩
    · obtain ⟨y, e, rfl, hy⟩ := (all_known _ _).1 hc k hk'
      exact ⟨y, e, rfl, mem_lastN f y hy⟩
    · simp only [List.mem_append] at h
      rcases h with (h | h) | h
      · exact Or.inl (mem_matchPositional env _ _ x ds h)
      · exact Or.inr (Or.inl ((mem_matchKeywords env _ x ds).1 h))
      · obtain ⟨m, e, h1, h2, h3, h4⟩ := (mem_matchDefaults env f _ x ds).1 h
        exact Or.inr (Or.inr ⟨m, e, h1, h2, fun g => h3 ((mem_seenKeys _ _).2 g), h4⟩)
  · rw [if_neg hc] at h
    cases h

theorem positional_get (f : Sig S) (recv : Option (Expr S)) (hs : SelfIsReceiver f recv)
    (j : Nat) (x : String) :
    (positional f)[j]? = some x ↔
      f.args[recv.toList.length + j]? = some x ∧ recv.toList.length + j < required f := by
  rw [positional_eq f recv hs, List.getElem?_drop, List.getElem?_take]
  by_cases h : recv.toList.length + j < required f
  · simp [h]
  · simp [h]

theorem passed_get (recv : Option (Expr S)) (c : Call S) (j : Nat) :
    (passed recv c)[recv.toList.length + j]? = (values c.args)[j]? := by
  unfold passed
  rw [List.getElem?_append_right (by omega)]
  congr 1
  omega

theorem slots_eq (f : Sig S) (h : f.posonly = []) : slots f = f.args := by
  simp [slots, h]

theorem args_nodup (f : Sig S) (h : Wf f) : f.args.Nodup := by
  have := h.nodup
  unfold params at this
  simp only [List.nodup_append] at this
  tauto

theorem not_others (f : Sig S) (h : Wf f) (p : String) (hp : p ∈ f.args) :
    f.vararg ≠ some p ∧ p ∉ f.kwonly ∧ f.kwarg ≠ some p := by
  have := h.nodup
  unfold params at this
  simp only [List.nodup_append, List.mem_append, Option.mem_toList] at this
  obtain ⟨⟨⟨⟨-, -, -⟩, -, h2⟩, -, h3⟩, -, h4⟩ := this
  exact ⟨fun g => h2 p (Or.inr hp) p g rfl, fun g => h3 p (Or.inl (Or.inr hp)) p g rfl,
    fun g => h4 p (Or.inl (Or.inl (Or.inr hp))) p g rfl⟩

theorem index_unique {l : List String} (h : l.Nodup) {i j : Nat} {x : String}
    (hi : l[i]? = some x) (hj : l[j]? = some x) : i = j := by
  have h1 := List.getElem?_eq_some_iff.1 hi
  have h2 := List.getElem?_eq_some_iff.1 hj
  obtain ⟨a, ha⟩ := h1
  obtain ⟨b, hb⟩ := h2
  exact (List.getElem_inj (h₀ := a) (h₁ := b) h).1 (ha.trans hb.symm)

/-! ## Nothing else -/

/-- A parameter depends only on what its value came from.  `_partial`: there are no parameters
which are positional only, no positional value goes to a parameter with a default, the first
parameter is called `self` just for methods called on objects, and the names in defaults mean
where the function is called what they meant where it was defined. -/
theorem only_received_partial (callEnv defEnv : String → Option S) (f : Sig S)
    (recv : Option (Expr S)) (c : Call S) (locals : String → Option O)
    (hw : Wf f) (hpos : f.posonly = []) (hself : SelfIsReceiver f recv)
    (hfew : (passed recv c).length ≤ required f)
    (hdef : ∀ e ∈ f.defaults, mentions callEnv e = mentions defEnv e)
    (p : String) (y : Sym S O)
    (hy : (create callEnv f (some c) locals).lookup p = some y) :
    ∀ s ∈ y.deps, ∃ src, Gets f recv c p src ∧ s ∈ computedFrom callEnv defEnv src := by
  intro s hs
  have hk : f.defaults.length ≤ f.args.length := by
    have := hw.enough
    rwa [slots_eq f hpos] at this
  have hsl := slots_eq f hpos
  unfold create at hy
  by_cases hm : p ∈ (matched callEnv f (some c)).map Prod.fst
  · rw [createOthers_seen _ _ _ _ (Or.inl hm)] at hy
    obtain ⟨ds, hd, he⟩ := createMatched_mem locals (matched callEnv f (some c)) [] p hm
    rw [he] at hy
    cases hy
    obtain ⟨hkw, h | h | h⟩ := mem_matched callEnv f c p ds hd
    · obtain ⟨j, e, h1, h2, rfl⟩ := h
      refine ⟨.given e, .position (i := recv.toList.length + j) ?_ ?_,
        resolve_mentions _ _ s hs⟩
      · rw [hsl]; exact ((positional_get f recv hself j p).1 h1).1
      · rw [passed_get]; exact h2
    · obtain ⟨e, h1, rfl⟩ := h
      obtain ⟨x', e', h2, h3⟩ := hkw _ h1
      cases h2
      exact ⟨.given e, .keyword (List.mem_append_left _ h3) h1, resolve_mentions _ _ s hs⟩
    · obtain ⟨m, e, h1, h2, h3, rfl⟩ := h
      refine ⟨.default e, .default (i := m) ?_ h2 ?_ ?_, ?_⟩
      · rw [hsl]; exact h1
      · rw [hsl]; unfold required at hfew; omega
      · rintro (g | ⟨e', ns, g, -⟩)
        · exact h3 g
        · obtain ⟨x', e'', h4, -⟩ := hkw _ g
          cases h4
      · show s ∈ mentions defEnv e
        rw [← hdef e (List.mem_of_getElem? h2)]
        exact resolve_mentions _ _ s hs
  · by_cases hq : p ∈ definitionArgs f
    · rw [createOthers_new _ _ _ _ hm hq] at hy
      cases hy
      cases hs
    · rw [createOthers_seen _ _ _ _ (Or.inr hq), createMatched_not _ _ _ _ hm] at hy
      cases hy

/-! ## All of it -/

/-- A parameter depends on everything its value came from, and its symbol stands for the
object it has.  `_partial`: for ordinary parameters other than the receiver of a method, if no
parameter is positional only, no argument is starred, the parameter has no default or no
positional value goes to a parameter with a default, keyword arguments are for parameters with
defaults unless there are no defaults, the first parameter is called `self` just for methods called on objects, and the
value comes from a name, a constant or an expression the tracer notes symbols for. -/
theorem received_partial (callEnv defEnv : String → Option S) (f : Sig S)
    (recv : Option (Expr S)) (c : Call S) (locals : String → Option O) (p : String)
    (hw : Wf f) (hacc : Accepted f recv c) (hpos : f.posonly = [])
    (hself : SelfIsReceiver f recv)
    (hfew : p ∈ f.args.take (required f) ∨ (passed recv c).length ≤ required f)
    (hplain : ∀ a ∈ c.args, ∃ e, a = .plain e)
    (hkey : ∀ k ∈ c.keywords, ∃ x e, k = .named x e ∧ x ∈ f.args ∧
      (f.defaults = [] ∨ x ∈ f.args.drop (required f)))
    (hdef : ∀ e ∈ f.defaults, mentions callEnv e = mentions defEnv e)
    (hp : p ∈ f.args) (hrecv : recv.isSome → p ≠ "self")
    (src : Source S) (hget : Gets f recv c p src)
    (hsimple : Simple src.expr) :
    ∃ y, (create callEnv f (some c) locals).lookup p = some y ∧ y.obj = locals p ∧
      ∀ s ∈ computedFrom callEnv defEnv src, s ∈ y.deps := by
  have hk : f.defaults.length ≤ f.args.length := by
    have := hw.enough
    rwa [slots_eq f hpos] at this
  have hsl := slots_eq f hpos
  have hnd := args_nodup f hw
  have hreach : ∀ i : Nat, f.args[i]? = some p → i < (passed recv c).length →
      i < required f := by
    intro i h1 h2
    rcases hfew with h | h
    · obtain ⟨j, hj⟩ := List.mem_iff_getElem?.1 h
      rw [List.getElem?_take] at hj
      split at hj
      · next hlt => rw [index_unique hnd h1 hj]; exact hlt
      · cases hj
    · omega
  have hall : c.keywords.all (known (lastN f.args f.defaults.length)) = true := by
    rw [all_known]
    intro k hk'
    obtain ⟨x, e, rfl, h1, h2⟩ := hkey k hk'
    refine ⟨x, e, rfl, ?_⟩
    unfold lastN
    rcases h2 with h2 | h2
    · rw [if_pos (by simp [h2])]; exact h1
    · by_cases h0 : f.defaults.length = 0
      · rw [if_pos h0]; exact h1
      · rw [if_neg h0]; exact h2
  have hnospread : ∀ e ns, Kw.spread e ns ∉ c.keywords := by
    intro e ns g
    obtain ⟨x, e', h, -⟩ := hkey _ g
    cases h
  have hkeyp : ∀ e, Kw.named p e ∈ c.keywords → HasKey c p := fun e g => Or.inl ⟨e, g⟩
  -- entries for `p`
  have hmem : p ∈ (matched callEnv f (some c)).map Prod.fst := by
    rw [List.mem_map]
    have hin : ∀ ds, (p, ds) ∈ matchPositional callEnv (positional f) c.args ++
        matchKeywords callEnv c.keywords ++ matchDefaults callEnv f (seenKeys c.keywords) →
        ∃ a ∈ matched callEnv f (some c), a.1 = p := by
      intro ds hd
      refine ⟨(p, ds), ?_, rfl⟩
      unfold matched
      simp only
      rw [if_pos hall]
      exact hd
    cases hget with
    | @position i p e h1 h2 =>
      rw [hsl] at h1
      have hi : i < (passed recv c).length := (List.getElem?_eq_some_iff.1 h2).1
      have hge : recv.toList.length ≤ i := by
        cases recv with
        | none => simp
        | some r =>
          have hh := hself.1 rfl
          by_contra hlt
          have hi0 : i = 0 := by simp at hlt; omega
          subst hi0
          rw [List.head?_take] at hh
          split at hh
          · cases hh
          · rw [List.head?_eq_getElem?, h1] at hh
            exact hrecv rfl (Option.some.inj hh)
      obtain ⟨j, rfl⟩ := Nat.exists_eq_add_of_le hge
      rw [passed_get] at h2
      apply hin (resolve callEnv e)
      simp only [List.mem_append]
      exact Or.inl (Or.inl (matchPositional_mem callEnv _ _ hplain j p e
        ((positional_get f recv hself j p).2 ⟨h1, hreach _ h1 hi⟩) h2))
    | @keyword p e h1 h2 =>
      refine hin (resolve callEnv e) ?_
      simp only [List.mem_append]
      exact Or.inl (Or.inr ((mem_matchKeywords callEnv _ _ _).2 ⟨_, h2, rfl⟩))
    | unpacked h1 h2 => exact absurd h2 (hnospread _ _)
    | rest h1 =>
      exact absurd h1 (not_others f hw p hp).1
    | more h1 =>
      exact absurd h1 (not_others f hw p hp).2.2
    | moreUnpacked _ _ h3 => exact absurd h3 (hnospread _ _)
    | @default i p e h1 h2 h3 h4 =>
      rw [hsl] at h1
      refine hin (resolve callEnv e) ?_
      simp only [List.mem_append]
      refine Or.inr ((mem_matchDefaults callEnv f _ p _).2 ⟨i, e, h1, h2, ?_, rfl⟩)
      intro g
      obtain ⟨e', g⟩ := (mem_seenKeys _ _).1 g
      exact h4 (Or.inl ⟨e', g⟩)
    | kwDefault h1 =>
      exact absurd h1 (not_others f hw p hp).2.1
  obtain ⟨ds, hd, he⟩ := createMatched_mem locals (matched callEnv f (some c)) [] p hmem
  refine ⟨⟨locals p, ds⟩, ?_, rfl, ?_⟩
  · unfold create
    rw [createOthers_seen _ _ _ _ (Or.inl hmem)]
    exact he
  intro s hs
  show s ∈ ds
  obtain ⟨-, h | h | h⟩ := mem_matched callEnv f c p ds hd
  · obtain ⟨j, e, h1, h2, rfl⟩ := h
    have h1' := (positional_get f recv hself j p).1 h1
    have h2' : (passed recv c)[recv.toList.length + j]? = some e := by rw [passed_get]; exact h2
    have hlt : recv.toList.length + j < (passed recv c).length :=
      (List.getElem?_eq_some_iff.1 h2').1
    have hnokey : ¬ HasKey c p := hacc.once _ p (by rw [hsl]; exact h1'.1) hlt
    cases hget with
    | @position i p e' g1 g2 =>
      rw [hsl] at g1
      have := index_unique hnd g1 h1'.1
      subst this
      rw [h2'] at g2
      cases g2
      exact resolve_simple _ _ hsimple s hs
    | keyword g1 g2 => exact absurd (hkeyp _ g2) hnokey
    | unpacked _ g => exact absurd g (hnospread _ _)
    | rest g =>
      exact absurd g (not_others f hw p hp).1
    | more g =>
      exact absurd g (not_others f hw p hp).2.2
    | moreUnpacked _ _ g => exact absurd g (hnospread _ _)
    | @default i p e' g1 g2 g3 g4 =>
      rw [hsl] at g1 g3
      have := index_unique hnd g1 h1'.1
      omega
    | kwDefault g =>
      exact absurd g (not_others f hw p hp).2.1
  · obtain ⟨e, h1, rfl⟩ := h
    cases hget with
    | @position i p e' g1 g2 =>
      exact absurd (hkeyp _ h1) (hacc.once i p g1 (List.getElem?_eq_some_iff.1 g2).1)
    | keyword g1 g2 =>
      cases hacc.keys _ _ _ h1 g2
      exact resolve_simple _ _ hsimple s hs
    | unpacked _ g => exact absurd g (hnospread _ _)
    | rest g =>
      exact absurd g (not_others f hw p hp).1
    | more g =>
      exact absurd g (not_others f hw p hp).2.2
    | moreUnpacked _ _ g => exact absurd g (hnospread _ _)
    | default _ _ _ g => exact absurd (hkeyp _ h1) g
    | kwDefault g =>
      exact absurd g (not_others f hw p hp).2.1
  · obtain ⟨m, e, h1, h2, h3, rfl⟩ := h
    cases hget with
    | @position i p e' g1 g2 =>
      rw [hsl] at g1
      have := index_unique hnd g1 h1
      have hi := hreach _ g1 (List.getElem?_eq_some_iff.1 g2).1
      unfold required at hi
      omega
    | keyword g1 g2 => exact absurd ⟨_, g2⟩ h3
    | unpacked _ g => exact absurd g (hnospread _ _)
    | rest g =>
      exact absurd g (not_others f hw p hp).1
    | more g =>
      exact absurd g (not_others f hw p hp).2.2
    | moreUnpacked _ _ g => exact absurd g (hnospread _ _)
    | @default i p e' g1 g2 g3 g4 =>
      rw [hsl] at g1
      have := index_unique hnd g1 h1
      have him : i = m := by omega
      subst him
      rw [h2] at g2
      cases g2
      have hs' : s ∈ mentions callEnv e := by
        rw [hdef e (List.mem_of_getElem? h2)]; exact hs
      exact resolve_simple _ _ hsimple s hs'
    | kwDefault g =>
      exact absurd g (not_others f hw p hp).2.1

/-! ## Names of parameters -/

theorem matched_args (env : String → Option S) (f : Sig S) (caller : Option (Call S))
    (x : String) (h : x ∈ (matched env f caller).map Prod.fst) : x ∈ f.args := by
  cases caller with
  | none => simp [matched] at h
  | some c =>
    unfold matched at h
    simp only at h
    by_cases hc : c.keywords.all (known (lastN f.args f.defaults.length)) = true
    · rw [if_pos hc] at h
      obtain ⟨⟨k, ds⟩, hm, rfl⟩ := List.mem_map.1 h
      simp only [List.mem_append] at hm
      rcases hm with (hm | hm) | hm
      · obtain ⟨j, e, h1, -, -⟩ := mem_matchPositional env _ _ k ds hm
        have h2 : k ∈ positional f := List.mem_of_getElem? h1
        have hp : ∀ q ∈ (if f.defaults.length > 0 then
            f.args.take (f.args.length - f.defaults.length) else f.args), q ∈ f.args := by
          intro q hq
          split at hq
          · exact List.mem_of_mem_take hq
          · exact hq
        unfold positional at h2
        simp only at h2
        split at h2
        · next p rest heq =>
          rw [heq] at hp
          split at h2
          · exact hp k (List.mem_cons_of_mem _ h2)
          · exact hp k h2
        · cases h2
      · obtain ⟨e, h1, -⟩ := (mem_matchKeywords env _ k ds).1 hm
        obtain ⟨y, e', h2, h3⟩ := (all_known _ _).1 hc _ h1
        cases h2
        exact mem_lastN f k h3
      · unfold matchDefaults at hm
        simp only [List.mem_map, List.mem_filter, Prod.mk.injEq, Prod.exists] at hm
        obtain ⟨a, b, ⟨hz, -⟩, rfl, -⟩ := hm
        exact mem_lastN f a (List.of_mem_zip hz).1
    · rw [if_neg hc] at h
      cases h

/-- Inside the function the name of a parameter stands for the parameter, whatever variable of
the same name there is outside.  `_partial`: the parameter is not positional only, and the
function was not defined in the cell which runs. -/
theorem parameter_found_partial (env : String → Option S) (f : Sig S)
    (caller : Option (Call S)) (locals : String → Option O)
    (before : List (String × Sym S O)) (outer outer' : String → Option (Sym S O)) (p : String)
    (hp : p ∈ f.args ∨ p ∈ f.kwonly ∨ f.vararg = some p ∨ f.kwarg = some p) :
    ∃ y, find outer (callScope false before env f caller locals) p = some y ∧
      find outer' (callScope false before env f caller locals) p = some y := by
  have hd : p ∈ definitionArgs f := by
    unfold definitionArgs
    simp only [List.mem_append, Option.mem_toList]
    tauto
  have : ∃ y, (create env f caller locals).lookup p = some y := by
    unfold create
    by_cases hm : p ∈ (matched env f caller).map Prod.fst
    · obtain ⟨ds, -, he⟩ := createMatched_mem locals (matched env f caller) [] p hm
      exact ⟨_, by rw [createOthers_seen _ _ _ _ (Or.inl hm)]; exact he⟩
    · exact ⟨_, createOthers_new _ _ _ _ hm hd⟩
  obtain ⟨y, hy⟩ := this
  refine ⟨y, ?_, ?_⟩ <;> simp [find, callScope, hy]

/-- A call makes symbols for parameters only: every other name means inside the function what
it means around it. -/
theorem only_parameters (env : String → Option S) (f : Sig S) (caller : Option (Call S))
    (locals : String → Option O) (before : List (String × Sym S O))
    (outer : String → Option (Sym S O)) (x : String) (hx : x ∉ params f) :
    find outer (callScope false before env f caller locals) x = outer x := by
  have hm : x ∉ (matched env f caller).map Prod.fst := by
    intro h
    apply hx
    have := matched_args env f caller x h
    simp [params, this]
  have hd : x ∉ definitionArgs f := by
    intro h
    apply hx
    unfold definitionArgs at h
    unfold params
    simp only [List.mem_append] at h ⊢
    tauto
  have : (create env f caller locals).lookup x = none := by
    unfold create
    rw [createOthers_seen _ _ _ _ (Or.inr hd), createMatched_not _ _ _ _ hm]
    rfl
  simp [find, callScope, this]

/-- Violation: a parameter which is positional only is taken for the variable of the same name
outside. -/
theorem positional_only_lost (env : String → Option S) (f : Sig S) (caller : Option (Call S))
    (locals : String → Option O) (before : List (String × Sym S O))
    (outer : String → Option (Sym S O)) (hw : Wf f) (p : String) (hp : p ∈ f.posonly) :
    find outer (callScope false before env f caller locals) p = outer p := by
  have hnd := hw.nodup
  unfold params at hnd
  simp only [List.nodup_append, List.mem_append, Option.mem_toList] at hnd
  obtain ⟨⟨⟨⟨-, -, h1⟩, -, h2⟩, -, h3⟩, -, h4⟩ := hnd
  have hm : p ∉ (matched env f caller).map Prod.fst := fun h =>
    h1 p hp p (matched_args env f caller p h) rfl
  have hd : p ∉ definitionArgs f := by
    unfold definitionArgs
    simp only [List.mem_append, Option.mem_toList]
    rintro (((h | h) | h) | h)
    · exact h1 p hp p h rfl
    · exact h3 p (Or.inl (Or.inl hp)) p h rfl
    · exact h2 p (Or.inl hp) p h rfl
    · exact h4 p (Or.inl (Or.inl (Or.inl hp))) p h rfl
  have : (create env f caller locals).lookup p = none := by
    unfold create
    rw [createOthers_seen _ _ _ _ (Or.inr hd), createMatched_not _ _ _ _ hm]
    rfl
  simp [find, callScope, this]

/-- Violation: if the function was defined in the cell which runs, every parameter is taken
for the variable of the same name outside. -/
theorem same_cell_lost (env : String → Option S) (f : Sig S) (caller : Option (Call S))
    (locals : String → Option O) (outer : String → Option (Sym S O)) (p : String) :
    find outer (callScope true [] env f caller locals) p = outer p := rfl

/-- Violation: whatever is passed on by a method, the receiver depends on nothing and its
symbol stands for `None`. -/
theorem receiver_lost (env : String → Option S) (f : Sig S) (r : Expr S) (c : Call S)
    (locals : String → Option O) (hw : Wf f) (hpos : f.posonly = [])
    (hself : SelfIsReceiver f (some r)) (hacc : Accepted f (some r) c) :
    (create env f (some c) locals).lookup "self" = some ⟨none, []⟩ := by
  have hk : f.defaults.length ≤ f.args.length := by
    have := hw.enough
    rwa [slots_eq f hpos] at this
  have h0 := hself.1 rfl
  rw [List.head?_take] at h0
  split at h0
  · cases h0
  · next hr =>
    rw [List.head?_eq_getElem?] at h0
    have hnd := args_nodup f hw
    have hin : "self" ∈ f.args := List.mem_of_getElem? h0
    unfold create
    apply createOthers_new
    · intro hm
      obtain ⟨⟨k, ds⟩, hd, hkk⟩ := List.mem_map.1 hm
      simp only at hkk
      subst hkk
      obtain ⟨-, h | h | h⟩ := mem_matched env f c _ ds hd
      · obtain ⟨j, e, h1, -, -⟩ := h
        have := index_unique hnd ((positional_get f (some r) hself j _).1 h1).1 h0
        simp at this
      · obtain ⟨e, h1, -⟩ := h
        exact hacc.once 0 "self" (by rw [slots_eq f hpos]; exact h0)
          (by simp [passed]) (Or.inl ⟨e, h1⟩)
      · obtain ⟨m, e, h1, -, -, -⟩ := h
        have := index_unique hnd h1 h0
        unfold required at hr
        omega
    · simp [definitionArgs, hin]

end Verif.Args
