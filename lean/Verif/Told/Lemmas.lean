import Verif.Told.Spec

/-!
# Updates and what they mark
-/

namespace Verif.Told

open Verif Verif.Assoc

theorem parents_key {t : List (Nat × Sym)} {x z : Nat} (h : x ∈ parents t z) : z ∈ keys t := by
  rw [← get_isSome_iff]
  unfold parents at h
  cases hg : get t z with
  | none => rw [hg] at h; cases h
  | some y => rfl

theorem mem_children {t : List (Nat × Sym)} {x z : Nat} : z ∈ children t x ↔ x ∈ parents t z := by
  unfold children
  rw [List.mem_filter, decide_eq_true_eq]
  exact ⟨fun h => h.2, fun h => ⟨parents_key h, h⟩⟩

theorem dfs_total (f : Nat → List Nat) : ∀ (n : Nat) (seen : List Nat) (x : Nat) (e : Err),
    dfs (fun z => .ok (f z)) n seen x = .error e → e = .fuel := by
  intro n seen x e h
  cases e with
  | fuel => rfl
  | crash =>
    obtain ⟨y, _, hy⟩ := dfs_crash _ n seen x h
    cases hy

theorem fold_total (f : Nat → List Nat) (n : Nat) : ∀ (l seen : List Nat) (e : Err),
    l.foldlM (fun s z => dfs (fun z => .ok (f z)) n s z) seen = .error e → e = .fuel := by
  intro l
  induction l with
  | nil => intro seen e h; simp [pure, Except.pure] at h
  | cons y l ih =>
    intro seen e h
    rw [List.foldlM_cons] at h
    cases hd : dfs (fun z => .ok (f z)) n seen y with
    | error e' =>
      rw [hd] at h
      simp only [bind, Except.bind, Except.error.injEq] at h
      subst h
      exact dfs_total f n seen y _ hd
    | ok mid =>
      rw [hd] at h
      exact ih mid e h

theorem spread_ok (t : List (Nat × Sym)) (x : Nat) (deps : List Nat) :
    ∃ met, spread t x deps = .ok met := by
  cases hs : spread t x deps with
  | ok met => exact ⟨met, rfl⟩
  | error e =>
    exfalso
    have he : e = .fuel := fold_total (children t) (t.length + 1) (children t x) (x :: deps) e hs
    subst he
    have hU : ∀ y ∈ (keys t).toFinset, ∀ ys, (Except.ok (children t y) : Except Err (List Nat)) = .ok ys →
        ∀ z ∈ ys, z ∈ (keys t).toFinset := by
      intro y _ ys hy z hz
      cases hy
      rw [List.mem_toFinset]
      exact parents_key (mem_children.1 hz)
    have hc : ∀ seen : List Nat, ((keys t).toFinset.filter (· ∉ seen)).card ≤ t.length := by
      intro seen
      refine le_trans (Finset.card_filter_le _ _) (le_trans (List.toFinset_card_le _) ?_)
      simp [keys]
    refine foldl_noFuel (fun z => .ok (children t z)) (keys t).toFinset t.length _
      (dfs_post _ (t.length + 1)) ?_ (children t x) (x :: deps) ?_ (hc _) hs
    · intro seen y hy hn
      exact dfs_noFuel (fun z => .ok (children t z)) (keys t).toFinset hU
        (fun y hy => by cases hy) t.length seen y hy hn
    · intro y hy
      rw [List.mem_toFinset]
      exact parents_key (mem_children.1 hy)

/-- Nothing beyond the variables computed from `x` is met. -/
theorem dfs_from (t : List (Nat × Sym)) (x : Nat) (deps : List Nat) :
    ∀ (n : Nat) (seen : List Nat) (w : Nat) (out : List Nat),
      dfs (fun z => .ok (children t z)) n seen w = .ok out → x :: deps ⊆ seen →
      (∀ z ∈ seen, z ∈ x :: deps ∨ From (parents t) x deps z) →
      (w ∈ x :: deps ∨ From (parents t) x deps w) →
      ∀ z ∈ out, z ∈ x :: deps ∨ From (parents t) x deps z := by
  intro n
  induction n with
  | zero => intro seen w out h; simp [dfs] at h
  | succ n ih =>
    intro seen w out h hb hq hw
    unfold dfs at h
    by_cases hm : w ∈ seen
    · rw [if_pos hm, Except.ok.injEq] at h
      subst h
      exact hq
    · rw [if_neg hm] at h
      dsimp only at h
      have hf : From (parents t) x deps w := hw.resolve_left fun q => hm (hb q)
      have hroots : ∀ z ∈ children t w, z ∈ x :: deps ∨ From (parents t) x deps z := by
        intro z hz
        by_cases hz' : z ∈ x :: deps
        · exact .inl hz'
        · refine .inr (.through w z hf (mem_children.1 hz) ?_ ?_)
          · exact fun e => hz' (e ▸ List.mem_cons_self)
          · exact fun e => hz' (List.mem_cons_of_mem _ e)
      have key : ∀ (l s out : List Nat), (∀ z ∈ l, z ∈ x :: deps ∨ From (parents t) x deps z) →
          l.foldlM (fun s y => dfs (fun z => .ok (children t z)) n s y) s = .ok out →
          x :: deps ⊆ s → (∀ z ∈ s, z ∈ x :: deps ∨ From (parents t) x deps z) →
          ∀ z ∈ out, z ∈ x :: deps ∨ From (parents t) x deps z := by
        intro l
        induction l with
        | nil =>
          intro s out _ h _ hs
          simp only [List.foldlM_nil, pure, Except.pure, Except.ok.injEq] at h
          subst h
          exact hs
        | cons y l ihl =>
          intro s out hl h hbs hs
          rw [List.foldlM_cons] at h
          cases hd : dfs (fun z => .ok (children t z)) n s y with
          | error e => rw [hd] at h; simp [bind, Except.bind] at h
          | ok mid =>
            rw [hd] at h
            refine ihl mid out (fun z hz => hl z (List.mem_cons_of_mem _ hz)) h ?_ ?_
            · exact fun z hz => (dfs_post _ n s y mid hd).mono (hbs hz)
            · exact ih s y mid hd hbs hs (hl y List.mem_cons_self)
      refine key (children t w) (seen ++ [w]) out hroots h ?_ ?_
      · exact fun z hz => List.mem_append_left _ (hb hz)
      · intro z hz
        rcases List.mem_append.1 hz with hz | hz
        · exact hq z hz
        · rw [List.mem_singleton] at hz
          exact hz ▸ hw

theorem spread_from (t : List (Nat × Sym)) (x : Nat) (deps met : List Nat)
    (h : spread t x deps = .ok met) (z : Nat) (hz : z ∉ x :: deps) :
    z ∈ met ↔ From (parents t) x deps z := by
  have hp := foldl_post (fun z => .ok (children t z)) _ (dfs_post _ (t.length + 1)) (children t x)
    (x :: deps) met h
  constructor
  · intro hm
    have key : ∀ (l s out : List Nat), (∀ z ∈ l, z ∈ x :: deps ∨ From (parents t) x deps z) →
        l.foldlM (fun s y => dfs (fun z => .ok (children t z)) (t.length + 1) s y) s = .ok out →
        x :: deps ⊆ s → (∀ z ∈ s, z ∈ x :: deps ∨ From (parents t) x deps z) →
        ∀ z ∈ out, z ∈ x :: deps ∨ From (parents t) x deps z := by
      intro l
      induction l with
      | nil =>
        intro s out _ h _ hs
        simp only [List.foldlM_nil, pure, Except.pure, Except.ok.injEq] at h
        subst h
        exact hs
      | cons y l ihl =>
        intro s out hl h hbs hs
        rw [List.foldlM_cons] at h
        cases hd : dfs (fun z => .ok (children t z)) (t.length + 1) s y with
        | error e => rw [hd] at h; simp [bind, Except.bind] at h
        | ok mid =>
          rw [hd] at h
          refine ihl mid out (fun z hz => hl z (List.mem_cons_of_mem _ hz)) h ?_ ?_
          · exact fun z hz => (dfs_post _ _ s y mid hd).mono (hbs hz)
          · exact dfs_from t x deps _ s y mid hd hbs hs (hl y List.mem_cons_self)
    refine (key (children t x) (x :: deps) met ?_ h (fun _ q => q) (fun z hz => .inl hz) z hm).resolve_left
      hz
    intro y hy
    by_cases hy' : y ∈ x :: deps
    · exact .inl hy'
    · exact .inr (.direct y (mem_children.1 hy) (fun e => hy' (e ▸ List.mem_cons_self))
        (fun e => hy' (List.mem_cons_of_mem _ e)))
  · intro hf
    have all : ∀ z, From (parents t) x deps z → z ∈ met := by
      intro z hf
      induction hf with
      | direct z h1 _ _ => exact hp.roots_mem z (mem_children.2 h1)
      | through y z hy h1 _ _ ih =>
        have hn : y ∉ x :: deps := by
          intro q
          rcases List.mem_cons.1 q with q | q
          · cases hy with
            | direct _ _ h _ => exact h q
            | through _ _ _ _ h _ => exact h q
          · cases hy with
            | direct _ _ _ h => exact h q
            | through _ _ _ _ _ h => exact h q
        obtain ⟨ys, e, hc⟩ := hp.closed y ih hn
        cases e
        exact hc z (mem_children.2 h1)
    exact all z hf

theorem get_mark (ctr : Nat) (met skip : List Nat) (t : List (Nat × Sym)) (z : Nat) :
    get (mark ctr met skip t) z =
      (get t z).map fun y => if z ∈ met ∧ z ∉ skip then { y with required := some ctr } else y := by
  induction t with
  | nil => rfl
  | cons p t ih =>
    obtain ⟨k, y⟩ := p
    have e : mark ctr met skip ((k, y) :: t) =
        (k, if k ∈ met ∧ k ∉ skip then { y with required := some ctr } else y) ::
          mark ctr met skip t := by
      by_cases hm : k ∈ met ∧ k ∉ skip
      · simp only [mark, List.map_cons, if_pos hm]
      · simp only [mark, List.map_cons, if_neg hm]
    rw [e]
    by_cases hk : k = z
    · subst hk
      simp only [Assoc.get, if_true, Option.map_some]
    · simp only [Assoc.get, if_neg hk]
      exact ih

theorem parents_mark (ctr : Nat) (met skip : List Nat) (t : List (Nat × Sym)) :
    parents (mark ctr met skip t) = parents t := by
  funext z
  unfold parents
  rw [get_mark]
  cases get t z with
  | none => rfl
  | some y =>
    simp only [Option.map_some]
    split <;> rfl

/-- The parts of the state that the next lemmas are about. -/
structure Good (n : Nat) (O T : Nat → Option Nat) (s : St) : Prop where
  ctr : s.ctr = n
  obj : ∀ x, (get s.syms x).map Sym.obj = O x
  ts : ∀ x, (get s.syms x).map Sym.ts = T x
  old : ∀ x y, get s.syms x = some y → y.ts ≤ n ∧ ∀ r, y.required = some r → r ≤ n
  recent : ∀ z ∈ s.updated ++ s.this, ∃ y, get s.syms z = some y ∧ y.ts = n

/-- A changed table. -/
def upd (f : Nat → Option Nat) (x v : Nat) : Nat → Option Nat := fun z => if z = x then some v else f z

/-- What an update does. -/
structure Updated (s s' : St) (x obj : Nat) (deps : List Nat) (b : Nat → Bool) : Prop where
  ctr : s'.ctr = s.ctr
  runs : s'.runs = s.runs
  cells : s'.cells = s.cells
  updated : s'.updated = s.updated
  this : s'.this = x :: s.this
  self : get s'.syms x = some ⟨obj, s.ctr, none,
    newParents s.syms x (deps.filter fun d => (get s.syms d).isSome)⟩
  other : ∀ z, z ≠ x → get s'.syms z =
    (get s.syms z).map fun y => if b z then { y with required := some s.ctr } else y
  marks : (get s.syms x).map Sym.obj ≠ some obj → ∀ z, z ≠ x →
    (b z = true ↔ From (parents s'.syms) x deps z ∧ z ∉ s.updated ++ s.this)

theorem from_congr {p : Nat → List Nat} {x : Nat} {out out' : List Nat}
    (h : ∀ z, p z ≠ [] → z ≠ x → (z ∈ out ↔ z ∈ out')) {z : Nat} (hz : From p x out z) :
    From p x out' z := by
  induction hz with
  | direct z h1 h2 h3 =>
    exact .direct z h1 h2 fun q => h3 ((h z (List.ne_nil_of_mem h1) h2).2 q)
  | through y z _ h1 h2 h3 ih =>
    exact .through y z ih h1 h2 fun q => h3 ((h z (List.ne_nil_of_mem h1) h2).2 q)

theorem from_out {p : Nat → List Nat} {x : Nat} {out : List Nat} {z : Nat} (h : From p x out z) :
    z ≠ x ∧ z ∉ out := by
  cases h with
  | direct _ _ h1 h2 => exact ⟨h1, h2⟩
  | through _ _ _ _ h1 h2 => exact ⟨h1, h2⟩

theorem update_ok (s : St) (x obj : Nat) (deps : List Nat) :
    ∃ s' b, update s x obj deps = .ok s' ∧ Updated s s' x obj deps b := by
  let known := deps.filter fun d => (get s.syms d).isSome
  let t := set s.syms x ⟨obj, s.ctr, none, newParents s.syms x known⟩
  by_cases hsame : (get s.syms x).map Sym.obj = some obj
  · refine ⟨{ s with syms := t, this := x :: s.this }, fun _ => false, ?_, ⟨rfl, rfl, rfl, rfl, rfl, ?_, ?_,
      fun h => absurd hsame h⟩⟩
    · unfold update
      dsimp only
      cases hg : get s.syms x with
      | none => rw [hg] at hsame; cases hsame
      | some y =>
        rw [hg] at hsame
        simp only [Option.map_some, Option.some.injEq] at hsame
        simp only [hsame, decide_true, if_true]
        rfl
    · exact get_set_self _ _ _
    · intro z hz
      show get t z = _
      rw [get_set_ne _ _ hz]
      cases get s.syms z <;> rfl
  · obtain ⟨met, hm⟩ := spread_ok t x (known.filter (· ≠ x))
    refine ⟨{ s with
      syms := mark s.ctr met (x :: known.filter (· ≠ x) ++ s.updated ++ x :: s.this) t
      this := x :: s.this },
      fun z => decide (z ∈ met ∧ z ∉ x :: known.filter (· ≠ x) ++ s.updated ++ x :: s.this), ?_,
      ⟨rfl, rfl, rfl, rfl, rfl, ?_, ?_, ?_⟩⟩
    · unfold update
      dsimp only
      have hm' := hm
      simp only [t, known] at hm'
      cases hg : get s.syms x with
      | none => simp only [Bool.false_eq_true, if_false, hm']; rfl
      | some y =>
        rw [hg] at hsame
        simp only [Option.map_some, Option.some.injEq] at hsame
        simp only [hsame, decide_false, Bool.false_eq_true, if_false, hm']
        rfl
    · show get (mark _ _ _ t) x = _
      rw [get_mark, get_set_self, Option.map_some, if_neg]
      intro q
      exact q.2 (by simp)
    · intro z hz
      show get (mark _ _ _ t) z = _
      rw [get_mark, get_set_ne _ _ hz]
      simp only [decide_eq_true_eq]
    · intro _ z hz
      rw [decide_eq_true_eq]
      show _ ↔ From (parents (mark _ _ _ t)) x deps z ∧ _
      rw [parents_mark]
      have hk : ∀ z, parents t z ≠ [] → z ≠ x → (z ∈ known.filter (· ≠ x) ↔ z ∈ deps) := by
        intro z hp hx
        have hs : (get s.syms z).isSome := by
          unfold parents at hp
          rw [get_set_ne _ _ hx] at hp
          cases hg : get s.syms z with
          | none => rw [hg] at hp; exact absurd rfl hp
          | some y => rfl
        simp only [known, List.mem_filter, hs, and_true, decide_eq_true_eq, hx, ne_eq, not_false_eq_true]
      constructor
      · rintro ⟨h1, h2⟩
        simp only [List.cons_append, List.mem_cons, List.mem_append, not_or] at h2
        refine ⟨from_congr hk ((spread_from t x _ met hm z ?_).1 h1), ?_⟩
        · rw [List.mem_cons, not_or]
          exact ⟨hz, h2.2.1.1⟩
        · rw [List.mem_append, not_or]
          exact ⟨h2.2.1.2, h2.2.2.2⟩
      · rintro ⟨h1, h2⟩
        have h3 : From (parents t) x (known.filter (· ≠ x)) z :=
          from_congr (fun z a b => (hk z a b).symm) h1
        have h4 := from_out h3
        have h5 : z ∉ x :: known.filter (· ≠ x) := by
          rw [List.mem_cons, not_or]
          exact h4
        rw [List.mem_append, not_or] at h2
        refine ⟨(spread_from t x _ met hm z h5).2 h3, ?_⟩
        simp only [List.cons_append, List.mem_cons, List.mem_append, not_or]
        exact ⟨hz, ⟨h4.2, h2.1⟩, hz, h2.2⟩

theorem update_good {n : Nat} {O T : Nat → Option Nat} {s s' : St} {x o : Nat} {deps : List Nat}
    {b : Nat → Bool} (hg : Good n O T s) (hu : Updated s s' x o deps b) :
    Good n (upd O x o) (upd T x n) s' := by
  have hn : s.ctr = n := hg.ctr
  refine ⟨by rw [hu.ctr, hn], ?_, ?_, ?_, ?_⟩
  · intro z
    unfold upd
    by_cases hz : z = x
    · subst hz; rw [if_pos rfl, hu.self]; rfl
    · rw [if_neg hz, hu.other z hz, ← hg.obj z]
      cases get s.syms z with
      | none => rfl
      | some y => cases b z <;> simp
  · intro z
    unfold upd
    by_cases hz : z = x
    · subst hz; rw [if_pos rfl, hu.self, hn]; rfl
    · rw [if_neg hz, hu.other z hz, ← hg.ts z]
      cases get s.syms z with
      | none => rfl
      | some y => cases b z <;> simp
  · intro z y hy
    by_cases hz : z = x
    · subst hz
      rw [hu.self, Option.some.injEq] at hy
      subst hy
      exact ⟨le_of_eq hn, fun r hr => by cases hr⟩
    · rw [hu.other z hz] at hy
      cases hgz : get s.syms z with
      | none => rw [hgz] at hy; cases hy
      | some y0 =>
        rw [hgz, Option.map_some, Option.some.injEq] at hy
        have ho := hg.old z y0 hgz
        by_cases hb : b z = true
        · rw [if_pos hb] at hy
          subst hy
          refine ⟨ho.1, fun r hr => ?_⟩
          simp only [Option.some.injEq] at hr
          rw [← hr, hn]
        · rw [if_neg hb] at hy
          subst hy
          exact ho
  · intro z hz
    rw [hu.updated, hu.this] at hz
    by_cases hx : z = x
    · subst hx
      exact ⟨_, hu.self, hn⟩
    · have hz' : z ∈ s.updated ++ s.this := by
        simp only [List.mem_append, List.mem_cons] at hz ⊢
        rcases hz with h | h | h
        · exact .inl h
        · exact absurd h hx
        · exact .inr h
      obtain ⟨y, h1, h2⟩ := hg.recent z hz'
      rw [hu.other z hx, h1, Option.map_some]
      by_cases hb : b z = true
      · rw [if_pos hb]; exact ⟨_, rfl, h2⟩
      · rw [if_neg hb]; exact ⟨_, rfl, h2⟩

/-- Several assignments. -/
def updAll (f : Nat → Option Nat) (g : Nat × Nat × List Nat → Nat) :
    List (Nat × Nat × List Nat) → Nat → Option Nat
  | [] => f
  | a :: l => updAll (upd f a.1 (g a)) g l

theorem fold_good {n : Nat} : ∀ (l : List (Nat × Nat × List Nat)) {O T : Nat → Option Nat} {s : St},
    Good n O T s → ∃ s', l.foldlM assign s = .ok s' ∧
      Good n (updAll O (fun a => a.2.1) l) (updAll T (fun _ => n) l) s' ∧ s'.runs = s.runs ∧
      s'.cells = s.cells := by
  intro l
  induction l with
  | nil => intro O T s hg; exact ⟨s, rfl, hg, rfl, rfl⟩
  | cons a l ih =>
    intro O T s hg
    obtain ⟨s1, b, h1, hu⟩ := update_ok s a.1 a.2.1 a.2.2
    have hg1 := update_good hg hu
    have hg2 : Good n (upd O a.1 a.2.1) (upd T a.1 n)
        { s1 with updated := s1.this ++ s1.updated, this := [] } := by
      refine ⟨hg1.ctr, hg1.obj, hg1.ts, hg1.old, ?_⟩
      intro z hz
      simp only [List.append_nil, List.mem_append] at hz
      exact hg1.recent z (List.mem_append.2 hz.symm)
    obtain ⟨s', h2, h3, h4, h5⟩ := ih hg2
    refine ⟨s', ?_, h3, by rw [h4, ← hu.runs], by rw [h5, ← hu.cells]⟩
    rw [List.foldlM_cons]
    have e : assign s a = .ok { s1 with updated := s1.this ++ s1.updated, this := [] } := by
      unfold assign
      rw [h1]
    rw [e]
    exact h2

theorem updAll_obj (l : List (Nat × Nat × List Nat)) (x : Nat) : ∀ f : Nat → Option Nat,
    updAll f (fun a => a.2.1) l x =
      match setBy l x with
      | some o => some o
      | none => f x := by
  induction l with
  | nil => intro f; rfl
  | cons a l ih =>
    intro f
    obtain ⟨y, o, ds⟩ := a
    show updAll (upd f y o) _ l x = _
    rw [ih]
    have e : setBy ((y, o, ds) :: l) x = match setBy l x with
      | some o' => some o'
      | none => if x = y then some o else none := rfl
    rw [e]
    cases setBy l x with
    | some o' => rfl
    | none =>
      unfold upd
      by_cases h : x = y
      · simp only [h, if_true]
      · simp only [h, if_false]

theorem updAll_ts (n : Nat) (l : List (Nat × Nat × List Nat)) (x : Nat) : ∀ f : Nat → Option Nat,
    updAll f (fun _ => n) l x = if (setBy l x).isSome then some n else f x := by
  induction l with
  | nil => intro f; rfl
  | cons a l ih =>
    intro f
    obtain ⟨y, o, ds⟩ := a
    show updAll (upd f y n) _ l x = _
    rw [ih]
    have e : setBy ((y, o, ds) :: l) x = match setBy l x with
      | some o' => some o'
      | none => if x = y then some o else none := rfl
    rw [e]
    cases setBy l x with
    | some o' => rfl
    | none =>
      unfold upd
      by_cases h : x = y
      · simp only [h, if_true, Option.isSome_some, Option.isSome_none, Bool.false_eq_true, if_false]
      · simp only [h, Option.isSome_none, Bool.false_eq_true, if_false]

theorem refresh_good {n : Nat} : ∀ (xs : List Nat) {O T : Nat → Option Nat} {s : St}, Good n O T s →
    Good n O (fun x => if x ∈ xs ∧ (O x).isSome then some n else T x) (xs.foldl refresh1 s) ∧
      (xs.foldl refresh1 s).runs = s.runs ∧ (xs.foldl refresh1 s).cells = s.cells := by
  intro xs
  induction xs with
  | nil =>
    intro O T s hg
    refine ⟨?_, rfl, rfl⟩
    have e : (fun x => if x ∈ ([] : List Nat) ∧ (O x).isSome then some n else T x) = T := by
      funext x
      rw [if_neg]
      exact fun q => absurd q.1 List.not_mem_nil
    rw [e]
    exact hg
  | cons a xs ih =>
    intro O T s hg
    have h1 : Good n O (fun x => if x = a ∧ (O x).isSome then some n else T x) (refresh1 s a) ∧
        (refresh1 s a).runs = s.runs ∧ (refresh1 s a).cells = s.cells := by
      unfold refresh1
      cases hx : get s.syms a with
      | none =>
        refine ⟨⟨hg.ctr, hg.obj, ?_, hg.old, hg.recent⟩, rfl, rfl⟩
        intro x
        rw [if_neg]
        · exact hg.ts x
        · rintro ⟨e, q⟩
          rw [← hg.obj x, e, hx] at q
          cases q
      | some y =>
        refine ⟨⟨hg.ctr, ?_, ?_, ?_, ?_⟩, rfl, rfl⟩
        · intro x
          show (get (set s.syms a _) x).map _ = _
          rw [get_set]
          by_cases e : x = a
          · rw [if_pos e, ← hg.obj x, e, hx]; rfl
          · rw [if_neg e]; exact hg.obj x
        · intro x
          show (get (set s.syms a _) x).map _ = _
          rw [get_set]
          by_cases e : x = a
          · have ho : (O x).isSome := by rw [← hg.obj x, e, hx]; rfl
            rw [if_pos e, if_pos ⟨e, ho⟩, hg.ctr]; rfl
          · rw [if_neg e, if_neg (fun q => e q.1)]; exact hg.ts x
        · intro x y' hy'
          have hy2 : get (set s.syms a { y with ts := s.ctr }) x = some y' := hy'
          rw [get_set] at hy2
          by_cases e : x = a
          · rw [if_pos e, Option.some.injEq] at hy2
            subst hy2
            exact ⟨le_of_eq hg.ctr, (hg.old a y hx).2⟩
          · rw [if_neg e] at hy2
            exact hg.old x y' hy2
        · intro z hz
          obtain ⟨y', h1, h2⟩ := hg.recent z hz
          show ∃ w, get (set s.syms a { y with ts := s.ctr }) z = some w ∧ _
          rw [get_set]
          by_cases e : z = a
          · rw [if_pos e]; exact ⟨_, rfl, hg.ctr⟩
          · rw [if_neg e]; exact ⟨y', h1, h2⟩
    obtain ⟨h2, h3, h4⟩ := ih h1.1
    refine ⟨?_, by rw [List.foldl_cons, h3, h1.2.1], by rw [List.foldl_cons, h4, h1.2.2]⟩
    rw [List.foldl_cons]
    have e : (fun x => if x ∈ a :: xs ∧ (O x).isSome then some n else T x) =
        fun x => if x ∈ xs ∧ (O x).isSome then some n
          else if x = a ∧ (O x).isSome then some n else T x := by
      funext x
      by_cases ho : (O x).isSome = true
      · by_cases h1 : x ∈ xs
        · simp [h1, ho]
        · simp [h1, ho]
      · simp [ho]
    rw [e]
    exact h2

theorem get_renamed (t : List (Nat × Nat)) (old new n : Nat) :
    get (t.map fun p => if p.2 = old then (p.1, new) else p) n =
      match get t n with
      | none => none
      | some c => if c = old then some new else some c := by
  induction t with
  | nil => rfl
  | cons p t ih =>
    obtain ⟨k, c⟩ := p
    have e : ((k, c) :: t).map (fun p => if p.2 = old then (p.1, new) else p) =
        (k, if c = old then new else c) :: t.map (fun p => if p.2 = old then (p.1, new) else p) := by
      by_cases h : c = old
      · simp [h]
      · simp [h]
    rw [e]
    by_cases hk : k = n
    · simp only [Assoc.get, hk, if_true]
      by_cases h : c = old
      · simp only [h, if_true]
      · simp only [h, if_false]
    · simp only [Assoc.get, if_neg hk]
      exact ih

theorem get_moved (t : List (Nat × Cell)) (old new : Nat) (hn : get t new = none) (c : Nat) :
    get (t.map fun p => if p.1 = old then (new, p.2) else p) c =
      if c = new then get t old else if c = old then none else get t c := by
  induction t with
  | nil => simp [Assoc.get]
  | cons p t ih =>
    obtain ⟨k, v⟩ := p
    have hk : k ≠ new := by
      intro e
      rw [e] at hn
      simp [Assoc.get] at hn
    have hn' : get t new = none := by
      simpa [Assoc.get, hk] using hn
    have ih := ih hn'
    have e : ((k, v) :: t).map (fun p => if p.1 = old then (new, p.2) else p) =
        (if k = old then new else k, v) :: t.map (fun p => if p.1 = old then (new, p.2) else p) := by
      by_cases h : k = old
      · simp [h]
      · simp [h]
    rw [e]
    by_cases h : k = old
    · simp only [h, if_true, Assoc.get]
      by_cases hc : c = new
      · simp only [hc, if_true]
      · rw [if_neg (Ne.symm hc), ih]
        simp only [hc, if_false]
        by_cases h2 : c = old
        · simp [h2]
        · simp [h2, Ne.symm h2]
    · simp only [h, if_false, Assoc.get]
      by_cases hc : c = new
      · subst hc
        rw [if_neg hk, ih]
        simp
      · by_cases h2 : c = old
        · subst h2
          rw [if_neg h, ih]
          simp [hc]
        · by_cases h3 : k = c
          · simp [h3, hc, h2]
          · rw [if_neg h3, ih]
            simp [hc, h2, h3]

/-- What holds of all states. -/
structure Inv (h : List Ev) (s : St) : Prop where
  good : Good (clock h) (holds h) (touched h) s
  runs : ∀ n, get s.runs n = idAt h n
  cells : ∀ c, (get s.cells c).map (fun k => (k.ctr, k.reads)) = latest h c
  before : ∀ c k, get s.cells c = some k → k.ctr ≤ clock h

theorem good_ext {n : Nat} {O T O' T' : Nat → Option Nat} {s : St} (h : Good n O T s)
    (ho : ∀ x, O x = O' x) (ht : ∀ x, T x = T' x) : Good n O' T' s := by
  have e1 : O = O' := funext ho
  have e2 : T = T' := funext ht
  rw [← e1, ← e2]
  exact h

theorem inv (h : List Ev) : ∃ s, state h = .ok s ∧ Inv h s := by
  induction h with
  | nil =>
    refine ⟨init, rfl, ⟨⟨rfl, fun _ => rfl, fun _ => rfl, fun x y q => (by cases q), fun z q => (by cases q)⟩,
      fun _ => rfl, fun _ => rfl, fun c k q => (by cases q)⟩⟩
  | cons e h ih =>
    obtain ⟨s, hs, hi⟩ := ih
    have hst : state (e :: h) = step s e := by
      have e1 : state (e :: h) = match state h with
        | .error e => Except.error e
        | .ok s => step s e := rfl
      rw [e1, hs]
    rw [hst]
    have hc := hi.good.ctr
    cases e with
    | run id reads sets =>
      have hg : Good (clock h + 1) (holds h) (touched h) (start s id reads) := by
        refine ⟨by rw [← hc]; rfl, hi.good.obj, hi.good.ts, ?_, fun z q => by cases q⟩
        intro x y hy
        have := hi.good.old x y hy
        exact ⟨Nat.le_succ_of_le this.1, fun r hr => Nat.le_succ_of_le (this.2 r hr)⟩
      obtain ⟨s', h1, h2, h3, h4⟩ := fold_good sets hg
      refine ⟨s', h1, ⟨good_ext h2 (fun x => updAll_obj sets x _) (fun x => updAll_ts _ sets x _), ?_, ?_, ?_⟩⟩
      · intro n
        rw [h3]
        show get (set s.runs (s.ctr + 1) id) n = _
        rw [get_set, hc, hi.runs n]
        rfl
      · intro c
        rw [h4]
        show (get (set s.cells id ⟨s.ctr + 1, reads⟩) c).map _ = _
        rw [get_set, hc]
        by_cases q : c = id
        · rw [if_pos q]
          show _ = if c = id then _ else _
          rw [if_pos q]
          rfl
        · rw [if_neg q, hi.cells c]
          show _ = if c = id then _ else _
          rw [if_neg q]
      · intro c k hk
        rw [h4] at hk
        have hk2 : get (set s.cells id ⟨s.ctr + 1, reads⟩) c = some k := hk
        rw [get_set, hc] at hk2
        by_cases q : c = id
        · rw [if_pos q, Option.some.injEq] at hk2
          rw [← hk2]
          exact le_refl _
        · rw [if_neg q] at hk2
          exact Nat.le_succ_of_le (hi.before c k hk2)
    | tell x obj deps =>
      cases obj with
      | none => exact ⟨s, rfl, ⟨hi.good, hi.runs, hi.cells, hi.before⟩⟩
      | some o =>
        have hx := hi.good.obj x
        by_cases hh : holds h x = some o
        · refine ⟨s, ?_, ⟨good_ext hi.good ?_ ?_, hi.runs, hi.cells, hi.before⟩⟩
          · show (match get s.syms x with
              | none => update s x o deps
              | some y => if y.obj = o then .ok s else update s x o deps) = _
            cases hg : get s.syms x with
            | none => rw [hg, hh] at hx; cases hx
            | some y =>
              rw [hg, hh, Option.map_some, Option.some.injEq] at hx
              dsimp only
              rw [if_pos hx]
          · intro z
            show _ = if z = x then some o else holds h z
            by_cases q : z = x
            · rw [if_pos q, q, hh]
            · rw [if_neg q]
          · intro z
            show _ = if z = x ∧ holds h z ≠ some o then some (clock h) else touched h z
            rw [if_neg]
            rintro ⟨q, q'⟩
            exact q' (q ▸ hh)
        · obtain ⟨s', b, h1, hu⟩ := update_ok s x o deps
          have hg' := update_good hi.good hu
          refine ⟨s', ?_, ⟨good_ext hg' (fun z => rfl) ?_, by rw [hu.runs]; exact hi.runs,
            by rw [hu.cells]; exact hi.cells, by rw [hu.cells]; exact hi.before⟩⟩
          · show (match get s.syms x with
              | none => update s x o deps
              | some y => if y.obj = o then .ok s else update s x o deps) = _
            cases hg : get s.syms x with
            | none => exact h1
            | some y =>
              dsimp only
              rw [if_neg]
              · exact h1
              · intro q
                rw [hg, Option.map_some, q] at hx
                exact hh hx.symm
          · intro z
            show (if z = x then _ else _) = if z = x ∧ holds h z ≠ some o then some (clock h) else touched h z
            by_cases q : z = x
            · rw [if_pos q, if_pos ⟨q, q ▸ hh⟩]
            · rw [if_neg q, if_neg (fun r => q r.1)]
    | refresh xs =>
      obtain ⟨h1, h2, h3⟩ := refresh_good xs hi.good
      exact ⟨_, rfl, ⟨h1, by rw [h2]; exact hi.runs, by rw [h3]; exact hi.cells,
        by rw [h3]; exact hi.before⟩⟩
    | rename old new =>
      have hl : (get s.cells new).isSome = (latest h new).isSome := by
        rw [← hi.cells new]
        cases get s.cells new <;> rfl
      by_cases hn : (get s.cells new).isSome = true
      · refine ⟨s, ?_, ⟨hi.good, ?_, ?_, hi.before⟩⟩
        · show (if (get s.cells new).isSome then _ else _) = _
          rw [if_pos hn]
        · intro n
          show _ = if (latest h new).isSome then idAt h n else _
          rw [if_pos (hl ▸ hn)]
          exact hi.runs n
        · intro c
          show _ = if (latest h new).isSome then latest h c else _
          rw [if_pos (hl ▸ hn)]
          exact hi.cells c
      · have hnone : get s.cells new = none := by
          cases hg : get s.cells new with
          | none => rfl
          | some k => rw [hg] at hn; exact absurd rfl hn
        refine ⟨{ s with
          runs := s.runs.map fun p => if p.2 = old then (p.1, new) else p
          cells := s.cells.map fun p => if p.1 = old then (new, p.2) else p }, ?_,
          ⟨⟨hi.good.ctr, hi.good.obj, hi.good.ts, hi.good.old, hi.good.recent⟩, ?_, ?_, ?_⟩⟩
        · show (if (get s.cells new).isSome then _ else _) = _
          rw [if_neg hn]
        · intro n
          show get (s.runs.map _) n = if (latest h new).isSome then idAt h n else _
          rw [if_neg (hl ▸ hn), get_renamed, hi.runs n]
          rfl
        · intro c
          show (get (s.cells.map _) c).map _ = if (latest h new).isSome then latest h c else _
          rw [if_neg (hl ▸ hn), get_moved _ _ _ hnone]
          by_cases h1 : c = new
          · rw [if_pos h1, if_pos h1]; exact hi.cells old
          · rw [if_neg h1, if_neg h1]
            by_cases h2 : c = old
            · rw [if_pos h2, if_pos h2]; rfl
            · rw [if_neg h2, if_neg h2]; exact hi.cells c
        · intro c k hk
          have hk2 : get (s.cells.map fun p => if p.1 = old then (new, p.2) else p) c = some k := hk
          rw [get_moved _ _ _ hnone] at hk2
          by_cases h1 : c = new
          · rw [if_pos h1] at hk2; exact hi.before old k hk2
          · rw [if_neg h1] at hk2
            by_cases h2 : c = old
            · rw [if_pos h2] at hk2; cases hk2
            · rw [if_neg h2] at hk2; exact hi.before c k hk2

theorem inv_of {h : List Ev} {s : St} (hs : state h = .ok s) : Inv h s := by
  obtain ⟨s', h1, h2⟩ := inv h
  rw [hs, Except.ok.injEq] at h1
  exact h1 ▸ h2

end Verif.Told
