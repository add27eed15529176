import Verif.Versions.Spec
import Verif.Slice.Props
import Mathlib.Data.List.Forall2
import Mathlib.Tactic.SplitIfs

/-! Invariants of what is noted about variables and dictionaries. -/

namespace Verif.Versions
open Verif

/-! ### Lists -/

theorem mem_set {κ ν : Type} [DecidableEq κ] {l : List (κ × ν)} {k : κ} {v : ν} {p : κ × ν} (h : p ∈ Assoc.set l k v) :
    p = (k, v) ∨ p ∈ l := by
  induction l with
  | nil => simp only [Assoc.set, List.mem_singleton] at h; exact .inl h
  | cons q l ih =>
    obtain ⟨k', v'⟩ := q
    simp only [Assoc.set] at h
    split at h
    · rename_i e; subst e
      rcases List.mem_cons.1 h with h | h
      · exact .inl h
      · exact .inr (List.mem_cons_of_mem _ h)
    · rcases List.mem_cons.1 h with h | h
      · exact .inr (h ▸ List.mem_cons_self)
      · rcases ih h with h | h
        · exact .inl h
        · exact .inr (List.mem_cons_of_mem _ h)

theorem get_map_some (d : List (Nat × Int)) (m : Part) (k : Nat) :
    Assoc.get (d.map fun p => (some p.1, m)) (some k) = (Assoc.get d k).map fun _ => m := by
  induction d with
  | nil => rfl
  | cons q d ih =>
    obtain ⟨k', v⟩ := q
    simp only [List.map_cons, Assoc.get]
    by_cases e : k' = k
    · subst e; simp
    · rw [if_neg (by simpa using e), if_neg e, ih]

theorem get_snapshotAll (env : List (Nat × Val)) (o : Nat) (syms : List (Nat × Tracked)) (x : Nat) :
    Assoc.get (snapshotAll env o syms) x =
      (Assoc.get syms x).map fun s => if Assoc.get env x = some (.ref o) then { s with snaps := s.snaps ++ [some s.ts] } else s := by
  induction syms with
  | nil => rfl
  | cons q l ih =>
    obtain ⟨y, s⟩ := q
    have e : snapshotAll env o ((y, s) :: l) =
        (y, if Assoc.get env y = some (.ref o) then { s with snaps := s.snaps ++ [some s.ts] } else s) :: snapshotAll env o l := by
      unfold snapshotAll
      simp only [List.map_cons]
      split <;> rfl
    rw [e]
    simp only [Assoc.get]
    by_cases e : y = x
    · subst e; simp
    · rw [if_neg e, if_neg e, ih]

theorem get_bindSym (t : Nat) (syms : List (Nat × Tracked)) (x y : Nat) :
    Assoc.get (bindSym t syms x) y =
      if y = x then some (match Assoc.get syms x with
        | some s => { s with ts := t, snaps := s.snaps ++ [some t] }
        | none => ⟨t, t, [some t]⟩) else Assoc.get syms y := by
  unfold bindSym
  cases Assoc.get syms x <;> simp only [Assoc.get_set]

theorem get_refreshPart (t : Nat) (parts : List (Option Nat × Part)) (k k' : Option Nat) :
    Assoc.get (refreshPart t parts k) k' =
      if k' = k then some (match Assoc.get parts k with
        | some m => ⟨t, m.snaps ++ [t]⟩
        | none => ⟨t, [t]⟩) else Assoc.get parts k' := by
  unfold refreshPart
  cases Assoc.get parts k <;> simp only [Assoc.get_set]

theorem mem_refreshPart {t : Nat} {parts : List (Option Nat × Part)} {k : Option Nat} {p : Option Nat × Part}
    (h : p ∈ refreshPart t parts k) :
    p ∈ parts ∨ (p.2.ts = t ∧ ∀ b ∈ p.2.snaps, b = t ∨ ∃ q ∈ parts, b ∈ q.2.snaps) := by
  unfold refreshPart at h
  cases e : Assoc.get parts k with
  | none =>
    rw [e] at h
    rcases mem_set h with h | h
    · subst h; exact .inr ⟨rfl, fun b hb => .inl (by simpa using hb)⟩
    · exact .inl h
  | some m =>
    rw [e] at h
    rcases mem_set h with h | h
    · subst h
      refine .inr ⟨rfl, fun b hb => ?_⟩
      rcases List.mem_append.1 hb with hb | hb
      · exact .inr ⟨_, Assoc.mem_of_get e, hb⟩
      · exact .inl (by simpa using hb)
    · exact .inl h

/-! ### What holds of every notebook -/

/-- The namespace of a dictionary knows its keys, and nothing in it is from the future. -/
structure NsOk (time : Nat) (d : List (Nat × Int)) (ns : Ns) : Prop where
  keys : ∀ k, (Assoc.get ns.parts (some k)).isSome = (Assoc.get d k).isSome
  whole : (Assoc.get ns.parts none).isSome
  past : ∀ p ∈ ns.parts, p.2.ts < time ∧ ∀ b ∈ p.2.snaps, b < time
  desc : ns.desc < time

structure Inv (h : List Stmt) (σ : State) : Prop where
  py : Spec.run h = some σ.py
  time : σ.time = h.length
  dom : ∀ x, (Assoc.get σ.syms x).isSome = (Assoc.get σ.py.env x).isSome
  sym : ∀ x s, Assoc.get σ.syms x = some s → s.ts < σ.time ∧ (∀ b, some b ∈ s.snaps → b ≤ s.ts)
  ref : ∀ x o, Assoc.get σ.py.env x = some (.ref o) → (Assoc.get σ.py.heap o).isSome
  heap : ∀ o d, Assoc.get σ.py.heap o = some d → o < σ.time ∧ ∃ ns, Assoc.get σ.nss o = some ns ∧ NsOk σ.time d ns
  own : ∀ x s, Spec.ownDict x h = true → Assoc.get σ.syms x = some s → Assoc.get σ.py.env x = some (.ref s.ts)
  edges : ∀ t u, u ∈ σ.edges t → u < t
  text : ∀ t, t < σ.time → (σ.text t).isSome

theorem NsOk.weaken {t : Nat} {d : List (Nat × Int)} {ns : Ns} (h : NsOk t d ns) : NsOk (t + 1) d ns :=
  ⟨h.keys, h.whole, fun p hp => ⟨by have := (h.past p hp).1; omega, fun b hb => by have := (h.past p hp).2 b hb; omega⟩,
    by have := h.desc; omega⟩

theorem NsOk.refresh {t : Nat} {d d' : List (Nat × Int)} {ns : Ns} (h : NsOk t d ns) (k : Option Nat)
    (hd : ∀ k', (Assoc.get d' k').isSome = if some k' = k then true else (Assoc.get d k').isSome) :
    NsOk (t + 1) d' (refreshNs t ns k) := by
  refine ⟨fun k' => ?_, ?_, fun p hp => ?_, ?_⟩
  · rw [hd]
    simp only [refreshNs, get_refreshPart]
    split
    · rfl
    · exact h.keys k'
  · simp only [refreshNs, get_refreshPart]
    split
    · rfl
    · exact h.whole
  · rcases mem_refreshPart hp with hp | ⟨e, hp⟩
    · exact (h.weaken).past p hp
    · refine ⟨by omega, fun b hb => ?_⟩
      rcases hp b hb with rfl | ⟨q, hq, hb⟩
      · omega
      · have := (h.past q hq).2 b hb; omega
  · have := h.desc
    simp only [refreshNs]
    omega

theorem NsOk.literal (t : Nat) (d : List (Nat × Int)) : NsOk (t + 1) d (literalNs t d) := by
  refine ⟨fun k => ?_, ?_, fun p hp => ?_, ?_⟩
  · simp only [literalNs, Assoc.get, reduceCtorEq, if_false, get_map_some]
    cases Assoc.get d k <;> rfl
  · simp [literalNs, Assoc.get]
  · simp only [literalNs, List.mem_cons, List.mem_map] at hp
    rcases hp with rfl | ⟨q, _, rfl⟩
    · exact ⟨Nat.lt_succ_self _, fun b hb => by simp at hb; omega⟩
    · exact ⟨Nat.lt_succ_self _, fun b hb => by simp at hb; omega⟩
  · exact Nat.lt_succ_self _

theorem partTimes_lt {h : List Stmt} {σ : State} (i : Inv h σ) (x u : Nat) (hu : u ∈ partTimes σ x) : u < σ.time := by
  unfold partTimes at hu
  split at hu
  · rename_i o e
    split at hu
    · rename_i ns en
      obtain ⟨d, hd⟩ := Option.isSome_iff_exists.1 (i.ref x o e)
      obtain ⟨_, ns', en', ok⟩ := i.heap o d hd
      rw [en] at en'; cases en'
      obtain ⟨p, hp, rfl⟩ := List.mem_map.1 hu
      exact (ok.past p hp).1
    · cases hu
  · cases hu

theorem useName_lt {h : List Stmt} {σ : State} (i : Inv h σ) (x : Nat) (b : Bool) (u : Nat) (hu : u ∈ useName σ x b) : u < σ.time := by
  unfold useName at hu
  split at hu
  · rename_i s e
    rcases List.mem_cons.1 hu with rfl | hu
    · exact (i.sym x s e).1
    · cases b with
      | true => cases hu
      | false => exact partTimes_lt i x u hu
  · cases hu

theorem partOf_lt {h : List Stmt} {σ : State} (i : Inv h σ) (x : Nat) (k : Option Nat) (m : Part) (hm : partOf σ x k = some m) :
    m.ts < σ.time := by
  unfold partOf at hm
  split at hm
  · rename_i o e
    obtain ⟨d, hd⟩ := Option.isSome_iff_exists.1 (i.ref x o e)
    obtain ⟨_, ns, en, ok⟩ := i.heap o d hd
    rw [en] at hm
    exact (ok.past _ (Assoc.mem_of_get hm)).1
  · cases hm

theorem useOp_lt {h : List Stmt} {σ : State} (i : Inv h σ) (op : Operand) (u : Nat) (hu : u ∈ useOp σ op) : u < σ.time := by
  cases op with
  | name y => exact useName_lt i y _ u hu
  | elt y k =>
    simp only [useOp] at hu
    split at hu
    · rename_i m e
      rw [List.mem_singleton.1 hu]
      exact partOf_lt i y _ m e
    · cases hu

theorem links_lt {h : List Stmt} {σ : State} (i : Inv h σ) (s : Stmt) (u : Nat) (hu : u ∈ links σ s) : u < σ.time := by
  cases s with
  | num x ops c =>
    obtain ⟨op, _, hu⟩ := List.mem_flatMap.1 hu
    exact useOp_lt i op u hu
  | dict x items =>
    obtain ⟨it, _, hu⟩ := List.mem_flatMap.1 hu
    obtain ⟨op, _, hu⟩ := List.mem_flatMap.1 hu
    exact useOp_lt i op u hu
  | put x k ops c =>
    rcases List.mem_append.1 hu with hu | hu
    · obtain ⟨op, _, hu⟩ := List.mem_flatMap.1 hu
      exact useOp_lt i op u hu
    · exact useName_lt i x _ u hu
  | same y x => exact useName_lt i x _ u hu

/-! ### What a statement does to Python -/

/-- The effect of a statement, by cases. -/
inductive Eff (t : Nat) (p : Py) : Stmt → Py → Prop
  | num {x ops c n} (hn : evalSum p ops c = some n) : Eff t p (.num x ops c) { p with env := Assoc.set p.env x (.num n) }
  | dict {x items d} (hd : evalItems p [] items = some d) :
      Eff t p (.dict x items) ⟨Assoc.set p.env x (.ref t), Assoc.set p.heap t d⟩
  | put {x k ops c n o d} (hn : evalSum p ops c = some n) (hx : Assoc.get p.env x = some (.ref o)) (hd : Assoc.get p.heap o = some d) :
      Eff t p (.put x k ops c) { p with heap := Assoc.set p.heap o (Assoc.set d k n) }
  | same {y x v} (hx : Assoc.get p.env x = some v) (hy : Assoc.get p.env y = none) :
      Eff t p (.same y x) { p with env := Assoc.set p.env y v }

theorem exec_iff (t : Nat) (s : Stmt) (p q : Py) : exec t s p = some q ↔ Eff t p s q := by
  constructor
  · intro h
    cases s with
    | num x ops c =>
      simp only [exec, Option.bind_eq_some_iff] at h
      obtain ⟨n, hn, h⟩ := h
      cases h; exact .num hn
    | dict x items =>
      simp only [exec, Option.bind_eq_some_iff] at h
      obtain ⟨d, hd, h⟩ := h
      cases h; exact .dict hd
    | put x k ops c =>
      simp only [exec, Option.bind_eq_some_iff] at h
      obtain ⟨n, hn, h⟩ := h
      split at h
      · rename_i o e
        obtain ⟨d, hd, h⟩ := Option.bind_eq_some_iff.1 h
        cases h; exact .put hn e hd
      · cases h
    | same y x =>
      simp only [exec, Option.bind_eq_some_iff] at h
      obtain ⟨v, hv, h⟩ := h
      split at h
      · cases h
      · rename_i hy
        cases h
        exact .same hv (by simpa using hy)
  · intro h
    cases h with
    | num hn => simp [exec, hn]
    | dict hd => simp [exec, hd]
    | put hn hx hd => simp [exec, hn, hx, hd]
    | same hx hy => simp [exec, hx, hy]

theorem inv_step {h : List Stmt} {σ τ : State} (i : Inv h σ) (s : Stmt) (hs : step s σ = some τ) : Inv (s :: h) τ := by
  simp only [step, Option.bind_eq_some_iff, Option.some.injEq] at hs
  obtain ⟨p, hp, rfl⟩ := hs
  have he := (exec_iff _ _ _ _).1 hp
  have hpy : Spec.run (s :: h) = some p := by simp only [Spec.run, i.py, Option.bind_some, ← i.time]; exact hp
  have hedges : ∀ t u, u ∈ (if t = σ.time then links σ s else σ.edges t) → u < t := by
    intro t u hu
    split at hu
    · rename_i e; subst e; exact links_lt i s u hu
    · exact i.edges t u hu
  have htext : ∀ t, t < σ.time + 1 → (if t = σ.time then some s else σ.text t).isSome := by
    intro t ht
    split
    · rfl
    · exact i.text t (by omega)
  have hheap : ∀ o d, Assoc.get σ.py.heap o = some d → o < σ.time + 1 ∧ ∃ ns, Assoc.get σ.nss o = some ns ∧ NsOk (σ.time + 1) d ns := by
    intro o d hd
    obtain ⟨a, ns, b, c⟩ := i.heap o d hd
    exact ⟨by omega, ns, b, c.weaken⟩
  have hbs : ∀ x s', Assoc.get (bindSym σ.time σ.syms x) x = some s' → s'.ts = σ.time ∧ s'.ts < σ.time + 1 ∧ (∀ b, some b ∈ s'.snaps → b ≤ s'.ts) := by
    intro x s' hs'
    rw [get_bindSym, if_pos rfl] at hs'
    cases e : Assoc.get σ.syms x with
    | none =>
      rw [e] at hs'; cases hs'
      exact ⟨rfl, Nat.lt_succ_self _, fun b hb => by simp at hb; show b ≤ σ.time; omega⟩
    | some s₀ =>
      rw [e] at hs'; cases hs'
      refine ⟨rfl, Nat.lt_succ_self _, fun b hb => ?_⟩
      rcases List.mem_append.1 hb with hb | hb
      · have := (i.sym x s₀ e); have := this.2 b hb; show b ≤ σ.time; omega
      · simp at hb; show b ≤ σ.time; omega
  have hsym : ∀ x s', Assoc.get σ.syms x = some s' → s'.ts < σ.time + 1 ∧ (∀ b, some b ∈ s'.snaps → b ≤ s'.ts) :=
    fun x s' hx => ⟨by have := (i.sym x s' hx).1; omega, (i.sym x s' hx).2⟩
  have hsnap : ∀ o x s', Assoc.get (snapshotAll σ.py.env o σ.syms) x = some s' →
      ∃ s₀, Assoc.get σ.syms x = some s₀ ∧ s'.ts = s₀.ts ∧ s'.ts < σ.time + 1 ∧ (∀ b, some b ∈ s'.snaps → b ≤ s'.ts) := by
    intro o x s' hs'
    rw [get_snapshotAll] at hs'
    obtain ⟨s₀, e, hs'⟩ := Option.map_eq_some_iff.1 hs'
    refine ⟨s₀, e, ?_⟩
    split at hs'
    · subst hs'
      refine ⟨rfl, (hsym x s₀ e).1, fun b hb => ?_⟩
      rcases List.mem_append.1 hb with hb | hb
      · exact (hsym x s₀ e).2 b hb
      · simp at hb; show b ≤ s₀.ts; omega
    · subst hs'
      exact ⟨rfl, hsym x s₀ e⟩
  cases he with
  | @num x ops c n hn =>
    refine ⟨hpy, by simp [i.time], fun y => ?_, fun y s' hy => ?_, fun y o hy => ?_, hheap, fun y s' ho hy => ?_, hedges, htext⟩
    · simp only [note, get_bindSym, Assoc.get_set]
      split
      · rfl
      · exact i.dom y
    · simp only [note] at hy
      by_cases e : y = x
      · subst e; exact (hbs y s' hy).2
      · rw [get_bindSym, if_neg e] at hy; exact hsym y s' hy
    · simp only [Assoc.get_set] at hy
      split at hy
      · simp at hy
      · exact i.ref y o hy
    · simp only [Spec.ownDict, Spec.binds, Option.some.injEq] at ho
      by_cases e : y = x
      · subst e; simp at ho
      · rw [if_neg (Ne.symm e)] at ho
        simp only [note, get_bindSym, if_neg e] at hy
        simp only [Assoc.get_set, if_neg e]
        exact i.own y s' ho hy
  | @dict x items d hd =>
    refine ⟨hpy, by simp [i.time], fun y => ?_, fun y s' hy => ?_, fun y o hy => ?_, fun o d' hd' => ?_, fun y s' ho hy => ?_, hedges, htext⟩
    · simp only [note, get_bindSym, Assoc.get_set]
      split
      · rfl
      · exact i.dom y
    · simp only [note] at hy
      by_cases e : y = x
      · subst e; exact (hbs y s' hy).2
      · rw [get_bindSym, if_neg e] at hy; exact hsym y s' hy
    · simp only [Assoc.get_set] at hy ⊢
      split at hy
      · simp only [Option.some.injEq, Val.ref.injEq] at hy
        rw [if_pos hy.symm]; rfl
      · split
        · rfl
        · exact i.ref y o hy
    · simp only [note, Assoc.get_set, if_true, Option.getD_some] at hd' ⊢
      by_cases e : o = σ.time
      · rw [if_pos e] at hd' ⊢
        cases hd'
        exact ⟨by omega, _, rfl, NsOk.literal _ _⟩
      · rw [if_neg e] at hd' ⊢
        exact hheap o d' hd'
    · simp only [Spec.ownDict, Spec.binds, Option.some.injEq] at ho
      by_cases e : y = x
      · subst e
        simp only [note] at hy
        rw [(hbs y s' hy).1]
        exact Assoc.get_set_self _ _ _
      · rw [if_neg (Ne.symm e)] at ho
        simp only [note, get_bindSym, if_neg e] at hy
        simp only [Assoc.get_set, if_neg e]
        exact i.own y s' ho hy
  | @put x k ops c n o d hn hx hd =>
    obtain ⟨hot, ns, hns, ok⟩ := i.heap o d hd
    have e1 : (note σ { σ.py with heap := Assoc.set σ.py.heap o (Assoc.set d k n) } (.put x k ops c)) =
        (snapshotAll σ.py.env o σ.syms, Assoc.set σ.nss o (refreshNs σ.time ns (some k))) := by simp only [note, hx, hns]
    rw [e1]
    refine ⟨hpy, by simp [i.time], fun y => ?_, fun y s' hy => ?_, fun y o' hy => ?_, fun o' d' hd' => ?_, fun y s' ho hy => ?_, hedges, htext⟩
    · rw [get_snapshotAll, Option.isSome_map]; exact i.dom y
    · obtain ⟨_, _, _, h1⟩ := hsnap o y s' hy; exact h1
    · have := i.ref y o' hy
      simp only [Assoc.get_set]
      split
      · rfl
      · exact this
    · simp only [Assoc.get_set] at hd' ⊢
      by_cases e : o' = o
      · rw [if_pos e] at hd' ⊢
        cases hd'
        refine ⟨by omega, _, rfl, ok.refresh _ fun k' => ?_⟩
        simp only [Assoc.get_set, Option.some.injEq]
        split <;> simp [*]
      · rw [if_neg e] at hd' ⊢
        exact hheap o' d' hd'
    · simp only [Spec.ownDict, Spec.binds, reduceCtorEq, if_false] at ho
      obtain ⟨s₀, e, et, _⟩ := hsnap o y s' hy
      rw [et]; exact i.own y s₀ ho e
  | @same y x v hx hy0 =>
    cases v with
    | num n =>
      have e1 : (note σ { σ.py with env := Assoc.set σ.py.env y (.num n) } (.same y x)) = (bindSym σ.time σ.syms y, σ.nss) := by
        simp only [note, hx]
      rw [e1]
      refine ⟨hpy, by simp [i.time], fun z => ?_, fun z s' hz => ?_, fun z o hz => ?_, hheap, fun z s' ho hz => ?_, hedges, htext⟩
      · simp only [get_bindSym, Assoc.get_set]
        split
        · rfl
        · exact i.dom z
      · by_cases e : z = y
        · subst e; exact (hbs z s' hz).2
        · rw [get_bindSym, if_neg e] at hz; exact hsym z s' hz
      · simp only [Assoc.get_set] at hz
        split at hz
        · simp at hz
        · exact i.ref z o hz
      · simp only [Spec.ownDict, Spec.binds, Option.some.injEq] at ho
        by_cases e : z = y
        · subst e; simp at ho
        · rw [if_neg (Ne.symm e)] at ho
          simp only [get_bindSym, if_neg e] at hz
          simp only [Assoc.get_set, if_neg e]
          exact i.own z s' ho hz
    | ref o =>
      obtain ⟨d, hd⟩ := Option.isSome_iff_exists.1 (i.ref x o hx)
      obtain ⟨hot, ns, hns, ok⟩ := i.heap o d hd
      have e1 : (note σ { σ.py with env := Assoc.set σ.py.env y (.ref o) } (.same y x)) =
          (Assoc.set (snapshotAll σ.py.env o σ.syms) y ⟨σ.time, σ.time, [none, some σ.time]⟩,
            Assoc.set σ.nss o (refreshNs σ.time ns none)) := by simp only [note, hx, hns]
      rw [e1]
      refine ⟨hpy, by simp [i.time], fun z => ?_, fun z s' hz => ?_, fun z o' hz => ?_, fun o' d' hd' => ?_, fun z s' ho hz => ?_, hedges, htext⟩
      · simp only [Assoc.get_set]
        split
        · rfl
        · rw [get_snapshotAll, Option.isSome_map]; exact i.dom z
      · simp only [Assoc.get_set] at hz
        split at hz
        · cases hz
          exact ⟨Nat.lt_succ_self _, fun b hb => by simp at hb; show b ≤ σ.time; omega⟩
        · obtain ⟨_, _, _, h1⟩ := hsnap o z s' hz; exact h1
      · simp only [Assoc.get_set] at hz
        split at hz
        · cases hz; exact i.ref x o hx
        · exact i.ref z o' hz
      · simp only [Assoc.get_set]
        by_cases e : o' = o
        · rw [if_pos e]
          rw [e] at hd'
          have : d' = d := by rw [hd] at hd'; exact (Option.some.inj hd').symm
          subst this
          exact ⟨by omega, _, rfl, ok.refresh _ fun k' => by simp⟩
        · rw [if_neg e]
          exact hheap o' d' hd'
      · simp only [Spec.ownDict, Spec.binds, Option.some.injEq] at ho
        by_cases e : z = y
        · subst e; simp at ho
        · rw [if_neg (Ne.symm e)] at ho
          simp only [Assoc.get_set, if_neg e] at hz ⊢
          obtain ⟨s₀, e, et, _⟩ := hsnap o z s' hz
          rw [et]; exact i.own z s₀ ho e

theorem inv_track {h : List Stmt} {σ : State} (ht : track h = some σ) : Inv h σ := by
  induction h generalizing σ with
  | nil =>
    cases ht
    exact ⟨rfl, rfl, fun _ => rfl, fun _ _ h => by simp [State.init] at h, fun _ _ h => by simp [State.init] at h,
      fun _ _ h => by simp [State.init] at h, fun _ _ h => by simp [Spec.ownDict] at h, fun _ _ h => by simp [State.init] at h,
      fun _ h => by simp [State.init] at h⟩
  | cons s h ih =>
    simp only [track, Option.bind_eq_some_iff] at ht
    obtain ⟨σ₀, h0, hs⟩ := ht
    exact inv_step (ih h0) s hs

theorem track_of_run {h : List Stmt} {p : Py} (hr : Spec.run h = some p) : ∃ σ, track h = some σ ∧ σ.py = p := by
  induction h generalizing p with
  | nil => cases hr; exact ⟨_, rfl, rfl⟩
  | cons s h ih =>
    simp only [Spec.run, Option.bind_eq_some_iff] at hr
    obtain ⟨q, hq, he⟩ := hr
    obtain ⟨σ, hσ, rfl⟩ := ih hq
    refine ⟨_, by simp only [track, hσ, Option.bind_some, step, (inv_track hσ).time, he]; rfl, rfl⟩

end Verif.Versions
