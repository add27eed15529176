import Verif.Extern.Lemmas

/-!
# C114: what calls of library code change is recorded
-/

namespace Verif.Extern
open Verif

variable {w : World} {c : Call} {r r' : Rec} {o : Nat} {m : Meth}

/-- What the default rule comes to for a call on an object. -/
theorem standard_caller {module : Option Nat} :
    standard w c module (some o) r = if c.ret ≠ 0 ∧ c.ret ≠ o then r else mutateCaller w c (some o) r := rfl

/-- A call of a method that changes a list, dictionary or set is recorded as a change, under the
name by which the object is called, if the method is not one of `dict.pop`, `dict.popitem`,
`dict.setdefault` and `set.pop` or else returns `None`; and if, for `clear`, the names of known
elements can be compared. The claim is without these conditions; see `value_unrecorded` and
`clear_fails`. -/
theorem container_partial (hw : Wf w) (h : OnContainer w c o m) (hch : Changes (w.kind o) m)
    (hg : w.kind o ≠ .list → Gives (w.kind o) m → c.ret = 0 ∨ c.ret = o)
    (hcl : m = .clear → ∀ ks, w.elems o = some ks → ∀ k ∈ ks, ∀ k' ∈ ks, k = k') {s : Nat}
    (hs : CalledBy w c o s) : ∃ r' d, call w c r = .ok r' ∧ Marked r' s d := by
  have hk2 : w.kind o ≠ .frozen := by rcases h.kind with e | e | e <;> simp [e]
  have hk3 : w.kind o ≠ .bytearray := by rcases h.kind with e | e | e <;> simp [e]
  have hmc : ∃ d, Marked (mutateCaller w c (some o) r) s d := mutateCaller_marks hw hk2 hk3 hs
  have hret : w.kind o ≠ .list ∨ ¬ Gives (w.kind o) m → ¬ (c.ret ≠ 0 ∧ c.ret ≠ o) := by
    rintro hl ⟨h1, h2⟩
    by_cases hgv : Gives (w.kind o) m
    · rcases hl with hl | hl
      · rcases hg hl hgv with e | e
        · exact h1 e
        · exact h2 e
      · exact hl hgv
    · exact h1 (h.returns hch hgv)
  obtain ⟨hc, hm⟩ := container_caller h
  have hst : ∀ hl : w.kind o ≠ .list ∨ ¬ Gives (w.kind o) m, ∃ d, Marked (standard w c none (some o) r) s d := by
    intro hl
    rw [standard_caller, if_neg (hret hl)]; exact hmc
  have hsort : ∀ ks : List Key, (∀ k ∈ ks, ∀ k' ∈ ks, k = k') → sortable ks = true := by
    intro ks hks
    cases ks with
    | nil => rfl
    | cons k ks =>
      simp only [sortable, List.all_eq_true, decide_eq_true_eq]
      intro k' hk'
      exact hks k' (by simp [hk']) k (by simp)
  have hclear : (w.kind o ≠ .list ∨ ¬ Gives (w.kind o) m) → m = .clear →
      ∃ r' d, clear w c none (some o) r = .ok r' ∧ Marked r' s d := by
    intro hl hme
    obtain ⟨d, hd⟩ := hst hl
    unfold clear
    dsimp only
    split
    · cases hel : w.elems o with
      | none => exact ⟨_, d, rfl, hd⟩
      | some ks =>
        dsimp only
        rw [hsort ks (hcl hme ks hel), if_pos rfl]
        exact ⟨_, d, rfl, hd⟩
    · exact ⟨_, d, rfl, hd⟩
  unfold call
  rw [choose_container h, hc, hm]
  generalize hkk : w.kind o = kk at *
  obtain ⟨d, hd⟩ := hmc
  cases hch with
  | listAppend => simp only [registered, pick, hkk, if_true]; exact ⟨_, d, rfl, hd⟩
  | listExtend => simp only [registered, pick, hkk, if_true]; exact ⟨_, d, rfl, hd⟩
  | listInsert => exact ⟨_, d, rfl, hd⟩
  | listRemove => exact ⟨_, d, rfl, hd⟩
  | listPop => exact ⟨_, d, rfl, hd⟩
  | listSort => exact ⟨_, d, rfl, hd⟩
  | listReverse => obtain ⟨d, hd⟩ := hst (.inr (nofun)); exact ⟨_, d, rfl, hd⟩
  | listClear => exact hclear (.inr (nofun)) rfl
  | dictClear => exact hclear (.inr (nofun)) rfl
  | dictPop => obtain ⟨d, hd⟩ := hst (.inl (by simp)); exact ⟨_, d, rfl, hd⟩
  | dictPopitem => obtain ⟨d, hd⟩ := hst (.inl (by simp)); exact ⟨_, d, rfl, hd⟩
  | dictSetdefault => obtain ⟨d, hd⟩ := hst (.inl (by simp)); exact ⟨_, d, rfl, hd⟩
  | dictUpdate => obtain ⟨d, hd⟩ := hst (.inl (by simp)); exact ⟨_, d, rfl, hd⟩
  | setAdd => obtain ⟨d, hd⟩ := hst (.inl (by simp)); exact ⟨_, d, rfl, hd⟩
  | setClear => obtain ⟨d, hd⟩ := hst (.inl (by simp)); exact ⟨_, d, rfl, hd⟩
  | setDiscard => obtain ⟨d, hd⟩ := hst (.inl (by simp)); exact ⟨_, d, rfl, hd⟩
  | setRemove => obtain ⟨d, hd⟩ := hst (.inl (by simp)); exact ⟨_, d, rfl, hd⟩
  | setPop => obtain ⟨d, hd⟩ := hst (.inl (by simp)); exact ⟨_, d, rfl, hd⟩
  | setUpdate => obtain ⟨d, hd⟩ := hst (.inl (by simp)); exact ⟨_, d, rfl, hd⟩
  | setDifferenceUpdate => obtain ⟨d, hd⟩ := hst (.inl (by simp)); exact ⟨_, d, rfl, hd⟩
  | setIntersectionUpdate => obtain ⟨d, hd⟩ := hst (.inl (by simp)); exact ⟨_, d, rfl, hd⟩
  | setSymmetricDifferenceUpdate => obtain ⟨d, hd⟩ := hst (.inl (by simp)); exact ⟨_, d, rfl, hd⟩

/-- `d.pop(k)`, `d.popitem()`, `d.setdefault(k, v)` and `s.pop()` change the object, but if they
return a value other than `None` nothing at all is recorded. -/
theorem value_unrecorded (h : OnContainer w c o m) (hg : Gives (w.kind o) m) (hl : w.kind o ≠ .list)
    (h0 : c.ret ≠ 0) (ho : c.ret ≠ o) : Changes (w.kind o) m ∧ call w c r = .ok r := by
  obtain ⟨hc, hm⟩ := container_caller h
  have hst : standard w c none (some o) r = r := by rw [standard_caller, if_pos ⟨h0, ho⟩]
  unfold call
  rw [choose_container h, hc, hm]
  generalize w.kind o = kk at *
  cases hg with
  | listPop => simp at hl
  | dictPop => exact ⟨.dictPop, by simp only [registered, pick, hst]⟩
  | dictPopitem => exact ⟨.dictPopitem, by simp only [registered, pick, hst]⟩
  | dictSetdefault => exact ⟨.dictSetdefault, by simp only [registered, pick, hst]⟩
  | setPop => exact ⟨.setPop, by simp only [registered, pick, hst]⟩

/-- Methods of lists, dictionaries and sets that change nothing are not recorded: they return a
value, or are `dict.get` or item access. -/
theorem reading_unrecorded (h : OnContainer w c o m) (hch : ¬ Changes (w.kind o) m)
    (hv : (c.ret ≠ 0 ∧ c.ret ≠ o) ∨ (w.kind o = .dict ∧ m = .get) ∨ (w.kind o ≠ .set ∧ m = .getitem)) :
    call w c r = .ok r := by
  obtain ⟨hc, hm⟩ := container_caller h
  have key : choose w c = none ∨ (choose w c = some .standard ∧ registered (w.kind o) m = none) := by
    rw [choose_container h]
    rcases h.kind with e | e | e <;> rw [e] at hch ⊢ <;> cases m <;>
      first
        | exact .inl rfl
        | exact .inr ⟨rfl, rfl⟩
        | (exfalso; apply hch; constructor)
  unfold call
  rcases key with e | ⟨e, e'⟩
  · rw [e]
  · rw [e, hc, hm]
    dsimp only
    rw [standard_caller]
    rcases hv with hv | ⟨hk, rfl⟩ | ⟨hk, rfl⟩
    · rw [if_pos hv]
    · rw [hk] at e'; simp [registered] at e'
    · rcases h.kind with e2 | e2 | e2
      · rw [e2] at e'; simp [registered] at e'
      · rw [e2] at e'; simp [registered] at e'
      · exact absurd e2 hk

/-- A method of another object of a library counts as changing it if it returns `None` or the
object. -/
theorem quiet_recorded (hw : Wf w) (h : OnOther w c o m) (hr : c.ret = 0 ∨ c.ret = o) {s : Nat}
    (hs : CalledBy w c o s) : ∃ r' d, call w c r = .ok r' ∧ Marked r' s d := by
  obtain ⟨hc, -⟩ := other_caller h
  unfold call
  rw [choose_other h, hc]
  dsimp only
  rw [standard_caller, if_neg (by rintro ⟨a, b⟩; rcases hr with e | e; exacts [a e, b e])]
  obtain ⟨d, hd⟩ := mutateCaller_marks (r := r) hw (by rw [h.kind]; simp) (by rw [h.kind]; simp) hs
  exact ⟨_, d, rfl, hd⟩

/-- Otherwise it does not. -/
theorem valued_unrecorded (h : OnOther w c o m) (h0 : c.ret ≠ 0) (ho : c.ret ≠ o) : call w c r = .ok r := by
  obtain ⟨hc, -⟩ := other_caller h
  unfold call
  rw [choose_other h, hc]
  dsimp only
  rw [standard_caller, if_pos ⟨h0, ho⟩]

theorem standard_new {module caller : Option Nat} {s : Nat} {d : List Nat}
    (h : Marked (standard w c module caller r) s d) :
    Marked r s d ∨
      ((w.kind (w.sym s).obj ≠ .frozen ∧ w.kind (w.sym s).obj ≠ .bytearray) ∧
       ((∃ o, caller = some o ∧ s ∈ w.names o ∧ (∀ x ∈ d, InArgs c x) ∧ (∀ x, InArgs c x → x ∉ w.names o → x ∈ d)) ∨
        (∃ k, caller = none ∧ module = some k ∧ s ∈ w.names k) ∨ (caller = none ∧ InArgs c s))) := by
  cases caller with
  | some o =>
    rw [standard_caller] at h
    split at h
    · exact .inl h
    · rcases mutateCaller_new h with h | ⟨o', ho, h1, h2, h3, h4⟩
      · exact .inl h
      · exact .inr ⟨h4, .inl ⟨o', ho, h1, h2, h3⟩⟩
  | none =>
    unfold standard at h
    cases module with
    | none => exact .inl h
    | some k =>
      dsimp only at h
      have hmod : Marked (markAll w r (argSyms c) (w.names k)) s d → Marked r s d ∨
          ((w.kind (w.sym s).obj ≠ .frozen ∧ w.kind (w.sym s).obj ≠ .bytearray) ∧
           ((∃ o, none = some o ∧ s ∈ w.names o ∧ (∀ x ∈ d, InArgs c x) ∧ (∀ x, InArgs c x → x ∉ w.names o → x ∈ d)) ∨
            (∃ k', none = (none : Option Nat) ∧ some k = some k' ∧ s ∈ w.names k') ∨ (none = (none : Option Nat) ∧ InArgs c s))) := by
        intro h
        rcases markAll_new _ _ _ s d h with h | ⟨h1, -, -, -, h4⟩
        · exact .inl h
        · exact .inr ⟨h4, .inr (.inl ⟨k, rfl, rfl, h1⟩)⟩
      split at h
      · exact .inl h
      · split at h
        · exact hmod h
        · rename_i a as hargs
          split at h
          · exact hmod h
          · split at h
            · exact hmod h
            · rcases argMutate_new _ _ s d h with h | ⟨h1, h4⟩
              · exact hmod h
              · refine .inr ⟨h4, .inr (.inr ⟨rfl, ?_⟩)⟩
                obtain ⟨b, hb, hsb⟩ := inArgs_iff.1 h1
                rcases hb with hb | hb
                · rcases List.mem_cons.1 hb with rfl | hb
                  · exact ⟨b, .inl (by rw [hargs]; simp), hsb⟩
                  · obtain ⟨b', hb', -, hsub⟩ := depending_sub hb
                    exact ⟨b', .inl (by rw [hargs]; simp [hb']), hsub s hsb⟩
                · exact ⟨b, .inr hb, hsb⟩

theorem clear_marks {module caller : Option Nat} (h : clear w c module caller r = .ok r') :
    r'.marks = (standard w c module caller r).marks := by
  unfold clear at h
  dsimp only at h
  split at h
  · injection h with h; rw [← h]
  · split at h
    · split at h
      · injection h with h; rw [← h]
      · split at h
        · injection h with h; rw [← h]
        · simp at h
    · injection h with h; rw [← h]

/-- What a call records in all cases. -/
theorem call_new (h : call w c r = .ok r') {s : Nat} {d : List Nat} (hm : Marked r' s d) :
    Marked r s d ∨
      ((w.kind (w.sym s).obj ≠ .frozen ∧ w.kind (w.sym s).obj ≠ .bytearray) ∧
       ((∃ o, callerOf w c = some o ∧ s ∈ w.names o ∧ (∀ x ∈ d, InArgs c x) ∧ (∀ x, InArgs c x → x ∉ w.names o → x ∈ d)) ∨
        (∃ k, callerOf w c = none ∧ moduleOf w c = some k ∧ s ∈ w.names k) ∨ (callerOf w c = none ∧ InArgs c s))) := by
  have hmc : ∀ caller, Marked (mutateCaller w c caller r) s d → Marked r s d ∨
      ((w.kind (w.sym s).obj ≠ .frozen ∧ w.kind (w.sym s).obj ≠ .bytearray) ∧
        (∃ o, caller = some o ∧ s ∈ w.names o ∧ (∀ x ∈ d, InArgs c x) ∧ (∀ x, InArgs c x → x ∉ w.names o → x ∈ d))) := by
    intro caller hm
    rcases mutateCaller_new hm with h | ⟨o, ho, h1, h2, h3, h4⟩
    · exact .inl h
    · exact .inr ⟨h4, o, ho, h1, h2, h3⟩
  have up : ∀ caller, caller = callerOf w c → Marked (mutateCaller w c caller r) s d → Marked r s d ∨
      ((w.kind (w.sym s).obj ≠ Kind.frozen ∧ w.kind (w.sym s).obj ≠ Kind.bytearray) ∧
       ((∃ o, callerOf w c = some o ∧ s ∈ w.names o ∧ (∀ x ∈ d, InArgs c x) ∧ (∀ x, InArgs c x → x ∉ w.names o → x ∈ d)) ∨
        (∃ k, callerOf w c = none ∧ moduleOf w c = some k ∧ s ∈ w.names k) ∨ (callerOf w c = none ∧ InArgs c s))) := by
    intro caller hc hm
    rcases hmc caller hm with h | ⟨a, o, ho, b⟩
    · exact .inl h
    · exact .inr ⟨a, .inl ⟨o, by rw [← hc, ho], b⟩⟩
  unfold call at h
  split at h
  · injection h with h; subst h; exact .inl hm
  · split at h
    · simp at h
    · rename_i o ho
      split at h
      · injection h with h; subst h; exact up (some o) ho.symm hm
      · simp at h
  · injection h with h; subst h; exact up _ rfl hm
  · injection h with h; subst h; exact up _ rfl hm
  · have e := clear_marks h
    unfold Marked at hm
    rw [e] at hm
    exact standard_new hm
  · injection h with h; subst h; exact standard_new hm

/-- A call records changes of names of the object it is made on, of names of the module of the
function, and of variables in its arguments, and of nothing else. -/
theorem only_own (h : call w c r = .ok r') {s : Nat} {d : List Nat} (hm : Marked r' s d) :
    Marked r s d ∨ (∃ o, c.caller = some o ∧ s ∈ w.names o) ∨ (∃ k, c.module = some k ∧ s ∈ w.names k) ∨
      InArgs c s := by
  rcases call_new h hm with h | ⟨-, ⟨o, ho, hs, -⟩ | ⟨k, -, hk, hs⟩ | ⟨-, hs⟩⟩
  · exact .inl h
  · refine .inr (.inl ⟨o, ?_, hs⟩)
    unfold callerOf at ho
    split at ho
    · simp at ho
    · exact ho
  · unfold moduleOf at hk
    split at hk
    · split at hk
      · exact .inr (.inl ⟨k, hk, hs⟩)
      · rename_i m hm'
        injection hk with hk; subst hk
        exact .inr (.inr (.inl ⟨m, hm', hs⟩))
    · exact .inr (.inr (.inl ⟨k, hk, hs⟩))
  · exact .inr (.inr (.inr hs))

/-- The object that a method has changed depends afterwards on what is in the arguments, on all of
it that is not a name of the object itself. -/
theorem depends_on_args (h : call w c r = .ok r') (hc : c.caller = some o) (ho : (w.kind o).isModule = false)
    {s : Nat} {d : List Nat} (hm : Marked r' s d) (hn : ¬ Marked r s d) :
    s ∈ w.names o ∧ (∀ x ∈ d, InArgs c x) ∧ ∀ x, InArgs c x → x ∉ w.names o → x ∈ d := by
  have hco : callerOf w c = some o := by
    unfold callerOf onModule; rw [hc]; simp [ho]
  rcases call_new h hm with h | ⟨-, ⟨o', ho', hs⟩ | ⟨k, e, -⟩ | ⟨e, -⟩⟩
  · exact absurd h hn
  · rw [hco] at ho'; injection ho' with ho'; subst ho'; exact hs
  · rw [hco] at e; simp at e
  · rw [hco] at e; simp at e

/-- A function of a module that returns `None` counts as changing its first argument if that is
not a list, dictionary, set or of a type that counts as immutable. -/
theorem first_arg_recorded {k a : Nat} {syms : List Nat} {rest : List (Nat × List Nat)} (h : OfModule w c k)
    (hr : c.ret = 0) (ha : c.args = (a, syms) :: rest)
    (hk : w.kind a ≠ .list ∧ w.kind a ≠ .dict ∧ w.kind a ≠ .set ∧ w.kind a ≠ .frozen ∧ w.kind a ≠ .bytearray)
    {s : Nat} (hs : s ∈ syms) (ho : (w.sym s).obj = a) (h1 : (w.sym s).anonymous = false)
    (h2 : (w.sym s).loaded = false) : ∃ r' d, call w c r = .ok r' ∧ Marked r' s d := by
  obtain ⟨hc, hm⟩ := module_caller h
  unfold call
  rw [choose_module h, hc, hm]
  dsimp only
  unfold standard
  dsimp only
  rw [if_neg (by simp [hr]), ha]
  dsimp only
  have hp : (w.kind a).passedOver = false := by
    obtain ⟨a1, a2, a3, a4, a5⟩ := hk
    cases hka : w.kind a <;> simp_all [Kind.passedOver]
  rw [if_neg (by simp [h.kind]), hp, if_neg (by simp)]
  obtain ⟨d, hd⟩ := argMutate_all (w := w) (argSyms { c with args := (a, syms) :: depending w syms rest })
    (markAll w r (argSyms c) (w.names k)) s
    (inArgs_iff.2 ⟨(a, syms), .inl (by simp), hs⟩) h1 h2 (by rw [ho]; exact hk.2.2.2.1) (by rw [ho]; exact hk.2.2.2.2)
  exact ⟨_, d, rfl, hd⟩

/-- If the first argument is a list, dictionary or set, as in `random.shuffle(xs)` or
`heapq.heappush(heap, x)`, then nothing is recorded for any variable but the names of the
module. -/
theorem first_arg_unrecorded {k a : Nat} {syms : List Nat} {rest : List (Nat × List Nat)} (h : OfModule w c k)
    (ha : c.args = (a, syms) :: rest) (hk : w.kind a = .list ∨ w.kind a = .dict ∨ w.kind a = .set) :
    ∃ r', call w c r = .ok r' ∧ ∀ s d, s ∉ w.names k → Marked r' s d → Marked r s d := by
  obtain ⟨hc, hm⟩ := module_caller h
  unfold call
  rw [choose_module h, hc, hm]
  dsimp only
  unfold standard
  dsimp only
  have hp : (w.kind a).passedOver = true := by
    rcases hk with e | e | e <;> rw [e] <;> rfl
  split
  · exact ⟨_, rfl, fun _ _ _ h => h⟩
  · rw [ha]
    dsimp only
    rw [if_neg (by simp [h.kind]), hp, if_pos rfl]
    refine ⟨_, rfl, fun s d hs hm => ?_⟩
    rcases markAll_new _ _ _ s d hm with h | h
    · exact h
    · exact absurd h.1 hs

/-- Changes of a `bytearray` are never recorded, because its type counts as immutable. -/
theorem bytearray_unrecorded (h : call w c r = .ok r') {s : Nat} (hs : w.kind (w.sym s).obj = .bytearray)
    {d : List Nat} (hm : Marked r' s d) : Marked r s d := by
  rcases call_new h hm with h | ⟨⟨-, h⟩, -⟩
  · exact h
  · exact absurd hs h

/-- A method that has been stored in a variable, `add = s.add`, can be called without anything
being recorded. -/
theorem bound_unrecorded (hc : c.caller = none) (hm : c.module = none) (h : call w c r = .ok r') :
    r' = r := by
  have h1 : callerOf w c = none := by unfold callerOf onModule; rw [hc]; simp
  have h2 : moduleOf w c = none := by unfold moduleOf onModule; rw [hc]; simp [hm]
  unfold call at h
  rw [h1, h2] at h
  split at h
  · injection h with h; exact h.symm
  · simp at h
  · injection h with h; exact h.symm
  · injection h with h; exact h.symm
  · injection h with h; exact h.symm
  · injection h with h; exact h.symm

/-- With `push = xs.append` the call `push(1)` makes the bookkeeping fail. -/
theorem bound_append_fails (hc : c.caller = none) (hm : c.module = none)
    (hf : c.func = .meth .list .append ∨ c.func = .meth .list .extend) : call w c r = .error .crash := by
  have h1 : callerOf w c = none := by unfold callerOf onModule; rw [hc]; simp
  have h2 : moduleOf w c = none := by unfold moduleOf onModule; rw [hc]; simp [hm]
  have : choose w c = some .listGrow := by
    rw [choose_eq]
    · unfold found
      rcases hf with e | e <;> rw [e] <;> rfl
    · unfold silent; rw [h2]; rcases hf with e | e <;> rw [e] <;> rfl
    · unfold ownCaller; rw [h1]
    · exact .inl h1
    · rcases hf with e | e <;> rw [e] <;> simp
  unfold call
  rw [this, h1]

/-- `clear` fails for a dictionary whose known elements have names of different types. -/
theorem clear_fails (h : OnContainer w c o .clear) (hk : w.kind o ≠ .set) {s : Nat} (hs : s ∈ w.names o)
    (ha : (w.sym s).anonymous = false) {ks : List Key} (he : w.elems o = some ks) {k k' : Key}
    (h1 : k ∈ ks) (h2 : k' ∈ ks) (hne : k ≠ k') : call w c r = .error .crash := by
  obtain ⟨hc, hm⟩ := container_caller h
  have hch : choose w c = some .clear := by
    rw [choose_container h]
    rcases h.kind with e | e | e
    · rw [e]; rfl
    · rw [e]; rfl
    · exact absurd e hk
  unfold call
  rw [hch, hc, hm]
  dsimp only
  unfold clear
  dsimp only
  have hf : hasFull w o = true := by
    unfold hasFull; rw [List.any_eq_true]; exact ⟨s, hs, by simp [ha]⟩
  have hso : sortable ks = false := by
    cases ks with
    | nil => simp at h1
    | cons a ks =>
      rw [Bool.eq_false_iff]
      intro hs
      simp only [sortable, List.all_eq_true, decide_eq_true_eq] at hs
      have : ∀ x ∈ a :: ks, x = a := fun x hx => (List.mem_cons.1 hx).elim id (hs x)
      exact hne ((this k h1).trans (this k' h2).symm)
  rw [hf, if_pos rfl, he]
  dsimp only
  rw [hso, if_neg (by simp)]

end Verif.Extern
