import Verif.Loading.Spec

/-!
# What holds between commands
-/

namespace Verif.Loading

/-- What holds of a session that was started without ipyflow (`core/ipyflow/__init__.py` 34-70). -/
structure Inv (w reg : Bool) (s : St) : Prop where
  loaded : s.loaded = w
  notOwn : s.shell ≠ .own
  shell : s.shell = .tracking false ↔ w = true
  kernelOwn : s.kernel ≠ some .own
  kernel : s.kernel.isSome = true → (s.kernel = some (.tracking false) ↔ w = true)
  tracers : s.tracers.isSome = reg
  told : s.kernel.isSome = true → reg = true → s.told = some w
  ever : s.shell ≠ .plain → reg = true

theorem Inv.reg {w reg s} (h : Inv w reg s) (hw : w = true) : reg = true :=
  h.ever (by rw [h.shell.mpr hw]; simp)

theorem doLoad_inv {cfg w reg s} (h : Inv w reg s) : Inv true true (doLoad cfg s) := by
  have hr := h.reg
  obtain ⟨l, sh, k, t, d⟩ := s
  obtain ⟨h1, h2, h3, h4, h5, h6, h7, h8⟩ := h
  simp only at h1; subst h1
  cases l with
  | true =>
    have := hr rfl; subst this
    exact ⟨rfl, h2, h3, h4, h5, h6, h7, h8⟩
  | false =>
    rcases sh with _ | y | _
    all_goals rcases k with _ | _ | x | _
    all_goals
      first
        | exact absurd rfl h2
        | exact absurd rfl h4
        | (constructor <;> simp_all [doLoad, callLoad, loadShell, loadKernel])

theorem doUnload_inv {w reg s} (h : Inv w reg s) : Inv false reg (doUnload s).1 ∧ (doUnload s).2 = true := by
  obtain ⟨l, sh, k, t, d⟩ := s
  obtain ⟨h1, h2, h3, h4, h5, h6, h7, h8⟩ := h
  simp only at h1; subst h1
  cases l with
  | false => exact ⟨⟨rfl, h2, h3, h4, h5, h6, h7, h8⟩, rfl⟩
  | true =>
    have hs := h3.mpr rfl
    simp only at hs; subst hs
    rcases k with _ | k
    · refine ⟨?_, rfl⟩
      constructor <;> simp_all [doUnload, callUnload, leave]
    · have hk := (h5 rfl).mpr rfl
      simp only [Option.some.injEq] at hk; subst hk
      refine ⟨?_, rfl⟩
      constructor <;> simp_all [doUnload, callUnload, leave]

theorem doReload_inv {cfg w reg s} (h : Inv w reg s) : Inv true true (doReload cfg s).1 ∧ (doReload cfg s).2 = true := by
  obtain ⟨h1, h2⟩ := doUnload_inv h
  rw [doReload]
  rcases e : doUnload s with ⟨s', b⟩
  rw [e] at h1 h2
  simp only at h2; subst h2
  exact ⟨doLoad_inv h1, rfl⟩

theorem finish_inv {w reg s} (c : Cls) (h : Inv w reg s) : Inv w reg (finish c s).1 := by
  obtain ⟨l, sh, k, t, d⟩ := s
  cases c with
  | plain => exact h
  | tracking x =>
    cases sh with
    | plain => exact h
    | own => exact h
    | tracking y =>
      cases y with
      | false => exact h
      | true =>
        obtain ⟨h1, h2, h3, h4, h5, h6, h7, h8⟩ := h
        constructor <;> simp_all [finish]
  | own =>
    cases sh with
    | plain => exact h
    | own => exact h
    | tracking y =>
      cases y with
      | false => exact h
      | true =>
        obtain ⟨h1, h2, h3, h4, h5, h6, h7, h8⟩ := h
        constructor <;> simp_all [finish]

mutual
theorem step_inv (cfg : List Nat) : ∀ (c : Cmd) (w reg : Bool) (s : St), Inv w reg s →
    Inv (want c w reg).1.1 (want c w reg).1.2 (step cfg c s).1 ∧ (step cfg c s).2 = (want c w reg).2
  | .load, w, reg, s, h => by rw [step, want]; exact ⟨doLoad_inv h, rfl⟩
  | .unload, w, reg, s, h => by rw [step, want]; exact doUnload_inv h
  | .reload, w, reg, s, h => by rw [step, want]; exact doReload_inv h
  | .register n, w, reg, s, h => by
    rw [step, want]
    have ht := h.tracers
    cases e : s.tracers with
    | none => rw [e] at ht; subst ht; exact ⟨h, rfl⟩
    | some l =>
      rw [e] at ht; subst ht
      refine ⟨?_, rfl⟩
      obtain ⟨h1, h2, h3, h4, h5, h6, h7, h8⟩ := h
      exact ⟨h1, h2, h3, h4, h5, rfl, h7, h8⟩
  | .nested cs, w, reg, s, h => by
    rw [step, want]
    exact ⟨finish_inv _ (steps_inv cfg cs w reg s h), rfl⟩
  | .fail, w, reg, s, h => by rw [step, want]; exact ⟨h, rfl⟩
  | .other, w, reg, s, h => by rw [step, want]; exact ⟨h, rfl⟩
theorem steps_inv (cfg : List Nat) : ∀ (cs : Cmds) (w reg : Bool) (s : St), Inv w reg s →
    Inv (wants cs w reg).1 (wants cs w reg).2 (steps cfg cs s)
  | .nil, w, reg, s, h => by rw [steps, wants]; exact h
  | .cons c cs, w, reg, s, h => by
    rw [steps, wants]
    have hc := step_inv cfg c w reg s h
    rcases e : step cfg c s with ⟨s', b⟩
    rcases e' : want c w reg with ⟨⟨w', reg'⟩, b'⟩
    rw [e, e'] at hc
    obtain ⟨h1, h2⟩ := hc
    simp only at h2; subst h2
    cases b with
    | true => exact steps_inv cfg cs _ _ _ h1
    | false => exact h1
end

theorem cell_inv {cfg cs w reg s} (h : Inv w reg s) : Inv (wants cs w reg).1 (wants cs w reg).2 (cell cfg cs s).1 := by
  have h1 := finish_inv s.shell (steps_inv cfg cs w reg s h)
  rw [cell]
  rcases e : finish s.shell (steps cfg cs s) with ⟨s', b⟩
  rw [e] at h1
  cases b with
  | false => exact h1
  | true =>
    have h2 : Inv (wants cs w reg).1 (wants cs w reg).2 { s' with kernel := s'.kernel.map eject } := by
      obtain ⟨l, sh, k, t, d⟩ := s'
      obtain ⟨h1, h2, h3, h4, h5, h6, h7, h8⟩ := h1
      rcases k with _ | _ | x | _
      · exact ⟨h1, h2, h3, h4, h5, h6, h7, h8⟩
      · exact ⟨h1, h2, h3, h4, h5, h6, h7, h8⟩
      · cases x with
        | false => exact ⟨h1, h2, h3, h4, h5, h6, h7, h8⟩
        | true =>
          refine ⟨h1, h2, h3, by simp [eject], ?_, h6, ?_, h8⟩
          · intro _
            have := h5 rfl
            simp at this
            simp [eject, this]
          · intro _ hr; exact h7 rfl hr
      · exact absurd rfl h4
    rcases s.kernel with _ | _ | x | _
    · exact h2
    · exact h1
    · exact h2
    · exact h2

theorem state_inv (kernel : Bool) (cfg : List Nat) : ∀ h, Inv (asked h).1 (asked h).2 (state ⟨false, kernel, cfg⟩ h)
  | [] => by cases kernel <;> constructor <;> simp [state, init, asked]
  | cs :: h => by rw [state, asked]; exact cell_inv (state_inv kernel cfg h)

/-! ### The class of the shell -/

theorem finish_not_plain {c s} (hs : s.shell ≠ .plain) (hc : c = .plain) : (finish c s).1.shell ≠ .plain := by
  subst hc; exact hs

theorem finish_ok {c s} : (finish c s).2 = false ↔ c ≠ .plain ∧ s.shell = .plain := by
  obtain ⟨l, sh, k, t, d⟩ := s
  rcases c with _ | _ | _ <;> rcases sh with _ | y | _ <;> first | (simp [finish]; done) | (cases y <;> simp [finish])

theorem finish_left {c s w reg} (h : Inv w reg s) (hc : c ≠ .plain) (hw : w = false) : (finish c s).1.shell = .plain := by
  subst hw
  have h3 := h.shell
  have h2 := h.notOwn
  obtain ⟨l, sh, k, t, d⟩ := s
  rcases c with _ | _ | _
  · exact absurd rfl hc
  all_goals
    rcases sh with _ | y | _
    · rfl
    · cases y with
      | true => rfl
      | false => simp at h3
    · exact absurd rfl h2

theorem finish_kernel (c s) : (finish c s).1.kernel = s.kernel := by
  obtain ⟨l, sh, k, t, d⟩ := s
  rcases c with _ | _ | _ <;> rcases sh with _ | y | _ <;> first | rfl | (cases y <;> rfl)

theorem finish_tracers (c s) : (finish c s).1.tracers = s.tracers := by
  obtain ⟨l, sh, k, t, d⟩ := s
  rcases c with _ | _ | _ <;> rcases sh with _ | y | _ <;> first | rfl | (cases y <;> rfl)

theorem cell_shell (cfg cs s) : (cell cfg cs s).1.shell = (finish s.shell (steps cfg cs s)).1.shell := by
  rw [cell]
  rcases finish s.shell (steps cfg cs s) with ⟨s', b⟩
  cases b with
  | false => rfl
  | true => rcases s.kernel with _ | _ | _ | _ <;> rfl

theorem cell_ok (cfg cs s) : (cell cfg cs s).2 = (finish s.shell (steps cfg cs s)).2 := by
  rw [cell]
  rcases finish s.shell (steps cfg cs s) with ⟨s', b⟩
  cases b with
  | false => rfl
  | true => rcases s.kernel with _ | _ | _ | _ <;> rfl

theorem cell_tracers (cfg cs s) : (cell cfg cs s).1.tracers = (steps cfg cs s).tracers := by
  rw [cell]
  have h := finish_tracers s.shell (steps cfg cs s)
  rcases e : finish s.shell (steps cfg cs s) with ⟨s', b⟩
  rw [e] at h
  cases b with
  | false => exact h
  | true => rcases s.kernel with _ | _ | _ | _ <;> exact h

theorem doUnload_shell (s) : (doUnload s).1.shell = s.shell ∨ (doUnload s).1.shell = .tracking true ∧ s.shell ≠ .plain := by
  obtain ⟨l, sh, k, t, d⟩ := s
  cases l with
  | false => exact .inl rfl
  | true =>
    rcases sh with _ | y | _
    · exact .inl rfl
    · refine .inr ⟨?_, by simp⟩
      rcases k with _ | _ | _ | _ <;> rfl
    · exact .inl rfl

theorem doUnload_tracers (s) : (doUnload s).1.tracers = s.tracers := by
  obtain ⟨l, sh, k, t, d⟩ := s
  cases l with
  | false => rfl
  | true =>
    rcases sh with _ | y | _
    · rfl
    · rcases k with _ | _ | _ | _ <;> rfl
    · rfl

theorem doLoad_not_plain {cfg s} (hs : s.shell ≠ .plain) : (doLoad cfg s).shell ≠ .plain ∧ (doLoad cfg s).tracers = s.tracers := by
  obtain ⟨l, sh, k, t, d⟩ := s
  cases l with
  | true => exact ⟨hs, rfl⟩
  | false =>
    rcases sh with _ | y | _
    · exact absurd rfl hs
    · rcases k with _ | k
      · exact ⟨by simp [doLoad, callLoad, loadShell], rfl⟩
      · exact ⟨by simp [doLoad, callLoad, loadShell], rfl⟩
    · rcases k with _ | k
      · exact ⟨by simp [doLoad, callLoad, loadShell], rfl⟩
      · exact ⟨by simp [doLoad, callLoad, loadShell], rfl⟩

theorem doUnload_not_plain {s} (hs : s.shell ≠ .plain) : (doUnload s).1.shell ≠ .plain := by
  rcases doUnload_shell s with h | h
  · rw [h]; exact hs
  · rw [h.1]; simp

theorem doReload_not_plain {cfg s} (hs : s.shell ≠ .plain) :
    (doReload cfg s).1.shell ≠ .plain ∧ (doReload cfg s).1.tracers = s.tracers := by
  have h1 := doUnload_not_plain hs
  have h2 := doUnload_tracers s
  rw [doReload]
  rcases e : doUnload s with ⟨s', b⟩
  rw [e] at h1 h2
  cases b with
  | false => exact ⟨h1, h2⟩
  | true => exact ⟨(doLoad_not_plain h1).1, (doLoad_not_plain h1).2.trans h2⟩

/-- A tracer of the list stays in it when another is registered. -/
theorem mem_insert {n m : Nat} {l : List Nat} : n ∈ insert m l ↔ n = m ∨ n ∈ l := by
  rw [insert, List.mem_cons, List.mem_filter]
  simp only [ne_eq, decide_not, Bool.not_eq_eq_eq_not, Bool.not_true, decide_eq_false_iff_not]
  constructor
  · rintro (h | h)
    · exact .inl h
    · exact .inr h.1
  · intro h
    by_cases e : n = m
    · exact .inl e
    · rcases h with h | h
      · exact .inl h
      · exact .inr ⟨h, e⟩

theorem mem_setup {n : Nat} : ∀ {l}, n ∈ setup l ↔ n ∈ l
  | [] => Iff.rfl
  | m :: l => by rw [setup, mem_insert, mem_setup, List.mem_cons]

/-- Without runs inside a run, the shell keeps ipyflow during the run, and tracers stay registered. -/
theorem flat_kept (cfg : List Nat) : ∀ (cs : Cmds) (s : St), Flat cs → s.shell ≠ .plain →
    (steps cfg cs s).shell ≠ .plain ∧ ∀ n, Has s n → Has (steps cfg cs s) n
  | .nil, s, _, hs => by rw [steps]; exact ⟨hs, fun _ h => h⟩
  | .cons c cs, s, hf, hs => by
    rw [steps]
    have key : (step cfg c s).1.shell ≠ .plain ∧ (∀ n, Has s n → Has (step cfg c s).1 n) ∧ Flat cs := by
      cases c with
      | load =>
        rw [step]
        exact ⟨(doLoad_not_plain hs).1, fun n ⟨l, h1, h2⟩ => ⟨l, (doLoad_not_plain hs).2.trans h1, h2⟩, hf⟩
      | unload =>
        rw [step]
        exact ⟨doUnload_not_plain hs, fun n ⟨l, h1, h2⟩ => ⟨l, (doUnload_tracers s).trans h1, h2⟩, hf⟩
      | reload =>
        rw [step]
        exact ⟨(doReload_not_plain hs).1, fun n ⟨l, h1, h2⟩ => ⟨l, (doReload_not_plain hs).2.trans h1, h2⟩, hf⟩
      | register m =>
        rw [step]
        cases e : s.tracers with
        | none => exact ⟨hs, fun _ h => h, hf⟩
        | some l =>
          refine ⟨hs, fun n ⟨l', h1, h2⟩ => ⟨_, rfl, mem_insert.mpr (.inr ?_)⟩, hf⟩
          rw [e] at h1; injection h1 with h1; subst h1; exact h2
      | nested _ => exact hf.elim
      | fail => rw [step]; exact ⟨hs, fun _ h => h, hf⟩
      | other => rw [step]; exact ⟨hs, fun _ h => h, hf⟩
    rcases e : step cfg c s with ⟨s', b⟩
    rw [e] at key
    obtain ⟨k1, k2, k3⟩ := key
    cases b with
    | false => exact ⟨k1, k2⟩
    | true =>
      obtain ⟨r1, r2⟩ := flat_kept cfg cs s' k3 k1
      exact ⟨r1, fun n h => r2 n (k2 n h)⟩

theorem doUnload_plain {s} (hs : s.shell = .plain) : (doUnload s).1.shell = .plain := by
  rcases doUnload_shell s with h | h
  · rw [h]; exact hs
  · exact absurd hs h.2

mutual
/-- What does not load the extension does not put ipyflow into the shell and keeps the tracers. -/
theorem step_out (cfg : List Nat) : ∀ (c : Cmd) (s : St), ¬ Loads c →
    (s.shell = .plain → (step cfg c s).1.shell = .plain) ∧ ∀ n, Has s n → Has (step cfg c s).1 n
  | .load, s, h => (h trivial).elim
  | .reload, s, h => (h trivial).elim
  | .unload, s, _ => by
    rw [step]
    exact ⟨doUnload_plain, fun n ⟨l, h1, h2⟩ => ⟨l, (doUnload_tracers s).trans h1, h2⟩⟩
  | .register m, s, _ => by
    rw [step]
    cases e : s.tracers with
    | none => exact ⟨id, fun _ h => h⟩
    | some l =>
      refine ⟨id, fun n ⟨l', h1, h2⟩ => ⟨_, rfl, mem_insert.mpr (.inr ?_)⟩⟩
      rw [e] at h1; injection h1 with h1; subst h1; exact h2
  | .nested cs, s, h => by
    rw [Loads] at h
    obtain ⟨h1, h2⟩ := steps_out cfg cs s h
    rw [step]
    refine ⟨fun hs => ?_, fun n hn => ?_⟩
    · rw [hs]; exact h1 hs
    · obtain ⟨l, e, hl⟩ := h2 n hn
      exact ⟨l, (finish_tracers _ _).trans e, hl⟩
  | .fail, s, _ => by rw [step]; exact ⟨id, fun _ h => h⟩
  | .other, s, _ => by rw [step]; exact ⟨id, fun _ h => h⟩
theorem steps_out (cfg : List Nat) : ∀ (cs : Cmds) (s : St), ¬ LoadsIn cs →
    (s.shell = .plain → (steps cfg cs s).shell = .plain) ∧ ∀ n, Has s n → Has (steps cfg cs s) n
  | .nil, s, _ => by rw [steps]; exact ⟨id, fun _ h => h⟩
  | .cons c cs, s, h => by
    rw [LoadsIn] at h
    obtain ⟨k1, k2⟩ := step_out cfg c s (fun x => h (.inl x))
    rw [steps]
    rcases e : step cfg c s with ⟨s', b⟩
    rw [e] at k1 k2
    cases b with
    | false => exact ⟨k1, k2⟩
    | true =>
      obtain ⟨r1, r2⟩ := steps_out cfg cs s' (fun x => h (.inr x))
      exact ⟨fun hs => r1 (k1 hs), fun n hn => r2 n (k2 n hn)⟩
end

/-! ### The kernel -/

theorem doUnload_kernel {s} : ((doUnload s).1.kernel.isSome = s.kernel.isSome) ∧ (s.kernel ≠ some .plain → (doUnload s).1.kernel ≠ some .plain) := by
  obtain ⟨l, sh, k, t, d⟩ := s
  cases l with
  | false => exact ⟨rfl, id⟩
  | true =>
    rcases sh with _ | y | _
    · exact ⟨rfl, id⟩
    · rcases k with _ | _ | _ | _
      · exact ⟨rfl, id⟩
      · exact ⟨rfl, id⟩
      · exact ⟨rfl, fun _ => by simp [doUnload, callUnload, leave]⟩
      · exact ⟨rfl, id⟩
    · exact ⟨rfl, id⟩

theorem doLoad_kernel {cfg s} : ((doLoad cfg s).kernel.isSome = s.kernel.isSome) ∧ (s.kernel ≠ some .plain → (doLoad cfg s).kernel ≠ some .plain) := by
  obtain ⟨l, sh, k, t, d⟩ := s
  cases l with
  | true => exact ⟨rfl, id⟩
  | false =>
    rcases sh with _ | y | _ <;> rcases k with _ | _ | _ | _ <;>
      exact ⟨rfl, fun h => by first | exact absurd rfl h | simp [doLoad, callLoad, loadShell, loadKernel]⟩

theorem doReload_kernel {cfg s} :
    ((doReload cfg s).1.kernel.isSome = s.kernel.isSome) ∧ (s.kernel ≠ some .plain → (doReload cfg s).1.kernel ≠ some .plain) := by
  obtain ⟨h1, h2⟩ := doUnload_kernel (s := s)
  rw [doReload]
  rcases e : doUnload s with ⟨s', b⟩
  rw [e] at h1 h2
  cases b with
  | false => exact ⟨h1, h2⟩
  | true =>
    obtain ⟨r1, r2⟩ := doLoad_kernel (cfg := cfg) (s := s')
    exact ⟨r1.trans h1, fun h => r2 (h2 h)⟩

mutual
theorem step_kernel (cfg : List Nat) : ∀ (c : Cmd) (s : St),
    ((step cfg c s).1.kernel.isSome = s.kernel.isSome) ∧ (s.kernel ≠ some .plain → (step cfg c s).1.kernel ≠ some .plain)
  | .load, s => by rw [step]; exact doLoad_kernel
  | .unload, s => by rw [step]; exact doUnload_kernel
  | .reload, s => by rw [step]; exact doReload_kernel
  | .register m, s => by
    rw [step]
    cases s.tracers with
    | none => exact ⟨rfl, id⟩
    | some l => exact ⟨rfl, id⟩
  | .nested cs, s => by
    rw [step, finish_kernel]
    exact steps_kernel cfg cs s
  | .fail, s => by rw [step]; exact ⟨rfl, id⟩
  | .other, s => by rw [step]; exact ⟨rfl, id⟩
theorem steps_kernel (cfg : List Nat) : ∀ (cs : Cmds) (s : St),
    ((steps cfg cs s).kernel.isSome = s.kernel.isSome) ∧ (s.kernel ≠ some .plain → (steps cfg cs s).kernel ≠ some .plain)
  | .nil, s => by rw [steps]; exact ⟨rfl, id⟩
  | .cons c cs, s => by
    obtain ⟨k1, k2⟩ := step_kernel cfg c s
    rw [steps]
    rcases e : step cfg c s with ⟨s', b⟩
    rw [e] at k1 k2
    cases b with
    | false => exact ⟨k1, k2⟩
    | true =>
      obtain ⟨r1, r2⟩ := steps_kernel cfg cs s'
      exact ⟨r1.trans k1, fun h => r2 (k2 h)⟩
end

theorem cell_kernel_isSome (cfg cs s) : (cell cfg cs s).1.kernel.isSome = s.kernel.isSome := by
  have h1 := (steps_kernel cfg cs s).1
  rw [← finish_kernel s.shell] at h1
  rw [cell]
  rcases e : finish s.shell (steps cfg cs s) with ⟨s', b⟩
  rw [e] at h1
  cases b with
  | false => exact h1
  | true =>
    rcases e : s.kernel with _ | _ | _ | _ <;> rw [e] at h1 <;> simpa using h1

theorem state_kernel_isSome (own : Bool) (cfg : List Nat) : ∀ h, (state ⟨own, true, cfg⟩ h).kernel.isSome = true
  | [] => by cases own <;> rfl
  | cs :: h => by rw [state, cell_kernel_isSome]; exact state_kernel_isSome own cfg h

/-! ### ipyflow's own classes -/

/-- What holds of a session that was started with ipyflow's own classes (`core/ipyflow/shell/__init__.py` 34-38). -/
def OwnInv (s : St) : Prop := s.shell = .own ∧ (s.kernel = none ∨ s.kernel = some .own) ∧ s.tracers.isSome = true

theorem own_doLoad {cfg s} (h : OwnInv s) : OwnInv (doLoad cfg s) ∧ (doLoad cfg s).tracers = s.tracers := by
  obtain ⟨l, sh, k, t, d⟩ := s
  obtain ⟨h1, h2, h3⟩ := h
  simp only at h1; subst h1
  cases l with
  | true => exact ⟨⟨rfl, h2, h3⟩, rfl⟩
  | false =>
    rcases h2 with h2 | h2 <;> simp only at h2 <;> subst h2
    · exact ⟨⟨rfl, .inl rfl, h3⟩, rfl⟩
    · exact ⟨⟨rfl, .inr rfl, h3⟩, rfl⟩

theorem own_doUnload {s} (h : s.shell = .own) : doUnload s = (s, !s.loaded) := by
  obtain ⟨l, sh, k, t, d⟩ := s
  simp only at h; subst h
  cases l <;> rfl

theorem own_finish {s} (c : Cls) (h : s.shell = .own) : finish c s = (s, true) := by
  obtain ⟨l, sh, k, t, d⟩ := s
  simp only at h; subst h
  rcases c with _ | _ | _ <;> rfl

mutual
theorem own_step (cfg : List Nat) : ∀ (c : Cmd) (s : St), OwnInv s → OwnInv (step cfg c s).1 ∧ ∀ n, Has s n → Has (step cfg c s).1 n
  | .load, s, h => by
    rw [step]
    exact ⟨(own_doLoad h).1, fun n ⟨l, h1, h2⟩ => ⟨l, (own_doLoad h).2.trans h1, h2⟩⟩
  | .unload, s, h => by rw [step, own_doUnload h.1]; exact ⟨h, fun _ h => h⟩
  | .reload, s, h => by
    rw [step, doReload, own_doUnload h.1]
    cases s.loaded with
    | true => exact ⟨h, fun _ h => h⟩
    | false => exact ⟨(own_doLoad h).1, fun n ⟨l, h1, h2⟩ => ⟨l, (own_doLoad h).2.trans h1, h2⟩⟩
  | .register m, s, h => by
    rw [step]
    cases e : s.tracers with
    | none => exact ⟨h, fun _ h => h⟩
    | some l =>
      refine ⟨⟨h.1, h.2.1, rfl⟩, fun n ⟨l', h1, h2⟩ => ⟨_, rfl, mem_insert.mpr (.inr ?_)⟩⟩
      rw [e] at h1; injection h1 with h1; subst h1; exact h2
  | .nested cs, s, h => by
    rw [step]
    have := own_steps cfg cs s h
    rw [own_finish _ this.1.1]
    exact this
  | .fail, s, h => by rw [step]; exact ⟨h, fun _ h => h⟩
  | .other, s, h => by rw [step]; exact ⟨h, fun _ h => h⟩
theorem own_steps (cfg : List Nat) : ∀ (cs : Cmds) (s : St), OwnInv s → OwnInv (steps cfg cs s) ∧ ∀ n, Has s n → Has (steps cfg cs s) n
  | .nil, s, h => by rw [steps]; exact ⟨h, fun _ h => h⟩
  | .cons c cs, s, h => by
    obtain ⟨k1, k2⟩ := own_step cfg c s h
    rw [steps]
    rcases e : step cfg c s with ⟨s', b⟩
    rw [e] at k1 k2
    cases b with
    | false => exact ⟨k1, k2⟩
    | true =>
      obtain ⟨r1, r2⟩ := own_steps cfg cs s' k1
      exact ⟨r1, fun n hn => r2 n (k2 n hn)⟩
end

theorem own_cell {cfg cs s} (h : OwnInv s) : cell cfg cs s = (steps cfg cs s, true) := by
  obtain ⟨h1, _⟩ := own_steps cfg cs s h
  rw [cell, own_finish _ h1.1]
  generalize steps cfg cs s = s' at h1
  obtain ⟨l, sh, k, t, d⟩ := s'
  have hk : k.map eject = k := by
    rcases h1.2.1 with e | e <;> simp only at e <;> subst e <;> rfl
  dsimp only
  rw [hk]
  rcases s.kernel with _ | _ | _ | _ <;> rfl

theorem own_state (kernel : Bool) (cfg : List Nat) : ∀ h, OwnInv (state ⟨true, kernel, cfg⟩ h)
  | [] => by cases kernel <;> simp [state, init, OwnInv]
  | cs :: h => by
    rw [state, own_cell (own_state kernel cfg h)]
    exact (own_steps cfg cs _ (own_state kernel cfg h)).1

end Verif.Loading
