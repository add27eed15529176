import Verif.Loading.Lemmas

/-!
# Loading the extension puts cells under ipyflow, unloading it ends this (C172, C173)
-/

namespace Verif.Loading

private theorem tracked_iff_shell {b h} : tracked b h = true ↔ (state b h).shell ≠ .plain := by
  rw [tracked]; simp

private theorem untracked_iff_shell {b h} : tracked b h = false ↔ (state b h).shell = .plain := by
  rw [tracked]; simp

/-- While the extension is wanted, cells are run with ipyflow. -/
theorem wanted_tracked {kernel cfg h} (hw : Wanted h) : tracked ⟨false, kernel, cfg⟩ h = true := by
  rw [tracked_iff_shell, (state_inv kernel cfg h).shell.mpr hw]; simp

/-- After a cell that was run with ipyflow and left the extension unwanted, cells are not run with ipyflow. -/
theorem left_after {kernel cfg h cs} (ht : tracked ⟨false, kernel, cfg⟩ h = true) (hw : ¬ Wanted (cs :: h)) :
    tracked ⟨false, kernel, cfg⟩ (cs :: h) = false := by
  rw [tracked_iff_shell] at ht
  rw [untracked_iff_shell, state, cell_shell]
  refine finish_left (steps_inv cfg cs _ _ _ (state_inv kernel cfg h)) ht ?_
  rw [Wanted, asked] at hw
  simpa using hw

/-- Cells that do not load the extension do not bring ipyflow in. -/
theorem stays_out {b h cs} (ht : tracked b h = false) (hl : ¬ LoadsIn cs) : tracked b (cs :: h) = false := by
  rw [untracked_iff_shell] at ht ⊢
  rw [state, cell_shell, ht]
  exact (steps_out b.cfg cs _ hl).1 ht

/-- Cells are run with ipyflow if and only if the extension is wanted, as long as no cell that was begun without ipyflow loads the extension and leaves it unwanted. -/
theorem tracked_partial {kernel cfg} : ∀ {h}, Settled h → (tracked ⟨false, kernel, cfg⟩ h = true ↔ Wanted h)
  | [], _ => by cases kernel <;> simp [tracked, state, init, Wanted, asked]
  | cs :: h, hs => by
    refine ⟨fun ht => ?_, wanted_tracked⟩
    refine Classical.byContradiction fun hw => ?_
    rw [Settled] at hs
    have ih := tracked_partial (kernel := kernel) (cfg := cfg) hs.2
    rcases hs.1 with h1 | h1 | h1
    · exact hw h1
    · rw [left_after (ih.mpr h1) hw] at ht; exact absurd ht (by simp)
    · cases e : tracked ⟨false, kernel, cfg⟩ h with
      | true => rw [left_after e hw] at ht; exact absurd ht (by simp)
      | false => rw [stays_out e h1] at ht; exact absurd ht (by simp)

private theorem calm_flat_loads (cfg : List Nat) : ∀ (cs : Cmds) (s : St) (w reg : Bool), Inv w reg s → Flat cs → Calm cs → LoadsIn cs →
    (steps cfg cs s).shell ≠ .plain
  | .nil, s, _, _, _, _, _, hl => hl.elim
  | .cons c cs, s, w, reg, hi, hf, hc, hl => by
    have hstep := step_inv cfg c w reg s hi
    rw [steps]
    cases c with
    | load =>
      rw [step] at hstep ⊢
      exact (flat_kept cfg cs _ hf (by rw [hstep.1.shell.mpr rfl]; simp)).1
    | reload =>
      rw [step] at hstep ⊢
      rcases e : doReload cfg s with ⟨s', b⟩
      rw [e] at hstep
      have h2 := hstep.1.shell.mpr rfl
      cases b with
      | true => exact (flat_kept cfg cs _ hf (by simp only at h2; rw [h2]; simp)).1
      | false => simp only at h2 ⊢; rw [h2]; simp
    | unload =>
      rcases hl with hl | hl
      · exact hl.elim
      rcases e : step cfg .unload s with ⟨s', b⟩
      rw [e] at hstep
      obtain ⟨h1, h2⟩ := hstep
      simp only [want] at h2; subst h2
      exact calm_flat_loads cfg cs s' _ _ h1 hf hc hl
    | register m => exact hc.elim
    | nested _ => exact hf.elim
    | fail => exact hc.elim
    | other =>
      rcases hl with hl | hl
      · exact hl.elim
      rw [step]
      exact calm_flat_loads cfg cs s _ _ hi hf hc hl

/-- A cell that is begun without ipyflow and loads the extension puts the next cell under ipyflow, even if it unloads the extension afterwards. -/
theorem unload_missed {kernel cfg h cs} (ht : tracked ⟨false, kernel, cfg⟩ h = false) (hf : Flat cs) (hc : Calm cs) :
    tracked ⟨false, kernel, cfg⟩ (cs :: h) = true ↔ LoadsIn cs := by
  refine ⟨fun h1 => ?_, fun hl => ?_⟩
  · refine Classical.byContradiction fun hl => ?_
    rw [stays_out ht hl] at h1
    exact absurd h1 (by simp)
  · rw [untracked_iff_shell] at ht
    rw [tracked_iff_shell, state, cell_shell, ht]
    exact calm_flat_loads cfg cs _ _ _ (state_inv kernel cfg h) hf hc hl

/-- Such a cell is the only one: after a cell that does not load the extension and leaves it unwanted, ipyflow is gone. -/
theorem gone_later {kernel cfg h cs} (hl : ¬ LoadsIn cs) (hw : ¬ Wanted (cs :: h)) : tracked ⟨false, kernel, cfg⟩ (cs :: h) = false := by
  cases e : tracked ⟨false, kernel, cfg⟩ h with
  | true => exact left_after e hw
  | false => exact stays_out e hl

/-! ### Runs that raise -/

/-- A cell that runs no code as a cell of its own returns. -/
theorem flat_returns {b h cs} (hf : Flat cs) : broken b cs h = false := by
  rw [broken, cell_ok]
  cases e : (finish (state b h).shell (steps b.cfg cs (state b h))).2 with
  | true => rfl
  | false =>
    obtain ⟨h1, h2⟩ := finish_ok.mp e
    exact absurd h2 (flat_kept b.cfg cs _ hf h1).1

/-- A cell that is begun without ipyflow returns. -/
theorem untracked_returns {b h cs} (ht : tracked b h = false) : broken b cs h = false := by
  rw [untracked_iff_shell] at ht
  rw [broken, cell_ok, ht]
  rfl

/-- A cell after which the extension is wanted returns. -/
theorem wanted_returns {kernel cfg h cs} (hw : Wanted (cs :: h)) : broken ⟨false, kernel, cfg⟩ cs h = false := by
  rw [broken, cell_ok]
  cases e : (finish (state ⟨false, kernel, cfg⟩ h).shell (steps cfg cs (state ⟨false, kernel, cfg⟩ h))).2 with
  | true => rfl
  | false =>
    obtain ⟨_, h2⟩ := finish_ok.mp e
    have := (steps_inv cfg cs _ _ _ (state_inv kernel cfg h)).shell.mpr hw
    rw [h2] at this
    exact absurd this (by simp)

/-- A cell run with ipyflow raises by itself if it begins with code run as a cell of its own that unloads the extension (as `%%capture` does), and does not load it again. -/
theorem nested_breaks {kernel cfg h cs ds} (ht : tracked ⟨false, kernel, cfg⟩ h = true) (hw : ¬ Wanted (cs :: h)) (hd : ¬ LoadsIn ds) :
    broken ⟨false, kernel, cfg⟩ (.cons (.nested cs) ds) h = true := by
  rw [tracked_iff_shell] at ht
  have h1 : (finish (state ⟨false, kernel, cfg⟩ h).shell (steps cfg cs (state ⟨false, kernel, cfg⟩ h))).1.shell = .plain := by
    refine finish_left (steps_inv cfg cs _ _ _ (state_inv kernel cfg h)) ht ?_
    rw [Wanted, asked] at hw
    simpa using hw
  have h2 : (steps cfg (.cons (.nested cs) ds) (state ⟨false, kernel, cfg⟩ h)).shell = .plain := by
    rw [steps, step]
    exact (steps_out cfg ds _ hd).1 h1
  rw [broken, cell_ok, finish_ok.mpr ⟨ht, h2⟩]
  rfl

/-! ### The kernel and the client -/

/-- While the extension is wanted, requests are dealt with by ipyflow's kernel, and the client was last told that ipyflow is there. -/
theorem kernel_wanted {cfg h} (hw : Wanted h) :
    (∃ x, (state ⟨false, true, cfg⟩ h).kernel = some (.tracking x)) ∧ (state ⟨false, true, cfg⟩ h).told = some true := by
  have hi := state_inv true cfg h
  have hk := state_kernel_isSome false cfg h
  refine ⟨⟨false, (hi.kernel hk).mpr hw⟩, ?_⟩
  rw [hi.told hk (hi.reg hw)]
  exact congrArg some hw

/-- Once the extension has been asked for, the client was last told what was asked for last. -/
theorem client_told {cfg h} (hr : (asked h).2 = true) : (state ⟨false, true, cfg⟩ h).told = some (asked h).1 :=
  (state_inv true cfg h).told (state_kernel_isSome false cfg h) hr

/-- After a cell that was dealt with by ipyflow's kernel, returned, and left the extension unwanted, requests are dealt with by the former kernel. -/
theorem kernel_left {cfg h cs} (hk : (state ⟨false, true, cfg⟩ h).kernel ≠ some .plain) (hb : broken ⟨false, true, cfg⟩ cs h = false)
    (hw : ¬ Wanted (cs :: h)) : (state ⟨false, true, cfg⟩ (cs :: h)).kernel = some .plain := by
  have hs := state_kernel_isSome false cfg (cs :: h)
  have hi := finish_inv (state ⟨false, true, cfg⟩ h).shell (steps_inv cfg cs _ _ _ (state_inv true cfg h))
  rw [broken, cell_ok] at hb
  rw [Wanted, asked] at hw
  rw [state, cell] at hs ⊢
  rcases e : finish (state ⟨false, true, cfg⟩ h).shell (steps cfg cs (state ⟨false, true, cfg⟩ h)) with ⟨s', b⟩
  rw [e] at hs hi hb
  simp only [Bool.not_eq_eq_eq_not, Bool.not_false] at hb
  subst hb
  have key : (s'.kernel.map eject) = some .plain := by
    have h4 := hi.kernelOwn
    have h5 := hi.kernel
    simp only at h4 h5
    rcases ek : s'.kernel with _ | _ | x | _
    · exfalso
      rcases e2 : (state ⟨false, true, cfg⟩ h).kernel with _ | _ | _ | _ <;> rw [e2] at hs <;> simp [ek] at hs
    · rfl
    · cases x with
      | true => rfl
      | false => exact absurd ((h5 (by rw [ek]; rfl)).mp ek) hw
    · exact absurd ek h4
  rcases e2 : (state ⟨false, true, cfg⟩ h).kernel with _ | _ | _ | _
  · exact key
  · exact absurd e2 hk
  · exact key
  · exact key

/-- After a cell that raises by itself the kernel stays ipyflow's, though cells are not run with ipyflow any more. -/
theorem kernel_kept {cfg h cs} (hw : Wanted h) (hb : broken ⟨false, true, cfg⟩ cs h = true) :
    (state ⟨false, true, cfg⟩ (cs :: h)).kernel = some (.tracking true) ∧ tracked ⟨false, true, cfg⟩ (cs :: h) = false ∧ ¬ Wanted (cs :: h) := by
  have hu : ¬ Wanted (cs :: h) := fun x => by rw [wanted_returns x] at hb; exact absurd hb (by simp)
  refine ⟨?_, left_after (wanted_tracked hw) hu, hu⟩
  have hi := steps_inv cfg cs _ _ _ (state_inv true cfg h)
  have hk := steps_kernel cfg cs (state ⟨false, true, cfg⟩ h)
  rw [((state_inv true cfg h).kernel (state_kernel_isSome false cfg h)).mpr hw] at hk
  have h2 := hk.2 (by simp)
  have h4 := hi.kernelOwn
  have h5 := hi.kernel
  rw [Wanted, asked] at hu
  have hs : (state ⟨false, true, cfg⟩ (cs :: h)).kernel = (steps cfg cs (state ⟨false, true, cfg⟩ h)).kernel := by
    rw [broken, cell_ok] at hb
    rw [state, cell, ← finish_kernel (state ⟨false, true, cfg⟩ h).shell (steps cfg cs (state ⟨false, true, cfg⟩ h))]
    rcases e : finish (state ⟨false, true, cfg⟩ h).shell (steps cfg cs (state ⟨false, true, cfg⟩ h)) with ⟨s', b⟩
    rw [e] at hb
    cases b with
    | true => exact absurd hb (by simp)
    | false => rfl
  rw [hs]
  rcases ek : (steps cfg cs (state ⟨false, true, cfg⟩ h)).kernel with _ | _ | x | _
  · rw [ek] at hk; exact absurd hk.1 (by simp)
  · exact absurd ek h2
  · cases x with
    | true => rfl
    | false => exact absurd ((h5 (by rw [ek]; rfl)).mp ek) hu
  · exact absurd ek h4

/-! ### Sessions that were started with ipyflow -/

/-- A session that was started with ipyflow runs all its cells with ipyflow, and none raises by itself. -/
theorem own_tracked (kernel : Bool) (cfg h cs) : tracked ⟨true, kernel, cfg⟩ h = true ∧ broken ⟨true, kernel, cfg⟩ cs h = false := by
  refine ⟨?_, ?_⟩
  · rw [tracked_iff_shell, (own_state kernel cfg h).1]; simp
  · rw [broken, own_cell (own_state kernel cfg h)]; rfl

/-- In such a session, unloading the extension after it was loaded raises: what follows it in the cell is not carried out. -/
theorem own_unload_raises (kernel : Bool) (cfg h cs) :
    state ⟨true, kernel, cfg⟩ (.cons .load (.cons .unload cs) :: h) = state ⟨true, kernel, cfg⟩ (.cons .load .nil :: h) := by
  have hi := own_state kernel cfg h
  rw [state, state, own_cell hi, own_cell hi]
  have h1 := own_doLoad (cfg := cfg) hi
  have h2 : (doLoad cfg (state ⟨true, kernel, cfg⟩ h)).loaded = true := by
    rw [doLoad]
    cases e : (state ⟨true, kernel, cfg⟩ h).loaded with
    | true => exact e
    | false => rfl
  simp only [steps, step, own_doUnload h1.1.1, h2, Bool.not_true]

/-! ### Registered tracers -/

/-- A cell that is run with ipyflow and runs no code as a cell of its own keeps registered tracers; so does one that does not load the extension. -/
theorem keep_partial {b h cs n} (hc : tracked b h = true ∧ Flat cs ∨ ¬ LoadsIn cs) (hn : Has (state b h) n) : Has (state b (cs :: h)) n := by
  have key : Has (steps b.cfg cs (state b h)) n := by
    rcases hc with ⟨ht, hf⟩ | hl
    · rw [tracked_iff_shell] at ht
      exact (flat_kept b.cfg cs _ hf ht).2 n hn
    · exact (steps_out b.cfg cs _ hl).2 n hn
  obtain ⟨l, e, hl⟩ := key
  exact ⟨l, by rw [state, cell_tracers]; exact e, hl⟩

/-- Sessions that were started with ipyflow keep all registered tracers. -/
theorem own_keeps {kernel cfg h cs n} (hn : Has (state ⟨true, kernel, cfg⟩ h) n) : Has (state ⟨true, kernel, cfg⟩ (cs :: h)) n := by
  rw [state, own_cell (own_state kernel cfg h)]
  exact (own_steps cfg cs _ (own_state kernel cfg h)).2 n hn

/-- Reloading the extension changes nothing. -/
theorem reload_same {kernel cfg h} (hw : Wanted h) : state ⟨false, kernel, cfg⟩ (.cons .reload .nil :: h) = state ⟨false, kernel, cfg⟩ h := by
  have hi := state_inv kernel cfg h
  have hr := hi.reg hw
  have e1 := hi.loaded
  have e2 := hi.shell.mpr hw
  have e3 := hi.kernel
  have e4 := hi.told
  rw [Wanted] at hw
  rw [hw] at e1 e3 e4
  rw [state]
  generalize state ⟨false, kernel, cfg⟩ h = s at e1 e2 e3 e4
  obtain ⟨l, sh, k, t, d⟩ := s
  simp only at e1 e2; subst e1; subst e2
  rcases k with _ | k
  · simp [cell, steps, step, doReload, doUnload, callUnload, leave, doLoad, callLoad, loadShell, finish]
  · have e5 := (e3 rfl).mpr rfl
    have e6 := e4 rfl hr
    simp only [Option.some.injEq] at e5 e6; subst e5; subst e6
    simp [cell, steps, step, doReload, doUnload, callUnload, leave, doLoad, callLoad, loadShell, loadKernel, finish, eject]

/-- A cell that registers a tracer, once the extension has been loaded. -/
theorem register_has {kernel cfg h n} (hr : (asked h).2 = true) : Has (state ⟨false, kernel, cfg⟩ (.cons (.register n) .nil :: h)) n := by
  have ht := (state_inv kernel cfg h).tracers
  rw [hr] at ht
  cases e : (state ⟨false, kernel, cfg⟩ h).tracers with
  | none => rw [e] at ht; exact absurd ht (by simp)
  | some l =>
    refine ⟨insert n l, ?_, mem_insert.mpr (.inl rfl)⟩
    rw [state, cell_tracers]
    simp only [steps, step, e]

private theorem flat_no_more (cfg : List Nat) : ∀ (cs : Cmds) (s : St) (n : Nat), Flat cs → ¬ RegistersIn n cs → s.shell ≠ .plain →
    Has (steps cfg cs s) n → Has s n
  | .nil, s, n, _, _, _, h => by rw [steps] at h; exact h
  | .cons c cs, s, n, hf, hu, hs, h => by
    rw [RegistersIn] at hu
    have hu2 : ¬ RegistersIn n cs := fun x => hu (.inr x)
    have key : (step cfg c s).1.shell ≠ .plain ∧ (Has (step cfg c s).1 n → Has s n) ∧ Flat cs := by
      cases c with
      | load =>
        rw [step]
        exact ⟨(doLoad_not_plain hs).1, fun ⟨l, h1, h2⟩ => ⟨l, (doLoad_not_plain hs).2.symm.trans h1, h2⟩, hf⟩
      | unload =>
        rw [step]
        exact ⟨doUnload_not_plain hs, fun ⟨l, h1, h2⟩ => ⟨l, (doUnload_tracers s).symm.trans h1, h2⟩, hf⟩
      | reload =>
        rw [step]
        exact ⟨(doReload_not_plain hs).1, fun ⟨l, h1, h2⟩ => ⟨l, (doReload_not_plain hs).2.symm.trans h1, h2⟩, hf⟩
      | register m =>
        rw [step]
        cases e : s.tracers with
        | none => exact ⟨hs, id, hf⟩
        | some l =>
          refine ⟨hs, fun ⟨l', h1, h2⟩ => ⟨l, e, ?_⟩, hf⟩
          simp only [Option.some.injEq] at h1; subst h1
          rcases mem_insert.mp h2 with h3 | h3
          · exact absurd (.inl h3.symm) hu
          · exact h3
      | nested _ => exact hf.elim
      | fail => rw [step]; exact ⟨hs, id, hf⟩
      | other => rw [step]; exact ⟨hs, id, hf⟩
    rw [steps] at h
    rcases e : step cfg c s with ⟨s', b⟩
    rw [e] at key h
    obtain ⟨k1, k2, k3⟩ := key
    cases b with
    | false => exact k2 h
    | true => exact k2 (flat_no_more cfg cs s' n k3 hu2 k1 h)

/-- The tracers that are registered after the extension was loaded into a shell without ipyflow are those of the configuration: all others are forgotten. -/
theorem load_forgets {kernel cfg h cs n} (ht : tracked ⟨false, kernel, cfg⟩ h = false) (hu : ¬ RegistersIn n cs) (hf : Flat cs) :
    Has (state ⟨false, kernel, cfg⟩ (.cons .load cs :: h)) n ↔ n ∈ cfg := by
  rw [untracked_iff_shell] at ht
  have hi := state_inv kernel cfg h
  have hl : (state ⟨false, kernel, cfg⟩ h).loaded = false := by
    cases e : (state ⟨false, kernel, cfg⟩ h).loaded with
    | false => rfl
    | true =>
      have := hi.shell.mpr (hi.loaded.symm.trans e)
      rw [ht] at this
      exact absurd this (by simp)
  have h0 : Has (doLoad cfg (state ⟨false, kernel, cfg⟩ h)) n ↔ n ∈ cfg := by
    have : (doLoad cfg (state ⟨false, kernel, cfg⟩ h)).tracers = some (setup cfg) := by
      rw [doLoad, hl]
      generalize state ⟨false, kernel, cfg⟩ h = s at ht hl
      obtain ⟨l, sh, k, t, d⟩ := s
      simp only at ht; subst ht
      rcases k with _ | _ <;> rfl
    rw [Has, this]
    simp only [Option.some.injEq, exists_eq_left', mem_setup]
  have h1 : (doLoad cfg (state ⟨false, kernel, cfg⟩ h)).shell ≠ .plain := by
    rw [(doLoad_inv hi).shell.mpr rfl]; simp
  rw [← h0]
  have h2 : Has (state ⟨false, kernel, cfg⟩ (.cons .load cs :: h)) n ↔ Has (steps cfg cs (doLoad cfg (state ⟨false, kernel, cfg⟩ h))) n := by
    rw [Has, Has, state, cell_tracers, steps, step]
  rw [h2]
  exact ⟨flat_no_more cfg cs _ n hf hu h1, (flat_kept cfg cs _ hf h1).2 n⟩

end Verif.Loading
