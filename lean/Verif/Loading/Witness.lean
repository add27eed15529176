import Verif.Loading.Props

/-!
# Cases of loading and unloading
-/

namespace Verif.Loading

/-- A session in a notebook without ipyflow (`core/ipyflow/__init__.py` 34-53). -/
def nb : Start := ⟨false, true, [7]⟩

/-- A cell that loads the extension, one that unloads it, one that does both, one that captures the output of the unloading, and one that registers a tracer
(`core/ipyflow/__init__.py` 34-70, `core/ipyflow/line_magics.py` 518-529). -/
def loading : Cmds := .cons .load .nil
@[inherit_doc loading] def unloading : Cmds := .cons .other (.cons .unload .nil)
@[inherit_doc loading] def both : Cmds := .cons .load (.cons .unload .nil)
@[inherit_doc loading] def captured : Cmds := .cons (.nested unloading) .nil
@[inherit_doc loading] def registering : Cmds := .cons (.register 3) .nil

/-- Loading and unloading in one cell leaves ipyflow in for the next; unloading inside `%%capture` makes the cell raise. -/
theorem track_claim_false : ¬ TrackClaim := by
  intro h
  have := (h true [] [both] .nil).1.mp (by decide)
  exact absurd this (by simp [Wanted, asked, both, wants, want])

/-- A registered tracer is forgotten when the extension is unloaded in one cell and loaded in another. -/
theorem keep_claim_false : ¬ KeepClaim := by
  intro h
  have h1 : Has (state ⟨false, true, []⟩ [unloading, registering, loading]) 3 := ⟨[3], by decide, by decide⟩
  obtain ⟨l, e, hl⟩ := h true [] [unloading, registering, loading] loading 3 h1
  have e2 : (state ⟨false, true, []⟩ [loading, unloading, registering, loading]).tracers = some [] := by decide
  rw [e2] at e
  injection e with e; subst e
  simp at hl

/-- The claim fails also as for runs that raise. -/
example : broken nb captured [loading] = true := by decide

example : Wanted [loading] := by simp [Wanted, asked, loading, wants, want]
example : tracked nb [loading] = true := wanted_tracked (by simp [Wanted, asked, loading, wants, want])
example : tracked nb [unloading, loading] = false :=
  left_after (by decide) (by simp [Wanted, asked, loading, unloading, wants, want])
example : tracked nb [registering, unloading, loading] = false :=
  stays_out (by decide) (by simp [registering, LoadsIn, Loads])
example : Settled [loading, unloading, registering, loading] := by
  simp [Settled, Wanted, asked, loading, unloading, registering, wants, want, LoadsIn, Loads]
example : tracked nb [loading, unloading, registering, loading] = true ↔ Wanted [loading, unloading, registering, loading] :=
  tracked_partial (by simp [Settled, Wanted, asked, loading, unloading, registering, wants, want, LoadsIn, Loads])
example : tracked nb [both] = true := (unload_missed (by decide) (by simp [both, Flat]) (by simp [both, Calm])).mpr (by simp [both, LoadsIn, Loads])
example : tracked nb [.cons .other .nil, both] = false :=
  gone_later (by simp [LoadsIn, Loads]) (by simp [Wanted, asked, both, wants, want])
example : broken nb (.cons .fail unloading) [loading] = false := flat_returns (by simp [Flat, unloading])
example : broken nb captured [] = false := untracked_returns (by decide)
example : broken nb (.cons (.nested both) loading) [loading] = false :=
  wanted_returns (by simp [Wanted, asked, both, loading, wants, want])
example : broken nb (.cons (.nested unloading) registering) [loading] = true :=
  nested_breaks (by decide) (by simp [Wanted, asked, unloading, loading, wants, want]) (by simp [registering, LoadsIn, Loads])
example : (state nb [registering, loading]).told = some true :=
  (kernel_wanted (by simp [Wanted, asked, registering, loading, wants, want])).2
example : (state nb [both]).told = some false := client_told (by simp [asked, both, wants, want])
example : (state nb [unloading, loading]).kernel = some .plain :=
  kernel_left (by decide) (by decide) (by simp [Wanted, asked, unloading, loading, wants, want])
example : (state nb [captured, loading]).kernel = some (.tracking true) :=
  (kernel_kept (by simp [Wanted, asked, loading, wants, want]) (by decide)).1
example : tracked ⟨true, true, []⟩ [unloading, loading] = true := (own_tracked true [] [unloading, loading] .nil).1
example : (state ⟨true, true, []⟩ [.cons .load (.cons .unload registering)]).tracers = some [] := by
  rw [own_unload_raises]; decide
example : Has (state nb [unloading, registering, loading]) 3 :=
  keep_partial (.inl ⟨by decide, by simp [Flat, unloading]⟩) ⟨[3, 7], by decide, by decide⟩
example : Has (state ⟨true, false, []⟩ [unloading, registering]) 3 := own_keeps ⟨[3], by decide, by decide⟩
example : state nb [.cons .reload .nil, registering, loading] = state nb [registering, loading] :=
  reload_same (by simp [Wanted, asked, registering, loading, wants, want])
example : Has (state nb [registering, unloading, loading]) 3 := register_has (by simp [asked, unloading, loading, wants, want])
example : ¬ Has (state nb [loading, unloading, registering, loading]) 3 := fun h =>
  absurd ((load_forgets (by decide) (by simp [RegistersIn]) (by simp [Flat])).mp h) (by decide)

end Verif.Loading
