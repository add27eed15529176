import Verif.Live.Main

/-!
# Live-reference analysis: C34, C35, C62

`Plain` excludes the constructs of the counterexamples below. The hypothesis on `noop` excludes the comparison of objects
that is only made in any-order mode and whose purpose is to drop references of assignments that change nothing.
-/

namespace Verif.Live
open Verif

theorem analyse_ok {P : Par} {n : Nat} {code : Node} {l : List LRef} {d : Finset Ref}
    (h : analyse P n code = .ok (l, d)) :
    ∃ s, visit P (callBody P n) code {} ⟨∅, []⟩ = .ok (l, s) ∧ s.dead = d := by
  unfold analyse at h
  cases hv : visit P (callBody P n) code {} ⟨∅, []⟩ with
  | error e =>
    rw [hv] at h
    cases h
  | ok p =>
    obtain ⟨l', s⟩ := p
    rw [hv] at h
    cases h
    exact ⟨s, rfl, rfl⟩

/-- C34. A variable that some path reads before writing it is reported live. Missing: code outside `Plain`, for which the
property fails, and any-order mode. -/
theorem live_sound_partial {P : Par} {n : Nat} {code : Node} {l : List LRef} {d : Finset Ref} {x : Nat}
    (hno : ∀ a b, P.noop a b = false) (hp : Plain P code) (h : analyse P n code = .ok (l, d)) (hx : NeedsValue code x) :
    ReportedLive l x := by
  obtain ⟨s, hv, _⟩ := analyse_ok h
  obtain ⟨t, o, hr, ht⟩ := hx
  have hs := (claims (callF := callBody P n) hno code).1 hp [] (fun _ => False) _ _ _ hv K.empty
  rcases hs.1 t o hr x ht with (hf | hl) | hf
  · exact hf.elim
  · exact hl
  · exact hf.elim

/-- C35. A variable reported as assigned is written on every path on which the code completes. Missing: as in C34. -/
theorem dead_sound_partial {P : Par} {n : Nat} {code : Node} {l : List LRef} {d : Finset Ref} {x : Nat}
    (hno : ∀ a b, P.noop a b = false) (hp : Plain P code) (h : analyse P n code = .ok (l, d)) (hx : ReportedDead d x) :
    AlwaysWrites code x := by
  obtain ⟨s, hv, rfl⟩ := analyse_ok h
  intro t ht
  have hs := (claims (callF := callBody P n) hno code).1 hp [] (fun _ => False) _ _ _ hv K.empty
  rcases hs.2 t ht _ hx x (rootOf_nm x) with (hf | hw) | hf
  · exact hf.elim
  · exact hw
  · exact absurd rfl hf.1

/-- C62. A call, in a cell, of a function that the cell defines reports every variable that some path through the body of
the function reads before writing it, other than the parameters. Missing: as in C34. -/
theorem call_reports_partial {P : Par} {n : Nat} {f : Nat} {args : Node} {c : Ctx} {s s' : S} {l : List LRef}
    {ps : List Nat} {kw : Bool} {body : Node} {x : Nat} (hno : ∀ a b, P.noop a b = false)
    (hf : s.funcs.find? (fun d => d.1 == f) = some (f, ps, kw, body)) (hargs : Pure args) (hc : c.kill = false)
    (hp : Plain { P with res := fun _ => none } body)
    (h : visit P (callBody P n) (.call (.name f) args) c s = .ok (l, s')) (hx : NeedsValue body x)
    (hxp : x ∉ ps) :
    ReportedLive l x := by
  unfold visit at h
  obtain ⟨l1, s1, l2, h1, h2, rfl⟩ := andThen_ok h
  obtain ⟨l3, s3, l4, h3, h4, rfl⟩ := andThen_ok h1
  obtain ⟨l5, s5, l6, h5, h6, rfl⟩ := andThen_ok h3
  have e3 := report_state h6
  subst e3
  have e1 : s1 = s3 := by
    unfold visit visitName at h4
    rw [hc, if_neg (by simp), if_pos rfl] at h4
    cases h4
    rfl
  subst e1
  have hfuncs : s1.funcs = s.funcs := by
    rw [hc] at h5
    rw [pure_state args _ _ _ _ hargs h5]
  apply ReportedLive.right
  unfold callKnown at h2
  simp only at h2
  rw [hfuncs] at h2
  rw [if_pos] at h2
  · cases n with
    | zero =>
      unfold callBody at h2
      cases h2
    | succ n =>
      unfold callBody at h2
      rw [hf] at h2
      simp only at h2
      cases kw with
      | true =>
        rw [if_pos rfl] at h2
        cases h2
      | false =>
        rw [if_neg (by simp)] at h2
        cases hv : visit { P with res := fun _ => none } (callBody { P with res := fun _ => none } n) body {}
            ⟨(ps.map (fun p => [nm p])).toFinset, s.funcs⟩ with
        | error e =>
          rw [hv] at h2
          cases h2
        | ok p =>
          obtain ⟨l', s''⟩ := p
          rw [hv] at h2
          cases h2
          obtain ⟨t, o, hr, ht⟩ := hx
          have hs := (claims (P := { P with res := fun _ => none }) (callF := callBody { P with res := fun _ => none } n)
            hno body).1 hp [] (fun y => y ∈ ps) _ _ _ hv (by
              intro r hr a ha
              simp only [List.mem_toFinset, List.mem_map] at hr
              obtain ⟨p, hp, rfl⟩ := hr
              rw [rootOf_nm] at ha
              cases ha
              exact .inl hp)
          rcases hs.1 t o hr x ht with (hf | hl) | hf
          · exact absurd hf hxp
          · exact hl
          · exact hf.elim
  · have := List.find?_some hf
    have hm := List.mem_of_find?_eq_some hf
    exact List.mem_map.2 ⟨_, hm, rfl⟩

end Verif.Live
