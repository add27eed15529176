import Verif.Phantom.Props

namespace Verif.Phantom.Witness
open Verif.Phantom Spec

/-- Cell 10 is run twice, with cell 11 in between, and then cell 12. -/
def runs : List Nat := [10, 11, 10, 12]

/-- Cell 12 uses what both runs of cell 10 and the run of cell 11 have set. -/
def both : Asked := ⟨12, [1, 2, 3]⟩

example : (∀ n ∈ both.used, Real runs n) ∧ UsesTwo runs both 10 ∧ ¬ UsesTwo runs both 11 := by
  refine ⟨by simp [both, runs, Real], ⟨1, 3, by decide, by decide, by decide, ⟨0, rfl, rfl⟩, ⟨2, rfl, rfl⟩⟩, ?_⟩
  rintro ⟨m, n, hne, hm, hn, ⟨k, rfl, hk⟩, ⟨l, rfl, hl⟩⟩
  simp [both] at hm hn
  have h1 : k = 0 ∨ k = 1 ∨ k = 2 := by omega
  have h2 : l = 0 ∨ l = 1 ∨ l = 2 := by omega
  rcases h1 with rfl | rfl | rfl <;> rcases h2 with rfl | rfl | rfl <;> simp [runs] at hk hl hne

/-- Both runs are found. -/
example : infoOf runs both = .ok [(10, [3, 1])] := by decide

/-- Cell 11, which uses its only run (it counts up), is found with the run of cell 12. -/
example : infoOf runs ⟨11, [2]⟩ = .ok [(11, [2, 4])] := by decide

/-- `own_wrong` is met by it. -/
example : ∃ d S, infoOf runs ⟨11, [2]⟩ = .ok d ∧ (11, S) ∈ d ∧ (4 : Int) ∈ S ∧ ¬ RunOf runs 11 4 :=
  own_wrong [10, 11, 10] 12 ⟨11, [2]⟩ 2 (by simp [Real]) (by simp) ⟨1, rfl, rfl⟩ (by decide)

/-- The check of two cells, the other of which uses a symbol without a time, fails. -/
example : ∃ e, check true runs [] [both, ⟨11, [-1]⟩] = .error e := fails runs [] _ ⟨11, [-1]⟩ (by simp) (-1) (by simp) (by simp [Real])

/-- **C191** (violated): that the answer has the cells of which several runs are used is false. -/
theorem phantom_claim_false : ¬ ∀ (runs : List Nat) (cs : List Asked) (r : List (Nat × List (Nat × List Int))), check true runs [] cs = .ok r →
    ∀ c ∈ cs, ∀ i, UsesTwo runs c i → ∃ d S, (c.id, d) ∈ r ∧ (i, S) ∈ d := by
  intro q
  obtain ⟨d, S, h, -⟩ := q runs [both] [] (by decide) both (by simp) 10 ⟨1, 3, by decide, by decide, by decide, ⟨0, rfl, rfl⟩, ⟨2, rfl, rfl⟩⟩
  simp at h

end Verif.Phantom.Witness
