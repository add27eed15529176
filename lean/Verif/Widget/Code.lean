import Verif.Widget.CodeLemmas

/-! # The code for what was read from a widget -/

namespace Verif.Widget

theorem Time.le_false_of_cell {a b : Time} (h : a.cell < b.cell) : a.le b = true ∧ b.le a = false := by
  unfold Time.le
  have h1 : ¬ b.cell < a.cell := by omega
  have h2 : b.cell ≠ a.cell := by omega
  simp [h, h1, h2]

theorem Time.le_same {a b : Time} (h : a.cell = b.cell) (h' : a.stmt ≤ b.stmt) : a.le b = true := by
  unfold Time.le
  simp [h, h']

/-- The code for a variable that was read from a widget gives it what the widget shows now, if the widget was the only one that its execution made, no program set its value, and
it shows a number or was never moved. Programs set values of widgets, of others that is, to numbers. -/
theorem code_partial (rest : List Char → Option Code) (h : List Event) (hn : Spec.Numeric h) (y w : Name) (v : Val) (m : Bool) (c : Nat)
    (hy : (Spec.origins h).names y = some (.copied w)) (hw : (Spec.origins h).names w = some (.widget v true m c)) (hm : m = true → ∃ k, v = .num k) :
    Spec.Gives (code (after rest h) y) y v := by
  obtain ⟨i, hI⟩ := after_inv rest h hn
  obtain ⟨hyw, v', a', m', c', h2, h3⟩ := hI.cop y w hy
  rw [hw] at h2
  cases h2
  obtain ⟨-, p, v0, hW⟩ := hI.wid w v true m c hw
  obtain ⟨t, t1, t2, t3, t4, t5⟩ := h3 rfl p hW.part
  set σ := after rest h with hσ
  have hth : p.home ≠ t := by rintro rfl; exact Nat.lt_irrefl _ t4
  have hext : parents σ.edges (extraTime σ p) = [] := by
    rw [List.eq_nil_iff_forall_not_mem]
    intro x hx
    exact (hI.child _ (mem_parents.mp hx)).ne_extra p rfl
  have hxt : extraTime σ p ≠ t := (t2.ne_extra p).symm
  have hxh : extraTime σ p ≠ p.home := (hW.home.ne_extra p).symm
  have hhome := hW.stmt rfl
  have hle1 := Time.le_false_of_cell t4
  have hle2 : (extraTime σ p).le t = true ∧ t.le (extraTime σ p) = false := Time.le_false_of_cell t4
  have hle3 : p.home.le (extraTime σ p) = true := Time.le_same rfl (Nat.le_of_lt hW.home.1)
  have hcode : code σ y = ((closure σ.edges (σ.edges.length + 4) [t] []).foldr place []).filterMap (Assoc.get σ.stmts) := by
    unfold code; rw [t1]
  cases hmb : m with
  | false =>
    obtain ⟨rfl, hpar⟩ := hW.still rfl hmb
    have hclos : closure σ.edges (σ.edges.length + 4) [t] [] = [t, p.home] := by
      simp [closure, t5, hpar, hth]
    have : code σ y = [.make w v, .copy y w] := by
      rw [hcode, hclos]
      simp [place, hle1.2, hhome, t3]
    rw [this]
    refine ⟨fun n => if n = y then some (.val v) else if n = w then some (.wid v) else none, ?_, by simp⟩
    simp [Spec.run, Spec.exec]
  | true =>
    obtain ⟨k, rfl⟩ := hm hmb
    obtain ⟨hpar, hput⟩ := hW.moved rfl hmb k rfl
    have hclos : closure σ.edges (σ.edges.length + 4) [t] [] = [t, p.home, extraTime σ p] := by
      simp [closure, t5, hpar, hth, hext, hxt, hxh]
    have : code σ y = [.make w v0, .put w (.lit (.num k)), .copy y w] := by
      rw [hcode, hclos]
      simp [place, hle1.2, hle2.2, hle3, hhome, t3, hput]
    rw [this]
    refine ⟨fun n => if n = y then some (.val (.num k)) else if n = w then some (.wid (.num k)) else if n = w then some (.wid v0) else none, ?_, by simp⟩
    simp [Spec.run, Spec.exec, Spec.value]

end Verif.Widget
