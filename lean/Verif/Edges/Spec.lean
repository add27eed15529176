import Verif.Edges.Model

/-! # What the edge properties talk about: histories of operations -/

namespace Verif.Edges
variable {ι σ : Type}

/-- An operation after which the child entries kept for the previous version of `c` may be gone. -/
def Disturbs (o : Op ι σ) (c : ι) : Prop :=
  match o with
  | .add _ _ _ => False
  | .remove c' _ _ => c' = c
  | .rerun _ => False
  | .adopt c' => c' = c
  | .cleanup _ _ => True

/-- `c` was re-run and since then nothing disturbed the record of its previous version. -/
def Fresh (hist : List (Op ι σ)) (c : ι) : Prop :=
  ∃ before after, hist = before ++ .rerun c :: after ∧ ∀ o ∈ after, ¬ Disturbs o c

/-- Self edges (a cell reading what it wrote itself) are recorded only before the cell's first re-run or while the record
of its previous version is intact. -/
def SelfEdgesEarly (ops : List (Op ι σ)) : Prop :=
  ∀ before c syms after, ops = before ++ .add c c syms :: after →
    (∀ o ∈ before, o ≠ .rerun c ∧ o ≠ .adopt c) ∨ Fresh before c

/-- `c` was re-run and its clean-up has not happened yet. -/
def Pending (hist : List (Op ι σ)) (c : ι) : Prop :=
  ∃ before after, hist = before ++ .rerun c :: after ∧ ∀ o ∈ after, o ≠ .adopt c ∧ ∀ d, o ≠ .cleanup c d

/-- Every re-run of a cell is preceded by the clean-up of its previous run. -/
def RunsFinish (ops : List (Op ι σ)) : Prop :=
  ∀ before c after, ops = before ++ .rerun c :: after → ¬ Pending before c

/-- `c` was re-run and no edge operation concerned it since. -/
def Untouched (hist : List (Op ι σ)) (c : ι) : Prop :=
  ∃ before after, hist = before ++ .rerun c :: after ∧ ∀ o ∈ after, ¬ Disturbs o c ∧ ∀ p syms, o ≠ .add c p syms

/-- A version takes over the previous version's parents only right after it was created: with dataflow disabled no edge
operation concerns the cell between `before_run_cell` and the assignment (`shell/interactiveshell.py` 396-453, 579-580). -/
def AdoptsAtOnce (ops : List (Op ι σ)) : Prop :=
  ∀ before c after, ops = before ++ .adopt c :: after → Untouched before c

end Verif.Edges
