import Verif.Slice.Model

/-! Specification vocabulary for slices, in terms of recorded parents and version chains only. -/

namespace Verif.Slice
open Verif
variable {ι ν : Type}

/-- `pid` is recorded as a parent of `x` in one of the enabled contexts. -/
def RecordedParent (w : World ι ν) (ctxs : List Ctx) (x : ν) (pid : ι) : Prop :=
  ∃ c ∈ ctxs, pid ∈ w.parents c x

/-- `y` is the version of `pid` that code at `x` could have seen: it is not newer than `x` (or it was put in place by
an override), and all versions of `pid` more recent than `y` are newer than `x` and not overrides. -/
def SeenVersion (w : World ι ν) (x : ν) (pid : ι) (y : ν) : Prop :=
  ∃ newer older, w.chain pid = newer ++ y :: older ∧ (w.ts y ≤ w.ts x ∨ w.override y = true) ∧
    ∀ z ∈ newer, w.ts x < w.ts z ∧ w.override z = false

/-- `x` directly depends on `y`. -/
def DependsOn (w : World ι ν) (ctxs : List Ctx) (x y : ν) : Prop :=
  ∃ pid, RecordedParent w ctxs x pid ∧ SeenVersion w x pid y

/-- `x` transitively depends on `y` (or is `y`). -/
def DependsOnStar (w : World ι ν) (ctxs : List Ctx) : ν → ν → Prop :=
  Relation.ReflTransGen (DependsOn w ctxs)

/-- The element a seed stands for. -/
def Denotes (w : World ι ν) : Seed ν → ν → Prop
  | .time t, x => w.at' t = some x
  | .node y, x => y = x

/-- Every recorded parent of every element that can be reached has a version visible to its user. -/
def Resolvable (w : World ι ν) (ctxs : List Ctx) (x : ν) : Prop :=
  ∀ pid, RecordedParent w ctxs x pid → ∃ y, SeenVersion w x pid y

end Verif.Slice
