import Verif.Memo.Value

/-!
# Values with arrays that can be told apart

When the comparison of two values with arrays is meaningful: what the arrays held when the comparables were made is what they hold when they are compared, and arrays and the
containers around them have the same lengths. -/

namespace Verif.Memo

variable {N : Type} [DecidableEq N]

mutual
/-- Either there are no arrays and containers stand against their own kind; or arrays stand against arrays of the same length, both unchanged, in containers of the same kind and length. `now`
gives what arrays hold when they are compared. -/
def Shaped (now : Nat → List N) : Val N → Val N → Bool
  | .list i xs, .list j ys => (arrayFrees xs && arrayFrees ys && sameKind (.list i xs) (.list j ys)) || Shapes now xs ys
  | .tuple xs, .tuple ys => (arrayFrees xs && arrayFrees ys && sameKind (.tuple xs) (.tuple ys)) || Shapes now xs ys
  | .dict i b xs, .dict j b' ys => (arrayFrees xs && arrayFrees ys && sameKind (.dict i b xs) (.dict j b' ys)) || Shapes now xs ys
  | .arr i a, .arr j b => decide (a.length = b.length) && decide (now i = a) && decide (now j = b)
  | v, w => arrayFree v && arrayFree w && sameKind v w
/-- Element by element. -/
def Shapes (now : Nat → List N) : List (Val N) → List (Val N) → Bool
  | [], [] => true
  | x :: xs, y :: ys => Shaped now x y && Shapes now xs ys
  | _, _ => false
end

end Verif.Memo
