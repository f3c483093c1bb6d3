import Mathlib.Algebra.Order.Ring.Rat

/-! Specification: the values of a square table outside its diagonal. -/
namespace Verif.Spec

/-- The values of a column without the diagonal. -/
def column (labels : List String) (v : String → String → ℚ) (col : String) : List ℚ :=
  (labels.filter fun row => col ≠ row).map fun row => v row col

/-- All values without the diagonal. -/
def offDiagonal (labels : List String) (v : String → String → ℚ) : List ℚ := labels.flatMap (column labels v)

end Verif.Spec
