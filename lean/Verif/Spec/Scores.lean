import Mathlib.Algebra.Order.Ring.Rat
import Mathlib.Algebra.BigOperators.Group.List.Basic

/-! Specification: precision, recall and F score (evaluate.py:20-62), means and variances.  Division by zero gives zero. -/
namespace Verif.Spec

/-- Common through predicted. -/
def precisionOf (pred common : Nat) : ℚ := common / pred

/-- Common through true. -/
def recallOf (true common : Nat) : ℚ := common / true

/-- F score. -/
def fOf (beta prec recall : ℚ) : ℚ := (beta ^ 2 + 1) * prec * recall / (beta ^ 2 * prec + recall)

/-- Mean. -/
def meanOf (l : List ℚ) : ℚ := l.sum / l.length

/-- Sum of squared differences with `m`, divided by one less than their number. -/
def varOf (l : List ℚ) (m : ℚ) : ℚ := (l.map fun v => (v - m) ^ 2).sum / (l.length - 1)

end Verif.Spec
