import Mathlib.Data.Rat.Defs
import Mathlib.Algebra.Order.Ring.Unbundled.Rat
import Mathlib.Data.Int.Log
import Mathlib.Data.Rat.Floor
import Mathlib.Order.Monotone.Basic

/-! Rounding of numbers (C79). -/
namespace Verif.Spec.Rounding

/-- A rounding: it keeps the order, keeps zero, and leaves a rounded number alone. -/
structure Rounding (fl : ℚ → ℚ) : Prop where
  mono : Monotone fl
  zero : fl 0 = 0
  idem : ∀ x, fl (fl x) = fl x

/-- The nearest integer, halves to the even one. -/
def nearest (q : ℚ) : ℤ :=
  if q - ⌊q⌋ < 1/2 then ⌊q⌋ else if 1/2 < q - ⌊q⌋ then ⌊q⌋ + 1 else if ⌊q⌋ % 2 = 0 then ⌊q⌋ else ⌊q⌋ + 1

/-- The rounding of floats: to the nearest number with 53 binary digits (without limits to the exponent). -/
def double (x : ℚ) : ℚ :=
  nearest (x / 2 ^ (Int.log 2 |x| - 52)) * 2 ^ (Int.log 2 |x| - 52)

end Verif.Spec.Rounding
