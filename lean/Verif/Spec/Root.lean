import Verif.Spec.Rounding
import Mathlib.Analysis.Real.Sqrt

/-! Rounded square roots and exact integers (C81, C82). -/
namespace Verif.Spec.Rounding

/-- Integers up to `M` are not rounded. -/
def Whole (fl : ℚ → ℚ) (M : Nat) : Prop := ∀ n : Nat, n ≤ M → fl n = n

/-- `sq` is the square root, rounded by `fl`: since roots need not be rational, this is said by comparison with all
rational numbers. -/
structure Root (fl sq : ℚ → ℚ) : Prop where
  low : ∀ x y : ℚ, 0 ≤ y → y ^ 2 ≤ x → fl y ≤ sq x
  high : ∀ x y : ℚ, 0 ≤ y → 0 ≤ x → x ≤ y ^ 2 → sq x ≤ fl y

/-- The nearest integer of a real number, halves to the even one. -/
noncomputable def nearestR (q : ℝ) : ℤ :=
  if q - ⌊q⌋ < 1/2 then ⌊q⌋ else if 1/2 < q - ⌊q⌋ then ⌊q⌋ + 1 else if ⌊q⌋ % 2 = 0 then ⌊q⌋ else ⌊q⌋ + 1

/-- A real number rounded to 53 binary digits. -/
noncomputable def doubleR (x : ℝ) : ℚ :=
  nearestR (x / 2 ^ (Int.log 2 |x| - 52)) * 2 ^ (Int.log 2 |x| - 52)

/-- `math.sqrt` of a float that is not negative. -/
noncomputable def sqrtDouble (x : ℚ) : ℚ := doubleR (Real.sqrt x)

end Verif.Spec.Rounding
