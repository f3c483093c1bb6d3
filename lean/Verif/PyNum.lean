import Verif.Py
import Mathlib.Algebra.Order.Ring.Rat
import Mathlib.Analysis.Real.Sqrt

/-! Division with ZeroDivisionError, over exact numbers (rounding of floats is not modelled). -/
namespace Verif.Py

/-- Float division `a / b`. -/
def div (a b : ℚ) : Py ℚ := if b = 0 then .error .zeroDivision else .ok (a / b)

open Classical in
/-- Float division over the reals (used where `math.sqrt`/`math.log` occur). -/
noncomputable def divR (a b : ℝ) : Py ℝ := if b = 0 then .error .zeroDivision else .ok (a / b)

/-- `try: return x / except ZeroDivisionError: return d`. -/
def catchZeroDiv {α : Type} (d : α) : Py α → Py α
  | .error .zeroDivision => .ok d
  | r => r

theorem catch_div (a b : ℚ) : catchZeroDiv 0 (div a b) = .ok (if b = 0 then 0 else a / b) := by
  unfold div; split <;> rfl

theorem catch_divR (a b : ℝ) : ∃ q, catchZeroDiv 0 (divR a b) = .ok q ∧
    (b = 0 → q = 0) ∧ (b ≠ 0 → q = a / b) := by
  by_cases h : b = 0
  · exact ⟨0, by simp [divR, h, catchZeroDiv], fun _ => rfl, fun h' => absurd h h'⟩
  · exact ⟨a / b, by simp [divR, h, catchZeroDiv], fun h' => absurd h' h, fun _ => rfl⟩

end Verif.Py
