import Verif.Spec.Root
import Verif.Lemmas.Rounding
import Mathlib.Algebra.Order.Floor.Ring
import Mathlib.Data.Real.Archimedean

set_option linter.unusedSectionVars false
namespace Verif.Rounding
open Verif.Spec.Rounding

/-- `doubleR` as a real number. -/
noncomputable def dR (x : ℝ) : ℝ := (nearestR (x / 2 ^ (Int.log 2 |x| - 52)) : ℝ) * 2 ^ (Int.log 2 |x| - 52)

theorem dR_eq (x : ℝ) : ((doubleR x : ℚ) : ℝ) = dR x := by
  unfold doubleR dR; push_cast; rfl

theorem nearestR_int (k : ℤ) : nearestR k = k := by
  simp [nearestR]

theorem nearestR_bounds (q : ℝ) : nearestR q = ⌊q⌋ ∧ q - ⌊q⌋ ≤ 1/2 ∨ nearestR q = ⌊q⌋ + 1 ∧ 1/2 ≤ q - ⌊q⌋ := by
  unfold nearestR
  split_ifs with h1 h2 h3
  · left; exact ⟨rfl, by linarith⟩
  · right; exact ⟨rfl, by linarith⟩
  · left; exact ⟨rfl, by linarith⟩
  · right; exact ⟨rfl, by linarith⟩

theorem nearestR_mono {p q : ℝ} (h : p ≤ q) : nearestR p ≤ nearestR q := by
  have hf : ⌊p⌋ ≤ ⌊q⌋ := Int.floor_le_floor h
  rcases lt_or_eq_of_le hf with hlt | heq
  · rcases nearestR_bounds p with ⟨e, _⟩ | ⟨e, _⟩ <;> rcases nearestR_bounds q with ⟨e', _⟩ | ⟨e', _⟩ <;> omega
  · unfold nearestR
    rw [heq]
    split_ifs <;> first | omega | (exfalso; linarith)

theorem rpow_pos' (e : ℤ) : (0 : ℝ) < 2 ^ e := zpow_pos (by norm_num) e

theorem rscaled {x : ℝ} (hx : x ≠ 0) :
    (2 : ℝ) ^ (52 : ℤ) ≤ |x| / 2 ^ (Int.log 2 |x| - 52) ∧ |x| / 2 ^ (Int.log 2 |x| - 52) < (2 : ℝ) ^ (53 : ℤ) := by
  have h0 : 0 < |x| := abs_pos.2 hx
  have h1 : (2 : ℝ) ^ (Int.log 2 |x|) ≤ |x| := by
    have := Int.zpow_log_le_self (b := 2) (by norm_num) h0
    exact_mod_cast this
  have h2 : |x| < (2 : ℝ) ^ (Int.log 2 |x| + 1) := by
    have := Int.lt_zpow_succ_log_self (b := 2) (by norm_num) |x|
    exact_mod_cast this
  have hp := rpow_pos' (Int.log 2 |x| - 52)
  rw [le_div_iff₀ hp, div_lt_iff₀ hp, ← zpow_add₀ (by norm_num), ← zpow_add₀ (by norm_num)]
  refine ⟨?_, ?_⟩
  · rw [show (52 : ℤ) + (Int.log 2 |x| - 52) = Int.log 2 |x| by ring]; exact h1
  · rw [show (53 : ℤ) + (Int.log 2 |x| - 52) = Int.log 2 |x| + 1 by ring]; exact h2

theorem rtwo52 : ((2 : ℝ) ^ (52 : ℤ)) = ((2 ^ 52 : ℤ) : ℝ) := by norm_num
theorem rtwo53 : ((2 : ℝ) ^ (53 : ℤ)) = ((2 ^ 53 : ℤ) : ℝ) := by norm_num

theorem nearestR_pos {x : ℝ} (hx : 0 < x) :
    2 ^ 52 ≤ nearestR (x / 2 ^ (Int.log 2 |x| - 52)) ∧ nearestR (x / 2 ^ (Int.log 2 |x| - 52)) ≤ 2 ^ 53 := by
  obtain ⟨h1, h2⟩ := rscaled hx.ne'
  rw [rtwo52] at h1
  rw [rtwo53] at h2
  have ha : |x| = x := abs_of_pos hx
  refine ⟨?_, ?_⟩
  · rw [← nearestR_int (2 ^ 52)]; refine nearestR_mono ?_
    calc _ ≤ _ := h1
      _ = _ := by rw [ha]
  · conv_rhs => rw [← nearestR_int (2 ^ 53)]
    refine nearestR_mono ?_
    calc _ = |x| / 2 ^ (Int.log 2 |x| - 52) := by rw [ha]
      _ ≤ _ := h2.le

theorem nearestR_neg {x : ℝ} (hx : x < 0) :
    -2 ^ 53 ≤ nearestR (x / 2 ^ (Int.log 2 |x| - 52)) ∧ nearestR (x / 2 ^ (Int.log 2 |x| - 52)) ≤ -2 ^ 52 := by
  obtain ⟨h1, h2⟩ := rscaled hx.ne
  rw [rtwo52] at h1
  rw [rtwo53] at h2
  have ha : |x| = -x := abs_of_neg hx
  have hd : x / 2 ^ (Int.log 2 |x| - 52) = -(|x| / 2 ^ (Int.log 2 |x| - 52)) := by
    conv_lhs => rw [show x = -|x| by rw [ha]; ring]
    rw [neg_div, abs_neg, abs_abs]
  rw [hd]
  refine ⟨?_, ?_⟩
  · rw [← nearestR_int (-2 ^ 53)]; refine nearestR_mono ?_
    have : (((-2 ^ 53 : ℤ)) : ℝ) = -((2 ^ 53 : ℤ) : ℝ) := by norm_num
    rw [this]; linarith
  · conv_rhs => rw [← nearestR_int (-2 ^ 52)]
    refine nearestR_mono ?_
    have : (((-2 ^ 52 : ℤ)) : ℝ) = -((2 ^ 52 : ℤ) : ℝ) := by norm_num
    rw [this]; linarith

theorem dR_zero : dR 0 = 0 := by
  have : nearestR 0 = 0 := by simpa using nearestR_int 0
  simp [dR, this]

theorem dR_pos {x : ℝ} (hx : 0 < x) :
    (2 : ℝ) ^ (Int.log 2 |x|) ≤ dR x ∧ dR x ≤ (2 : ℝ) ^ (Int.log 2 |x| + 1) := by
  obtain ⟨h1, h2⟩ := nearestR_pos hx
  have hp := rpow_pos' (Int.log 2 |x| - 52)
  have h1' : ((2 ^ 52 : ℤ) : ℝ) ≤ (nearestR (x / 2 ^ (Int.log 2 |x| - 52)) : ℝ) := by exact_mod_cast h1
  have h2' : (nearestR (x / 2 ^ (Int.log 2 |x| - 52)) : ℝ) ≤ ((2 ^ 53 : ℤ) : ℝ) := by exact_mod_cast h2
  rw [← rtwo52] at h1'
  rw [← rtwo53] at h2'
  unfold dR
  constructor
  · calc (2 : ℝ) ^ (Int.log 2 |x|) = 2 ^ (52 : ℤ) * 2 ^ (Int.log 2 |x| - 52) := by
          rw [← zpow_add₀ (by norm_num)]; congr 1; ring
      _ ≤ _ := mul_le_mul_of_nonneg_right h1' hp.le
  · calc _ ≤ 2 ^ (53 : ℤ) * 2 ^ (Int.log 2 |x| - 52) := mul_le_mul_of_nonneg_right h2' hp.le
      _ = _ := by rw [← zpow_add₀ (by norm_num)]; congr 1; ring

theorem dR_neg {x : ℝ} (hx : x < 0) :
    -(2 : ℝ) ^ (Int.log 2 |x| + 1) ≤ dR x ∧ dR x ≤ -(2 : ℝ) ^ (Int.log 2 |x|) := by
  obtain ⟨h1, h2⟩ := nearestR_neg hx
  have hp := rpow_pos' (Int.log 2 |x| - 52)
  have h1' : -((2 ^ 53 : ℤ) : ℝ) ≤ (nearestR (x / 2 ^ (Int.log 2 |x| - 52)) : ℝ) := by exact_mod_cast h1
  have h2' : (nearestR (x / 2 ^ (Int.log 2 |x| - 52)) : ℝ) ≤ -((2 ^ 52 : ℤ) : ℝ) := by exact_mod_cast h2
  rw [← rtwo52] at h2'
  rw [← rtwo53] at h1'
  unfold dR
  constructor
  · calc -(2 : ℝ) ^ (Int.log 2 |x| + 1) = -2 ^ (53 : ℤ) * 2 ^ (Int.log 2 |x| - 52) := by
          rw [neg_mul, ← zpow_add₀ (by norm_num)]; congr 2; ring
      _ ≤ _ := mul_le_mul_of_nonneg_right h1' hp.le
  · calc _ ≤ -2 ^ (52 : ℤ) * 2 ^ (Int.log 2 |x| - 52) := mul_le_mul_of_nonneg_right h2' hp.le
      _ = _ := by rw [neg_mul, ← zpow_add₀ (by norm_num)]; congr 2; ring

theorem dR_mono : Monotone dR := by
  intro x y hxy
  rcases lt_trichotomy x 0 with hx | rfl | hx
  · have hdx := (dR_neg hx).2
    have hneg : dR x < 0 := lt_of_le_of_lt hdx (by have := rpow_pos' (Int.log 2 |x|); linarith)
    rcases lt_trichotomy y 0 with hy | rfl | hy
    · have hle : |y| ≤ |x| := by rw [abs_of_neg hx, abs_of_neg hy]; linarith
      have hlog := Int.log_mono_right (b := 2) (abs_pos.2 hy.ne) hle
      rcases lt_or_eq_of_le hlog with hlt | heq
      · calc dR x ≤ -(2 : ℝ) ^ (Int.log 2 |x|) := hdx
          _ ≤ -(2 : ℝ) ^ (Int.log 2 |y| + 1) := neg_le_neg (zpow_le_zpow_right₀ (by norm_num) (by omega))
          _ ≤ dR y := (dR_neg hy).1
      · unfold dR
        rw [heq]
        have hp := rpow_pos' (Int.log 2 |x| - 52)
        refine mul_le_mul_of_nonneg_right ?_ hp.le
        exact_mod_cast nearestR_mono (div_le_div_of_nonneg_right hxy hp.le)
    · rw [dR_zero]; exact hneg.le
    · exact hneg.le.trans ((rpow_pos' _).le.trans (dR_pos hy).1)
  · rw [dR_zero]
    rcases lt_or_eq_of_le hxy with hy | hy
    · exact (rpow_pos' _).le.trans (dR_pos hy).1
    · rw [← hy, dR_zero]
  · have hy : 0 < y := lt_of_lt_of_le hx hxy
    have hle : |x| ≤ |y| := by rw [abs_of_pos hx, abs_of_pos hy]; exact hxy
    have hlog := Int.log_mono_right (b := 2) (abs_pos.2 hx.ne') hle
    rcases lt_or_eq_of_le hlog with hlt | heq
    · calc dR x ≤ (2 : ℝ) ^ (Int.log 2 |x| + 1) := (dR_pos hx).2
        _ ≤ (2 : ℝ) ^ (Int.log 2 |y|) := zpow_le_zpow_right₀ (by norm_num) (by omega)
        _ ≤ dR y := (dR_pos hy).1
    · unfold dR
      rw [heq]
      have hp := rpow_pos' (Int.log 2 |y| - 52)
      refine mul_le_mul_of_nonneg_right ?_ hp.le
      exact_mod_cast nearestR_mono (div_le_div_of_nonneg_right hxy hp.le)


theorem nearestR_cast (q : ℚ) : nearestR (q : ℝ) = nearest q := by
  unfold nearestR nearest
  rw [Rat.floor_cast]
  have h1 : ((q : ℝ) - ((⌊q⌋ : ℤ) : ℝ) < 1/2) ↔ (q - ⌊q⌋ < 1/2) := by
    rw [← Rat.cast_lt (K := ℝ)]; push_cast; rfl
  have h2 : (1/2 < (q : ℝ) - ((⌊q⌋ : ℤ) : ℝ)) ↔ (1/2 < q - ⌊q⌋) := by
    rw [← Rat.cast_lt (K := ℝ)]; push_cast; rfl
  simp only [h1, h2]

theorem log_cast (q : ℚ) (hq : 0 < q) : Int.log 2 (q : ℝ) = Int.log 2 q := by
  have hq' : (0 : ℝ) < q := by exact_mod_cast hq
  have a1 : (2 : ℝ) ^ (Int.log 2 (q : ℝ)) ≤ q := by
    have := Int.zpow_log_le_self (b := 2) (by norm_num) hq'
    exact_mod_cast this
  have a2 : (q : ℝ) < (2 : ℝ) ^ (Int.log 2 (q : ℝ) + 1) := by
    have := Int.lt_zpow_succ_log_self (b := 2) (by norm_num) (q : ℝ)
    exact_mod_cast this
  have b1 : (2 : ℝ) ^ (Int.log 2 q) ≤ q := by
    have : (2 : ℚ) ^ (Int.log 2 q) ≤ q := by
      have := Int.zpow_log_le_self (b := 2) (by norm_num) hq
      exact_mod_cast this
    have := (Rat.cast_le (K := ℝ)).2 this
    push_cast at this
    exact this
  have b2 : (q : ℝ) < (2 : ℝ) ^ (Int.log 2 q + 1) := by
    have : q < (2 : ℚ) ^ (Int.log 2 q + 1) := by
      have := Int.lt_zpow_succ_log_self (b := 2) (by norm_num) q
      exact_mod_cast this
    have := (Rat.cast_lt (K := ℝ)).2 this
    push_cast at this
    exact this
  have c1 := (zpow_lt_zpow_iff_right₀ (by norm_num : (1 : ℝ) < 2)).1 (a1.trans_lt b2)
  have c2 := (zpow_lt_zpow_iff_right₀ (by norm_num : (1 : ℝ) < 2)).1 (b1.trans_lt a2)
  omega

theorem doubleR_cast (q : ℚ) : doubleR (q : ℝ) = double q := by
  unfold doubleR double
  rcases eq_or_ne q 0 with rfl | hq
  · have e1 := nearestR_cast 0
    simp only [Rat.cast_zero] at e1
    simp [e1]
  · have h : Int.log 2 |(q : ℝ)| = Int.log 2 |q| := by
      rw [← Rat.cast_abs, log_cast _ (abs_pos.2 hq)]
    rw [h, ← nearestR_cast]
    push_cast
    rfl

theorem doubleR_le {x y : ℝ} (h : x ≤ y) : doubleR x ≤ doubleR y := by
  have := dR_mono h
  rw [← dR_eq, ← dR_eq] at this
  exact_mod_cast this

/-- Floats have a rounded square root. -/
theorem sqrtDouble_root : Root double sqrtDouble := by
  constructor
  · intro x y hy h
    unfold sqrtDouble
    rw [← doubleR_cast]
    refine doubleR_le (Real.le_sqrt_of_sq_le ?_)
    exact_mod_cast h
  · intro x y hy hx h
    unfold sqrtDouble
    rw [← doubleR_cast]
    refine doubleR_le ?_
    rw [Real.sqrt_le_left (by exact_mod_cast hy)]
    exact_mod_cast h

end Verif.Rounding
