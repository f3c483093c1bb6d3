import Verif.Spec.Rounding
import Verif.Lemmas.Base
import Mathlib.Algebra.Order.Floor.Ring

set_option linter.unusedSectionVars false
namespace Verif.Rounding
open Verif.Spec.Rounding

theorem nearest_int (k : ℤ) : nearest k = k := by
  simp [nearest]

theorem nearest_bounds (q : ℚ) : nearest q = ⌊q⌋ ∧ q - ⌊q⌋ ≤ 1/2 ∨ nearest q = ⌊q⌋ + 1 ∧ 1/2 ≤ q - ⌊q⌋ := by
  unfold nearest
  split_ifs with h1 h2 h3
  · left; exact ⟨rfl, by linarith⟩
  · right; exact ⟨rfl, by linarith⟩
  · left; exact ⟨rfl, by linarith⟩
  · right; exact ⟨rfl, by linarith⟩

theorem nearest_mono {p q : ℚ} (h : p ≤ q) : nearest p ≤ nearest q := by
  have hf : ⌊p⌋ ≤ ⌊q⌋ := Int.floor_le_floor h
  rcases lt_or_eq_of_le hf with hlt | heq
  · rcases nearest_bounds p with ⟨e, _⟩ | ⟨e, _⟩ <;> rcases nearest_bounds q with ⟨e', _⟩ | ⟨e', _⟩ <;> omega
  · unfold nearest
    rw [heq]
    split_ifs <;> first | omega | (exfalso; linarith)

theorem pow_pos' (e : ℤ) : (0 : ℚ) < 2 ^ e := zpow_pos (by norm_num) e

theorem scaled {x : ℚ} (hx : x ≠ 0) :
    (2 : ℚ) ^ (52 : ℤ) ≤ |x| / 2 ^ (Int.log 2 |x| - 52) ∧ |x| / 2 ^ (Int.log 2 |x| - 52) < (2 : ℚ) ^ (53 : ℤ) := by
  have h0 : 0 < |x| := abs_pos.2 hx
  have h1 : (2 : ℚ) ^ (Int.log 2 |x|) ≤ |x| := by
    have := Int.zpow_log_le_self (b := 2) (by norm_num) h0
    exact_mod_cast this
  have h2 : |x| < (2 : ℚ) ^ (Int.log 2 |x| + 1) := by
    have := Int.lt_zpow_succ_log_self (b := 2) (by norm_num) |x|
    exact_mod_cast this
  have hp := pow_pos' (Int.log 2 |x| - 52)
  rw [le_div_iff₀ hp, div_lt_iff₀ hp, ← zpow_add₀ (by norm_num), ← zpow_add₀ (by norm_num)]
  refine ⟨?_, ?_⟩
  · rw [show (52 : ℤ) + (Int.log 2 |x| - 52) = Int.log 2 |x| by ring]; exact h1
  · rw [show (53 : ℤ) + (Int.log 2 |x| - 52) = Int.log 2 |x| + 1 by ring]; exact h2

theorem two52 : ((2 : ℚ) ^ (52 : ℤ)) = ((2 ^ 52 : ℤ) : ℚ) := by norm_num
theorem two53 : ((2 : ℚ) ^ (53 : ℤ)) = ((2 ^ 53 : ℤ) : ℚ) := by norm_num

theorem nearest_pos {x : ℚ} (hx : 0 < x) :
    2 ^ 52 ≤ nearest (x / 2 ^ (Int.log 2 |x| - 52)) ∧ nearest (x / 2 ^ (Int.log 2 |x| - 52)) ≤ 2 ^ 53 := by
  obtain ⟨h1, h2⟩ := scaled hx.ne'
  rw [two52] at h1
  rw [two53] at h2
  have ha : |x| = x := abs_of_pos hx
  refine ⟨?_, ?_⟩
  · rw [← nearest_int (2 ^ 52)]; refine nearest_mono ?_
    calc _ ≤ _ := h1
      _ = _ := by rw [ha]
  · conv_rhs => rw [← nearest_int (2 ^ 53)]
    refine nearest_mono ?_
    calc _ = |x| / 2 ^ (Int.log 2 |x| - 52) := by rw [ha]
      _ ≤ _ := h2.le

theorem nearest_neg {x : ℚ} (hx : x < 0) :
    -2 ^ 53 ≤ nearest (x / 2 ^ (Int.log 2 |x| - 52)) ∧ nearest (x / 2 ^ (Int.log 2 |x| - 52)) ≤ -2 ^ 52 := by
  obtain ⟨h1, h2⟩ := scaled hx.ne
  rw [two52] at h1
  rw [two53] at h2
  have ha : |x| = -x := abs_of_neg hx
  have hd : x / 2 ^ (Int.log 2 |x| - 52) = -(|x| / 2 ^ (Int.log 2 |x| - 52)) := by
    conv_lhs => rw [show x = -|x| by rw [ha]; ring]
    rw [neg_div, abs_neg, abs_abs]
  rw [hd]
  refine ⟨?_, ?_⟩
  · rw [← nearest_int (-2 ^ 53)]; refine nearest_mono ?_
    have : (((-2 ^ 53 : ℤ)) : ℚ) = -((2 ^ 53 : ℤ) : ℚ) := by norm_num
    rw [this]; linarith
  · conv_rhs => rw [← nearest_int (-2 ^ 52)]
    refine nearest_mono ?_
    have : (((-2 ^ 52 : ℤ)) : ℚ) = -((2 ^ 52 : ℤ) : ℚ) := by norm_num
    rw [this]; linarith

theorem double_zero : double 0 = 0 := by
  have : nearest 0 = 0 := by simpa using nearest_int 0
  simp [double, this]

theorem double_pos {x : ℚ} (hx : 0 < x) :
    (2 : ℚ) ^ (Int.log 2 |x|) ≤ double x ∧ double x ≤ (2 : ℚ) ^ (Int.log 2 |x| + 1) := by
  obtain ⟨h1, h2⟩ := nearest_pos hx
  have hp := pow_pos' (Int.log 2 |x| - 52)
  have h1' : ((2 ^ 52 : ℤ) : ℚ) ≤ (nearest (x / 2 ^ (Int.log 2 |x| - 52)) : ℚ) := by exact_mod_cast h1
  have h2' : (nearest (x / 2 ^ (Int.log 2 |x| - 52)) : ℚ) ≤ ((2 ^ 53 : ℤ) : ℚ) := by exact_mod_cast h2
  rw [← two52] at h1'
  rw [← two53] at h2'
  unfold double
  constructor
  · calc (2 : ℚ) ^ (Int.log 2 |x|) = 2 ^ (52 : ℤ) * 2 ^ (Int.log 2 |x| - 52) := by
          rw [← zpow_add₀ (by norm_num)]; congr 1; ring
      _ ≤ _ := mul_le_mul_of_nonneg_right h1' hp.le
  · calc _ ≤ 2 ^ (53 : ℤ) * 2 ^ (Int.log 2 |x| - 52) := mul_le_mul_of_nonneg_right h2' hp.le
      _ = _ := by rw [← zpow_add₀ (by norm_num)]; congr 1; ring

theorem double_neg {x : ℚ} (hx : x < 0) :
    -(2 : ℚ) ^ (Int.log 2 |x| + 1) ≤ double x ∧ double x ≤ -(2 : ℚ) ^ (Int.log 2 |x|) := by
  obtain ⟨h1, h2⟩ := nearest_neg hx
  have hp := pow_pos' (Int.log 2 |x| - 52)
  have h1' : -((2 ^ 53 : ℤ) : ℚ) ≤ (nearest (x / 2 ^ (Int.log 2 |x| - 52)) : ℚ) := by exact_mod_cast h1
  have h2' : (nearest (x / 2 ^ (Int.log 2 |x| - 52)) : ℚ) ≤ -((2 ^ 52 : ℤ) : ℚ) := by exact_mod_cast h2
  rw [← two52] at h2'
  rw [← two53] at h1'
  unfold double
  constructor
  · calc -(2 : ℚ) ^ (Int.log 2 |x| + 1) = -2 ^ (53 : ℤ) * 2 ^ (Int.log 2 |x| - 52) := by
          rw [neg_mul, ← zpow_add₀ (by norm_num)]; congr 2; ring
      _ ≤ _ := mul_le_mul_of_nonneg_right h1' hp.le
  · calc _ ≤ -2 ^ (52 : ℤ) * 2 ^ (Int.log 2 |x| - 52) := mul_le_mul_of_nonneg_right h2' hp.le
      _ = _ := by rw [neg_mul, ← zpow_add₀ (by norm_num)]; congr 2; ring

theorem double_mono : Monotone double := by
  intro x y hxy
  rcases lt_trichotomy x 0 with hx | rfl | hx
  · have hdx := (double_neg hx).2
    have hneg : double x < 0 := lt_of_le_of_lt hdx (by have := pow_pos' (Int.log 2 |x|); linarith)
    rcases lt_trichotomy y 0 with hy | rfl | hy
    · have hle : |y| ≤ |x| := by rw [abs_of_neg hx, abs_of_neg hy]; linarith
      have hlog := Int.log_mono_right (b := 2) (abs_pos.2 hy.ne) hle
      rcases lt_or_eq_of_le hlog with hlt | heq
      · calc double x ≤ -(2 : ℚ) ^ (Int.log 2 |x|) := hdx
          _ ≤ -(2 : ℚ) ^ (Int.log 2 |y| + 1) := neg_le_neg (zpow_le_zpow_right₀ (by norm_num) (by omega))
          _ ≤ double y := (double_neg hy).1
      · unfold double
        rw [heq]
        have hp := pow_pos' (Int.log 2 |x| - 52)
        refine mul_le_mul_of_nonneg_right ?_ hp.le
        exact_mod_cast nearest_mono (div_le_div_of_nonneg_right hxy hp.le)
    · rw [double_zero]; exact hneg.le
    · exact hneg.le.trans ((pow_pos' _).le.trans (double_pos hy).1)
  · rw [double_zero]
    rcases lt_or_eq_of_le hxy with hy | hy
    · exact (pow_pos' _).le.trans (double_pos hy).1
    · rw [← hy, double_zero]
  · have hy : 0 < y := lt_of_lt_of_le hx hxy
    have hle : |x| ≤ |y| := by rw [abs_of_pos hx, abs_of_pos hy]; exact hxy
    have hlog := Int.log_mono_right (b := 2) (abs_pos.2 hx.ne') hle
    rcases lt_or_eq_of_le hlog with hlt | heq
    · calc double x ≤ (2 : ℚ) ^ (Int.log 2 |x| + 1) := (double_pos hx).2
        _ ≤ (2 : ℚ) ^ (Int.log 2 |y|) := zpow_le_zpow_right₀ (by norm_num) (by omega)
        _ ≤ double y := (double_pos hy).1
    · unfold double
      rw [heq]
      have hp := pow_pos' (Int.log 2 |y| - 52)
      refine mul_le_mul_of_nonneg_right ?_ hp.le
      exact_mod_cast nearest_mono (div_le_div_of_nonneg_right hxy hp.le)

/-- Numbers with 53 binary digits are left alone. -/
theorem double_rep (N : ℤ) (e : ℤ) (hN : |N| ≤ 2 ^ 53) : double ((N : ℚ) * 2 ^ e) = (N : ℚ) * 2 ^ e := by
  rcases eq_or_ne N 0 with rfl | h0
  · simp [double_zero]
  set x : ℚ := (N : ℚ) * 2 ^ e with hx
  have hx0 : x ≠ 0 := mul_ne_zero (by exact_mod_cast h0) (pow_pos' e).ne'
  have hax : |x| = |(N : ℚ)| * 2 ^ e := by rw [hx, abs_mul, abs_of_pos (pow_pos' e)]
  have hlog : (2 : ℚ) ^ (Int.log 2 |x|) ≤ |x| := by
    have := Int.zpow_log_le_self (b := 2) (by norm_num) (abs_pos.2 hx0)
    exact_mod_cast this
  have hN' : |(N : ℚ)| ≤ 2 ^ (53 : ℤ) := by rw [two53]; exact_mod_cast hN
  have hle : (2 : ℚ) ^ (Int.log 2 |x|) ≤ 2 ^ (53 + e) := by
    refine hlog.trans ?_
    rw [hax, zpow_add₀ (by norm_num)]
    exact mul_le_mul_of_nonneg_right hN' (pow_pos' e).le
  have hL : Int.log 2 |x| ≤ 53 + e := (zpow_le_zpow_iff_right₀ (by norm_num : (1 : ℚ) < 2)).1 hle
  have hint : ∃ M : ℤ, x / 2 ^ (Int.log 2 |x| - 52) = M := by
    have hdiv : x / 2 ^ (Int.log 2 |x| - 52) = (N : ℚ) * 2 ^ (e - (Int.log 2 |x| - 52)) := by
      rw [hx, mul_div_assoc, ← zpow_sub₀ (by norm_num)]
    rw [hdiv]
    by_cases hc : Int.log 2 |x| ≤ 52 + e
    · obtain ⟨k, hk⟩ : ∃ k : ℕ, e - (Int.log 2 |x| - 52) = k := ⟨(e - (Int.log 2 |x| - 52)).toNat, by omega⟩
      refine ⟨N * 2 ^ k, ?_⟩
      rw [hk]; push_cast; rw [zpow_natCast]
    · have hL' : Int.log 2 |x| = 53 + e := by omega
      have h53 : (2 : ℚ) ^ (53 : ℤ) ≤ |(N : ℚ)| := by
        rw [hL', hax, zpow_add₀ (by norm_num)] at hlog
        exact le_of_mul_le_mul_right hlog (pow_pos' e)
      have heq : |(N : ℚ)| = ((2 ^ 53 : ℤ) : ℚ) := by rw [← two53]; exact le_antisymm hN' h53
      have heq' : |N| = 2 ^ 53 := by exact_mod_cast heq
      rw [hL', show e - (53 + e - 52) = -1 by ring]
      rcases abs_choice N with h | h
      · refine ⟨2 ^ 52, ?_⟩
        rw [show N = 2 ^ 53 by omega]; norm_num
      · refine ⟨-2 ^ 52, ?_⟩
        rw [show N = -2 ^ 53 by omega]; norm_num
  obtain ⟨M, hM⟩ := hint
  unfold double
  rw [hM, nearest_int, ← hM]
  exact div_mul_cancel₀ _ (pow_pos' _).ne'

theorem double_idem (x : ℚ) : double (double x) = double x := by
  rcases lt_trichotomy x 0 with hx | rfl | hx
  · conv_lhs => rw [double.eq_def x]
    conv_rhs => rw [double.eq_def x]
    apply double_rep
    obtain ⟨h1, h2⟩ := nearest_neg hx
    rw [abs_le]; constructor <;> omega
  · rw [double_zero, double_zero]
  · conv_lhs => rw [double.eq_def x]
    conv_rhs => rw [double.eq_def x]
    apply double_rep
    obtain ⟨h1, h2⟩ := nearest_pos hx
    rw [abs_le]; constructor <;> omega

theorem double_rounding : Rounding double := ⟨double_mono, double_zero, double_idem⟩

theorem double_int (z : ℤ) (hz : |z| ≤ 2 ^ 53) : double z = z := by
  simpa using double_rep z 0 hz

/-- The error of the nearest integer. -/
theorem nearest_near (q : ℚ) : |(nearest q : ℚ) - q| ≤ 1/2 := by
  have h1 := Int.floor_le q
  have h2 := Int.lt_floor_add_one q
  rw [abs_le]
  rcases nearest_bounds q with ⟨e, h⟩ | ⟨e, h⟩ <;> rw [e] <;> push_cast <;> constructor <;> linarith

/-- The error of a rounded number. -/
theorem double_near (x : ℚ) : |double x - x| ≤ |x| / 2 ^ 53 := by
  rcases eq_or_ne x 0 with rfl | hx
  · simp [double_zero]
  have hp := pow_pos' (Int.log 2 |x| - 52)
  have h1 : (2 : ℚ) ^ (Int.log 2 |x|) ≤ |x| := by
    have := Int.zpow_log_le_self (b := 2) (by norm_num) (abs_pos.2 hx)
    exact_mod_cast this
  have h2 : double x - x = ((nearest (x / 2 ^ (Int.log 2 |x| - 52)) : ℚ) - x / 2 ^ (Int.log 2 |x| - 52)) *
      2 ^ (Int.log 2 |x| - 52) := by
    unfold double
    rw [sub_mul, div_mul_cancel₀ _ hp.ne']
  rw [h2, abs_mul, abs_of_pos hp]
  have h3 := mul_le_mul_of_nonneg_right (nearest_near (x / 2 ^ (Int.log 2 |x| - 52))) hp.le
  refine h3.trans ?_
  rw [zpow_sub₀ (by norm_num)]
  have h52 : ((2 : ℚ) ^ (52 : ℤ)) = 2 ^ 52 := by norm_num
  rw [h52]
  have e : (1/2 : ℚ) * (2 ^ (Int.log 2 |x|) / 2 ^ 52) = 2 ^ (Int.log 2 |x|) / 2 ^ 53 := by ring
  rw [e]
  exact div_le_div_of_nonneg_right h1 (by norm_num)

end Verif.Rounding
