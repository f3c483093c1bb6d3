import Verif.Lemmas.SimilarFloat

/-! With doubles, the root of a square is the number itself. -/
namespace Verif.Measure
open Verif Verif.Spec.Rounding Verif.Rounding
set_option linter.unusedSectionVars false

theorem double_pow_nat (x : ℚ) (n : Nat) : double (x * 2 ^ n) = double x * 2 ^ n := by
  induction n with
  | zero => simp
  | succ n ih =>
    rw [show x * 2 ^ (n + 1) = 2 * (x * 2 ^ n) by rw [pow_succ (2 : ℚ) n]; ring, double_two, ih, pow_succ (2 : ℚ) n]; ring

theorem double_scale (x : ℚ) (e : ℤ) : double (x * 2 ^ e) = double x * 2 ^ e := by
  obtain ⟨n, rfl | rfl⟩ := Int.eq_nat_or_neg e
  · rw [zpow_natCast]; exact double_pow_nat x n
  · have hp : (2 : ℚ) ^ n ≠ 0 := pow_ne_zero _ (by norm_num)
    have := double_pow_nat (x * 2 ^ (-(n : ℤ))) n
    rw [zpow_neg, zpow_natCast] at this ⊢
    rw [mul_assoc, inv_mul_cancel₀ hp, mul_one] at this
    rw [this, mul_assoc, mul_inv_cancel₀ hp, mul_one]

theorem log_le {x : ℚ} (hx : 0 < x) {k : ℤ} (h : x < 2 ^ (k + 1)) : Int.log 2 |x| ≤ k := by
  rw [abs_of_pos hx]
  have h1 : (2 : ℚ) ^ (Int.log 2 x) ≤ x := by
    have := Int.zpow_log_le_self (b := 2) (by norm_num) hx
    exact_mod_cast this
  have := (zpow_lt_zpow_iff_right₀ (show (1 : ℚ) < 2 by norm_num)).1 (lt_of_le_of_lt h1 h)
  omega

theorem le_log {x : ℚ} (hx : 0 < x) {k : ℤ} (h : 2 ^ k ≤ x) : k ≤ Int.log 2 |x| := by
  rw [abs_of_pos hx]
  have h1 : x < (2 : ℚ) ^ (Int.log 2 x + 1) := by
    have := Int.lt_zpow_succ_log_self (b := 2) (by norm_num) x
    exact_mod_cast this
  have := (zpow_lt_zpow_iff_right₀ (show (1 : ℚ) < 2 by norm_num)).1 (lt_of_le_of_lt h h1)
  omega

theorem double_ulp {x : ℚ} (hx : 0 < x) {k : ℤ} (h : x < 2 ^ (k + 1)) : |double x - x| ≤ 2 ^ (k - 53) := by
  have hp := pow_pos' (Int.log 2 |x| - 52)
  have h2 : double x - x = ((nearest (x / 2 ^ (Int.log 2 |x| - 52)) : ℚ) - x / 2 ^ (Int.log 2 |x| - 52)) *
      2 ^ (Int.log 2 |x| - 52) := by
    unfold double
    rw [sub_mul, div_mul_cancel₀ _ hp.ne']
  rw [h2, abs_mul, abs_of_pos hp]
  calc _ ≤ 1 / 2 * (2 : ℚ) ^ (Int.log 2 |x| - 52) := mul_le_mul_of_nonneg_right (nearest_near _) hp.le
    _ ≤ 1 / 2 * (2 : ℚ) ^ (k - 52) := by
      apply mul_le_mul_of_nonneg_left _ (by norm_num)
      exact zpow_le_zpow_right₀ (by norm_num) (by have := log_le hx h; omega)
    _ = _ := by
      rw [show k - 52 = (k - 53) + 1 by ring, zpow_add₀ (by norm_num), zpow_one]; ring

/-- A number less than one half from an integer of 53 digits. -/
theorem double_close {N : ℤ} {x : ℚ} (h1 : (2 : ℚ) ^ 52 ≤ x) (h2 : x < 2 ^ 53) (h : |x - N| < 1 / 2) : double x = N := by
  have hx : 0 < x := lt_of_lt_of_le (by norm_num) h1
  have hl : Int.log 2 |x| = 52 := by
    apply le_antisymm
    · exact log_le hx (by have : ((52 : ℤ) + 1) = ((53 : ℕ) : ℤ) := rfl
                          rw [this, zpow_natCast]; exact h2)
    · exact le_log hx (by have : (52 : ℤ) = ((52 : ℕ) : ℤ) := rfl
                          rw [this, zpow_natCast]; exact h1)
  unfold double
  rw [hl]
  norm_num
  have hf1 := Int.floor_le x
  have hf2 := Int.lt_floor_add_one x
  rw [abs_lt] at h
  rcases lt_or_ge x N with hlt | hge
  · have hfl : ⌊x⌋ = N - 1 := by rw [Int.floor_eq_iff]; push_cast; constructor <;> linarith
    unfold nearest
    rw [hfl, if_neg (by push_cast; linarith), if_pos (by push_cast; linarith)]; ring
  · have hfl : ⌊x⌋ = N := by rw [Int.floor_eq_iff]; constructor <;> linarith
    unfold nearest
    rw [hfl, if_pos (by linarith)]

theorem double_form {x : ℚ} (hx : 0 < x) (hd : double x = x) :
    ∃ N e : ℤ, x = N * 2 ^ e ∧ 2 ^ 52 ≤ N ∧ N < 2 ^ 53 := by
  obtain ⟨h1, h2⟩ := nearest_pos hx
  rcases lt_or_eq_of_le h2 with h3 | h3
  · exact ⟨_, Int.log 2 |x| - 52, by conv_lhs => rw [← hd]
                                     rfl, h1, h3⟩
  · refine ⟨2 ^ 52, Int.log 2 |x| - 52 + 1, ?_, le_refl _, by norm_num⟩
    conv_lhs => rw [← hd]
    unfold double
    rw [h3, zpow_add₀ (by norm_num), zpow_one]
    push_cast
    ring

theorem root_square {sq : ℚ → ℚ} (hs : Root double sq) {x : ℚ} (hx : 0 ≤ x) (hd : double x = x) :
    sq (double (x * x)) = x := by
  rcases eq_or_lt_of_le hx with rfl | hx
  · rw [mul_zero, double_zero, root_zero double_rounding hs]
  obtain ⟨N, e, rfl, h1, h2⟩ := double_form hx hd
  have hN1 : (2 : ℚ) ^ 52 ≤ N := by exact_mod_cast h1
  have hN2 : (N : ℚ) ≤ 2 ^ 53 - 1 := by have : N ≤ 2 ^ 53 - 1 := by omega
                                        exact_mod_cast this
  have he := pow_pos' e
  have hee : (2 : ℚ) ^ e * 2 ^ e = 2 ^ (e + e) := (zpow_add₀ (by norm_num) _ _).symm
  have hsq : ((N : ℚ) * 2 ^ e) * (N * 2 ^ e) = (N * N) * 2 ^ (e + e) := by rw [← hee]; ring
  rw [hsq, double_scale]
  -- enough: the square of N, rounded, is near the square
  suffices H : ∃ a b : ℚ, 0 ≤ a ∧ 0 ≤ b ∧ a ^ 2 ≤ double ((N : ℚ) * N) ∧ double ((N : ℚ) * N) ≤ b ^ 2 ∧
      double a = N ∧ double b = N by
    obtain ⟨a, b, a0, b0, ha, hb, da, db⟩ := H
    apply le_antisymm
    · have := hs.high (double ((N : ℚ) * N) * 2 ^ (e + e)) (b * 2 ^ e) (mul_nonneg b0 he.le)
        (mul_nonneg (le_trans (by positivity) ha) (pow_pos' _).le) (by
          rw [mul_pow, pow_two ((2 : ℚ) ^ e), hee]; exact mul_le_mul_of_nonneg_right hb (pow_pos' _).le)
      rwa [double_scale, db] at this
    · have := hs.low (double ((N : ℚ) * N) * 2 ^ (e + e)) (a * 2 ^ e) (mul_nonneg a0 he.le) (by
          rw [mul_pow, pow_two ((2 : ℚ) ^ e), hee]; exact mul_le_mul_of_nonneg_right ha (pow_pos' _).le)
      rwa [double_scale, da] at this
  rcases eq_or_lt_of_le h1 with h3 | h3
  · subst h3
    refine ⟨2 ^ 52, 2 ^ 52, by positivity, by positivity, ?_, ?_, ?_, ?_⟩
    · have := double_rep 1 104 (by norm_num)
      norm_num at this ⊢
      rw [this]
    · have := double_rep 1 104 (by norm_num)
      norm_num at this ⊢
      rw [this]
    · have := double_int (2 ^ 52) (by norm_num)
      exact_mod_cast this
    · have := double_int (2 ^ 52) (by norm_num)
      exact_mod_cast this
  · have hN3 : (2 : ℚ) ^ 52 + 1 ≤ N := by have : 2 ^ 52 + 1 ≤ N := by omega
                                          exact_mod_cast this
    have hpos : (0 : ℚ) < N * N := by have : (0 : ℚ) < N := by linarith [show (0 : ℚ) < 2 ^ 52 by norm_num]
                                      positivity
    have herr : |double ((N : ℚ) * N) - N * N| ≤ 3 / 4 * N - 9 / 64 := by
      rcases lt_or_ge ((N : ℚ) * N) (2 ^ 105) with h4 | h4
      · have := double_ulp hpos (k := 104) (by norm_num; norm_num at h4; exact h4)
        norm_num at this hN3 ⊢
        linarith
      · have h5 : ((N : ℚ) * N) < 2 ^ 106 := by norm_num at hN2 hN1 ⊢; nlinarith
        have := double_ulp hpos (k := 105) (by norm_num; norm_num at h5; exact h5)
        have h6 : (7 / 5 : ℚ) * 2 ^ 52 ≤ N := by
          by_contra h7
          push Not at h7
          norm_num at h4 h7 hN1
          nlinarith
        norm_num at this h6 ⊢
        linarith
    rw [abs_le] at herr
    refine ⟨N - 3 / 8, N + 3 / 8, ?_, ?_, ?_, ?_, ?_, ?_⟩
    · linarith [show (0 : ℚ) < 2 ^ 52 by norm_num]
    · linarith [show (0 : ℚ) < 2 ^ 52 by norm_num]
    · nlinarith
    · nlinarith
    · apply double_close
      · linarith
      · linarith
      · rw [abs_lt]; constructor <;> linarith
    · apply double_close
      · linarith
      · linarith
      · rw [abs_lt]; constructor <;> linarith

end Verif.Measure
