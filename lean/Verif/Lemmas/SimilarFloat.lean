import Verif.Model.SimilarFloat
import Verif.Spec.Root
import Verif.Lemmas.Rounding
import Verif.Lemmas.Similar
import Verif.Lemmas.Rouge
import Verif.Lemmas.Levenshtein

namespace Verif.Measure
open Verif Verif.Spec.Rounding Verif.Similar
set_option linter.unusedSectionVars false

/-! ### Floats -/

theorem double_whole : Whole double (2 ^ 53) := by
  intro n hn
  have := Rounding.double_int n (by rw [Nat.abs_cast]; exact_mod_cast hn)
  exact_mod_cast this

theorem double_eq_zero {x : ℚ} : double x = 0 ↔ x = 0 := by
  constructor
  · intro h
    rcases lt_trichotomy x 0 with hx | hx | hx
    · have h1 := (Rounding.double_neg hx).2
      have h2 := Rounding.pow_pos' (Int.log 2 |x|)
      rw [h] at h1; linarith
    · exact hx
    · have h1 := (Rounding.double_pos hx).1
      have h2 := Rounding.pow_pos' (Int.log 2 |x|)
      rw [h] at h1; linarith
  · rintro rfl; exact Rounding.double_zero

theorem double_lt_one {x : ℚ} (h : x ≤ 1 - 1 / 2 ^ 53) : double x < 1 := by
  have h1 := Rounding.double_mono h
  have h2 := Rounding.double_rep (2 ^ 53 - 1) (-53) (by norm_num)
  have h3 : (((2 ^ 53 - 1 : ℤ)) : ℚ) * 2 ^ (-53 : ℤ) = 1 - 1 / 2 ^ 53 := by norm_num
  rw [h3] at h2
  rw [h2] at h1
  refine lt_of_le_of_lt h1 (by norm_num)

theorem double_two (x : ℚ) : double (2 * x) = 2 * double x := by
  rcases eq_or_ne x 0 with rfl | hx
  · simp [Rounding.double_zero]
  have hl : Int.log 2 |2 * x| = Int.log 2 |x| + 1 := by
    have h0 : 0 < |x| := abs_pos.2 hx
    rw [abs_mul]
    apply le_antisymm
    · have h1 : (2 : ℚ) ^ (Int.log 2 (|2| * |x|)) ≤ |2| * |x| := by
        have := Int.zpow_log_le_self (R := ℚ) (b := 2) (r := |2| * |x|) (by norm_num) (by positivity)
        exact_mod_cast this
      have h2 : |x| < (2 : ℚ) ^ (Int.log 2 |x| + 1) := by
        have := Int.lt_zpow_succ_log_self (R := ℚ) (b := 2) (by norm_num) |x|
        exact_mod_cast this
      have h3 : (2 : ℚ) ^ (Int.log 2 (|2| * |x|)) < 2 ^ (Int.log 2 |x| + 2) := by
        rw [show Int.log 2 |x| + 2 = (Int.log 2 |x| + 1) + 1 by ring, zpow_add_one₀ (by norm_num)]
        have : |(2 : ℚ)| = 2 := by norm_num
        rw [this] at h1 ⊢
        linarith
      have := (zpow_lt_zpow_iff_right₀ (by norm_num : (1 : ℚ) < 2)).1 h3
      omega
    · have h1 : (2 : ℚ) ^ (Int.log 2 |x|) ≤ |x| := by
        have := Int.zpow_log_le_self (R := ℚ) (b := 2) (r := |x|) (by norm_num) h0
        exact_mod_cast this
      have h2 : |2| * |x| < (2 : ℚ) ^ (Int.log 2 (|2| * |x|) + 1) := by
        have := Int.lt_zpow_succ_log_self (R := ℚ) (b := 2) (by norm_num) (|2| * |x|)
        exact_mod_cast this
      have h3 : (2 : ℚ) ^ (Int.log 2 |x| + 1) < 2 ^ (Int.log 2 (|2| * |x|) + 1) := by
        rw [zpow_add_one₀ (by norm_num) (Int.log 2 |x|)]
        have : |(2 : ℚ)| = 2 := by norm_num
        rw [this] at h2 ⊢
        linarith
      have := (zpow_lt_zpow_iff_right₀ (by norm_num : (1 : ℚ) < 2)).1 h3
      omega
  unfold double
  rw [hl]
  have e : (2 : ℚ) ^ (Int.log 2 |x| + 1 - 52) = 2 * 2 ^ (Int.log 2 |x| - 52) := by
    rw [show Int.log 2 |x| + 1 - 52 = (Int.log 2 |x| - 52) + 1 by ring, zpow_add_one₀ (by norm_num)]; ring
  rw [e]
  have hp := Rounding.pow_pos' (Int.log 2 |x| - 52)
  rw [mul_div_mul_left _ _ (by norm_num)]
  ring

section
variable {fl sq : ℚ → ℚ} {M : Nat}

theorem fl_nonneg (hr : Rounding fl) {x : ℚ} (h : 0 ≤ x) : 0 ≤ fl x := by
  have := hr.mono h; rwa [hr.zero] at this

theorem fl_le_one (hr : Rounding fl) (h1 : fl 1 = 1) {x : ℚ} (h : x ≤ 1) : fl x ≤ 1 := by
  have := hr.mono h; rwa [h1] at this

theorem whole_one (hw : Whole fl M) (hM : 1 ≤ M) : fl 1 = 1 := by
  have := hw 1 hM; exact_mod_cast this

/-- A quotient of counts is the exact one, rounded. -/
theorem ratioFl_eq (hw : Whole fl M) {a b : Nat} (ha : a ≤ M) (hb : b ≤ M) :
    ratioFl fl a b = (Py.div (a : ℚ) b).map fl := by
  unfold ratioFl divFl Py.div
  rw [hw a ha, hw b hb]
  split <;> rfl

theorem catch_map (hz : fl 0 = 0) (r : Py ℚ) : Py.catchZeroDiv 0 (r.map fl) = (Py.catchZeroDiv 0 r).map fl := by
  rcases r with e | q
  · cases e <;> simp [Py.catchZeroDiv, Except.map, hz]
  · rfl

theorem catch_ratioFl (hr : Rounding fl) (hw : Whole fl M) {a b : Nat} (ha : a ≤ M) (hb : b ≤ M) :
    Py.catchZeroDiv 0 (ratioFl fl a b) = (Py.catchZeroDiv 0 (Py.div (a : ℚ) b)).map fl := by
  rw [ratioFl_eq hw ha hb, catch_map hr.zero]

end

/-- A quotient of counts is rounded to 1 only if it is 1. -/
theorem double_ratio_one {a b : Nat} (h : a ≤ b) (hb : b ≤ 2 ^ 53) :
    double (if (b : ℚ) = 0 then 0 else (a : ℚ) / b) = 1 ↔ (if (b : ℚ) = 0 then 0 else (a : ℚ) / b) = 1 := by
  by_cases h0 : (b : ℚ) = 0
  · simp [h0, Rounding.double_zero]
  · rw [if_neg h0]
    have hb0 : 0 < (b : ℚ) := lt_of_le_of_ne (Nat.cast_nonneg _) (Ne.symm h0)
    constructor
    · intro h1
      by_contra hne
      have hlt : a + 1 ≤ b := by
        by_contra hc
        have : a = b := by omega
        subst this
        exact hne (div_self h0)
      have hlt' : (a : ℚ) + 1 ≤ b := by exact_mod_cast hlt
      have hbb : (b : ℚ) ≤ 2 ^ 53 := by exact_mod_cast hb
      have : (a : ℚ) / b ≤ 1 - 1 / 2 ^ 53 := by
        rw [div_le_iff₀ hb0]
        have : (1 : ℚ) / 2 ^ 53 * b ≤ 1 := by
          rw [div_mul_eq_mul_div, one_mul, div_le_one (by norm_num)]; exact hbb
        nlinarith
      have := double_lt_one this
      linarith
    · intro h1
      rw [h1]
      have := double_whole 1 (by norm_num)
      exact_mod_cast this

/-! ### Roots -/

section
variable {fl sq : ℚ → ℚ} {M : Nat}

theorem root_zero (hr : Rounding fl) (hs : Root fl sq) : sq 0 = 0 := by
  apply le_antisymm
  · have := hs.high 0 0 (le_refl _) (le_refl _) (by norm_num); rwa [hr.zero] at this
  · have := hs.low 0 0 (le_refl _) (by norm_num); rwa [hr.zero] at this

/-- The value of a count divided by the root of a count. -/
theorem rootRatio_eq (hr : Rounding fl) (hs : Root fl sq) (hw : Whole fl M) (hM : 1 ≤ M) {c p : Nat} (hc : c ^ 2 ≤ p)
    (hp : p ≤ M) :
    ∃ q, Py.catchZeroDiv 0 (rootRatioFl fl sq c p) = .ok q ∧ 0 ≤ q ∧ q ≤ 1 ∧ (p = 0 → q = 0) ∧
      (p ≠ 0 → q = fl (c / sq p) ∧ (c : ℚ) ≤ sq p ∧ 1 ≤ sq p) ∧ (c ^ 2 = p → p ≠ 0 → q = 1) := by
  have hcM : c ≤ M := le_trans (by nlinarith) (le_trans hc hp)
  have h1 := whole_one hw hM
  unfold rootRatioFl divFl
  rw [hw c hcM, hw p hp]
  by_cases h0 : p = 0
  · subst h0
    refine ⟨0, ?_, le_refl _, zero_le_one, fun _ => rfl, fun h => absurd rfl h, fun _ h => absurd rfl h⟩
    rw [if_pos (by rw [Nat.cast_zero, root_zero hr hs])]; rfl
  · have hp1 : (1 : ℚ) ≤ p := by exact_mod_cast Nat.pos_of_ne_zero h0
    have a1 : 1 ≤ sq p := by
      have := hs.low p 1 zero_le_one (by linarith); rwa [h1] at this
    have a2 : (c : ℚ) ≤ sq p := by
      have := hs.low p c (Nat.cast_nonneg _) (by exact_mod_cast hc); rwa [hw c hcM] at this
    have hpos : 0 < sq p := by linarith
    refine ⟨fl (c / sq p), ?_, fl_nonneg hr (by positivity), fl_le_one hr h1 ((div_le_one hpos).2 a2), fun h => absurd h h0,
      fun _ => ⟨rfl, a2, a1⟩, ?_⟩
    · rw [if_neg hpos.ne']; rfl
    · intro he _
      have a3 : sq p ≤ c := by
        have := hs.high p c (Nat.cast_nonneg _) (Nat.cast_nonneg _) (by rw [← he]; push_cast; exact le_refl _)
        rwa [hw c hcM] at this
      rw [le_antisymm a3 a2]
      have : (c : ℚ) ≠ 0 := by
        have : c ≠ 0 := by rintro rfl; simp at he; omega
        exact_mod_cast this
      rw [div_self this, h1]

/-- With doubles, 1 is only reached by exact quotients. -/
theorem rootRatio_one (hs : Root double sq) {c p : Nat} (hc : c ^ 2 < p) (hgap : c ^ 2 + c ≤ p) (hp : p ≤ 2 ^ 53) :
    Py.catchZeroDiv 0 (rootRatioFl double sq c p) ≠ .ok 1 := by
  obtain ⟨q, e, _, _, _, h2, _⟩ := rootRatio_eq Rounding.double_rounding hs double_whole (by norm_num) hc.le hp
  rw [e]
  intro h
  obtain ⟨h3, h4, h5⟩ := h2 (by omega)
  rw [h3, Except.ok.injEq] at h
  by_cases h0 : c = 0
  · subst h0
    simp [Rounding.double_zero] at h
  have hc1 : 1 ≤ c := Nat.pos_of_ne_zero h0
  have hcb : c < 2 ^ 27 := by
    by_contra hcon
    have : (2 ^ 27) ^ 2 ≤ c ^ 2 := Nat.pow_le_pow_left (by omega) 2
    norm_num at this hp
    omega
  have a1 : (c : ℚ) + 1 / 4 ≤ sq p := by
    have h6 := hs.low p (c + 1 / 4) (by positivity) (by
      have g1 : ((c : ℚ) ^ 2 + c) ≤ p := by exact_mod_cast hgap
      have g2 : (1 : ℚ) ≤ c := by exact_mod_cast hc1
      nlinarith)
    have h7 := Rounding.double_rep (4 * c + 1) (-2) (by
      rw [abs_of_nonneg (by positivity)]; omega)
    have h8 : ((4 * c + 1 : ℤ) : ℚ) * 2 ^ (-2 : ℤ) = (c : ℚ) + 1 / 4 := by push_cast; norm_num; ring
    rw [h8] at h7
    rwa [h7] at h6
  have hpos : 0 < sq p := by linarith
  have hlt : (c : ℚ) / sq p ≤ 1 - 1 / 2 ^ 53 := by
    have g2 : (1 : ℚ) ≤ c := by exact_mod_cast hc1
    have g3 : (c : ℚ) ≤ 134217728 := by
      have : c ≤ 134217728 := by norm_num at hcb; omega
      exact_mod_cast this
    have : (c : ℚ) / sq p ≤ c / (c + 1 / 4) := by
      apply div_le_div_of_nonneg_left (by linarith) (by linarith) a1
    refine le_trans this ?_
    rw [div_le_iff₀ (by linarith)]
    linarith
  have := double_lt_one hlt
  linarith

end

/-- The root of zero and rounding to zero. -/
theorem rootRatio_zero {sq : ℚ → ℚ} (hs : Root double sq) {c p : Nat} (hc : c ^ 2 ≤ p) (hp : p ≤ 2 ^ 53) :
    Py.catchZeroDiv 0 (rootRatioFl double sq c p) = .ok 0 ↔ c = 0 := by
  obtain ⟨q, e, _, _, h1, h2, _⟩ := rootRatio_eq Rounding.double_rounding hs double_whole (by norm_num) hc hp
  rw [e, Except.ok.injEq]
  by_cases h0 : p = 0
  · rw [h1 h0]
    have : c = 0 := by subst h0; simpa using hc
    simp [this]
  · obtain ⟨h3, h4, h5⟩ := h2 h0
    rw [h3, double_eq_zero, div_eq_zero_iff]
    constructor
    · rintro (h | h)
      · exact_mod_cast h
      · linarith
    · rintro rfl; left; simp

/-! ### The F-measure -/

section
variable {fl : ℚ → ℚ} {M : Nat}

/-- The F-measure of two floats between 0 and 1, for beta 1. -/
theorem fMeasure_fl (hr : Rounding fl) (hw : Whole fl M) (hM : 2 ≤ M) (h2 : ∀ x, fl (2 * x) = 2 * fl x) {p r : ℚ}
    (hp0 : 0 ≤ p) (hp1 : p ≤ 1) (hr0 : 0 ≤ r) (hr1 : r ≤ 1) (ep : fl p = p) (er : fl r = r) :
    fMeasureFl fl 1 p r = .ok (if p + r = 0 then 0 else fl (fl (2 * p * r) / fl (p + r))) ∧
    (p + r ≠ 0 → 0 < fl (p + r)) ∧
    0 ≤ (if p + r = 0 then 0 else fl (fl (2 * p * r) / fl (p + r))) ∧
    (if p + r = 0 then 0 else fl (fl (2 * p * r) / fl (p + r))) ≤ 1 := by
  have h1 := whole_one hw (by omega)
  have hpos : p + r ≠ 0 → 0 < fl (p + r) := by
    intro h
    have g1 : p ≤ fl (p + r) := by have := hr.mono (show p ≤ p + r by linarith); rwa [ep] at this
    have g2 : r ≤ fl (p + r) := by have := hr.mono (show r ≤ p + r by linarith); rwa [er] at this
    rcases eq_or_lt_of_le hp0 with h' | h'
    · rcases eq_or_lt_of_le hr0 with h'' | h''
      · exact absurd (by rw [← h', ← h'']; norm_num) h
      · linarith
    · linarith
  refine ⟨?_, hpos, ?_, ?_⟩
  · unfold fMeasureFl divFl
    have e2 : fl (1 + 1) = 2 := by have := hw 2 hM; norm_num at this ⊢; exact this
    simp only [one_pow, h1, one_mul, ep, e2, h2 p]
    by_cases h : p + r = 0
    · rw [if_pos h, h, hr.zero, if_pos rfl]; rfl
    · rw [if_neg h, if_neg (hpos h).ne']; rfl
  · split
    · exact le_refl _
    · rename_i h
      exact fl_nonneg hr (div_nonneg (fl_nonneg hr (by positivity)) (hpos h).le)
  · split
    · exact zero_le_one
    · rename_i h
      refine fl_le_one hr h1 ((div_le_one (hpos h)).2 (hr.mono ?_))
      nlinarith [mul_nonneg hp0 (sub_nonneg.2 hr1), mul_nonneg hr0 (sub_nonneg.2 hp1)]

theorem fMeasure_fl_comm (p r : ℚ) : (if p + r = 0 then (0 : ℚ) else fl (fl (2 * p * r) / fl (p + r))) =
    if r + p = 0 then 0 else fl (fl (2 * r * p) / fl (r + p)) := by
  rw [add_comm r p, show 2 * r * p = 2 * p * r by ring]

end

theorem near_mul {x : ℚ} (hx : 0 ≤ x) : (1 - 1 / 2 ^ 53) * x ≤ double x ∧ double x ≤ (1 + 1 / 2 ^ 53) * x := by
  have := Rounding.double_near x
  rw [abs_of_nonneg hx, abs_le] at this
  constructor <;> [have := this.1; have := this.2] <;> linarith

/-- The error of the F-measure of two quotients. -/
theorem fMeasure_near {p r : ℚ} (hp : 0 ≤ p) (hr : 0 ≤ r) :
    |(if double p + double r = 0 then (0 : ℚ) else double (double (2 * double p * double r) / double (double p + double r)))
      - 2 * p * r / (p + r)| ≤ 2 * p * r / (p + r) / 2 ^ 50 := by
  obtain ⟨p1, p2⟩ := near_mul hp
  obtain ⟨r1, r2⟩ := near_mul hr
  have hP : 0 ≤ double p := fl_nonneg Rounding.double_rounding hp
  have hR : 0 ≤ double r := fl_nonneg Rounding.double_rounding hr
  by_cases h0 : p + r = 0
  · have e1 : p = 0 := by linarith
    have e2 : r = 0 := by linarith
    subst e1; subst e2
    simp [Rounding.double_zero]
  have hpos : 0 < p + r := lt_of_le_of_ne (by linarith) (Ne.symm h0)
  set P := double p
  set R := double r
  have hPR : 0 < P + R := by
    have : (1 - 1 / 2 ^ 53 : ℚ) * (p + r) ≤ P + R := by linarith
    have h3 : (0 : ℚ) < (1 - 1 / 2 ^ 53) * (p + r) := mul_pos (by norm_num) hpos
    linarith
  rw [if_neg hPR.ne']
  have hN0 : 0 ≤ 2 * P * R := by positivity
  obtain ⟨n1, n2⟩ := near_mul hN0
  obtain ⟨d1, d2⟩ := near_mul hPR.le
  have hN : 0 ≤ double (2 * P * R) := fl_nonneg Rounding.double_rounding hN0
  set N := double (2 * P * R)
  set D := double (P + R)
  have hD : 0 < D := lt_of_lt_of_le (mul_pos (by norm_num) hPR) d1
  obtain ⟨q1, q2⟩ := near_mul (div_nonneg hN hD.le)
  have hF : 0 ≤ 2 * p * r / (p + r) := by positivity
  set F := 2 * p * r / (p + r) with hFdef
  have hFe : F * (p + r) = 2 * p * r := div_mul_cancel₀ _ h0
  -- bounds of N and D
  have hl : (0 : ℚ) < 1 - 1 / 2 ^ 53 := by norm_num
  have b1 : P * R ≤ (1 + 1 / 2 ^ 53) ^ 2 * (p * r) := by
    have := mul_le_mul p2 r2 hR (by positivity); nlinarith [this]
  have b2 : (1 - 1 / 2 ^ 53) ^ 2 * (p * r) ≤ P * R := by
    have := mul_le_mul p1 r1 (by positivity) hP; nlinarith [this]
  have c1 : N ≤ (1 + 1 / 2 ^ 53) ^ 3 * (2 * p * r) := by
    refine le_trans n2 ?_
    rw [show (1 + 1 / 2 ^ 53 : ℚ) ^ 3 * (2 * p * r) = (1 + 1 / 2 ^ 53) * (2 * ((1 + 1 / 2 ^ 53) ^ 2 * (p * r))) by ring]
    apply mul_le_mul_of_nonneg_left _ (by norm_num); linarith
  have c2 : (1 - 1 / 2 ^ 53) ^ 3 * (2 * p * r) ≤ N := by
    refine le_trans ?_ n1
    rw [show (1 - 1 / 2 ^ 53 : ℚ) ^ 3 * (2 * p * r) = (1 - 1 / 2 ^ 53) * (2 * ((1 - 1 / 2 ^ 53) ^ 2 * (p * r))) by ring]
    apply mul_le_mul_of_nonneg_left _ hl.le; linarith
  have c3 : D ≤ (1 + 1 / 2 ^ 53) ^ 2 * (p + r) := by
    refine le_trans d2 ?_
    rw [show (1 + 1 / 2 ^ 53 : ℚ) ^ 2 * (p + r) = (1 + 1 / 2 ^ 53) * ((1 + 1 / 2 ^ 53) * (p + r)) by ring]
    apply mul_le_mul_of_nonneg_left _ (by norm_num); linarith
  have c4 : (1 - 1 / 2 ^ 53) ^ 2 * (p + r) ≤ D := by
    refine le_trans ?_ d1
    rw [show (1 - 1 / 2 ^ 53 : ℚ) ^ 2 * (p + r) = (1 - 1 / 2 ^ 53) * ((1 - 1 / 2 ^ 53) * (p + r)) by ring]
    apply mul_le_mul_of_nonneg_left _ hl.le; linarith
  have u1 : N / D ≤ (1 + 1 / 2 ^ 53) ^ 3 / (1 - 1 / 2 ^ 53) ^ 2 * F := by
    rw [div_le_iff₀ hD]
    calc N ≤ (1 + 1 / 2 ^ 53) ^ 3 * (F * (p + r)) := by rw [hFe]; exact c1
      _ = (1 + 1 / 2 ^ 53) ^ 3 / (1 - 1 / 2 ^ 53) ^ 2 * F * ((1 - 1 / 2 ^ 53) ^ 2 * (p + r)) := by
        field_simp
      _ ≤ _ := by
        apply mul_le_mul_of_nonneg_left c4
        exact mul_nonneg (by norm_num) hF
  have u2 : (1 - 1 / 2 ^ 53) ^ 3 / (1 + 1 / 2 ^ 53) ^ 2 * F ≤ N / D := by
    rw [le_div_iff₀ hD]
    calc (1 - 1 / 2 ^ 53) ^ 3 / (1 + 1 / 2 ^ 53) ^ 2 * F * D
        ≤ (1 - 1 / 2 ^ 53) ^ 3 / (1 + 1 / 2 ^ 53) ^ 2 * F * ((1 + 1 / 2 ^ 53) ^ 2 * (p + r)) := by
          apply mul_le_mul_of_nonneg_left c3
          exact mul_nonneg (by norm_num) hF
      _ = (1 - 1 / 2 ^ 53) ^ 3 * (F * (p + r)) := by field_simp
      _ ≤ N := by rw [hFe]; exact c2
  have v1 : double (N / D) ≤ (1 + 1 / 2 ^ 50) * F := by
    refine le_trans q2 ?_
    refine le_trans (mul_le_mul_of_nonneg_left u1 (by norm_num)) ?_
    rw [← mul_assoc]
    apply mul_le_mul_of_nonneg_right _ hF
    norm_num
  have v2 : (1 - 1 / 2 ^ 50) * F ≤ double (N / D) := by
    refine le_trans ?_ q1
    refine le_trans ?_ (mul_le_mul_of_nonneg_left u2 hl.le)
    rw [← mul_assoc]
    apply mul_le_mul_of_nonneg_right _ hF
    norm_num
  rw [abs_le]
  constructor <;> linarith

/-! ### Counts -/

section
variable {fl sq : ℚ → ℚ} {M : Nat}

theorem ratioFl_ok (hw : Whole fl M) {a b : Nat} (h0 : b ≠ 0) (ha : a ≤ M) (hb : b ≤ M) :
    ratioFl fl a b = .ok (fl ((a : ℚ) / b)) := by
  rw [ratioFl_eq hw ha hb, Rouge.div_nat _ _ h0]; rfl

theorem count_ratio {c n : Nat} (hc : c ≤ n) (hn : n ≠ 0) : 0 ≤ (c : ℚ) / n ∧ (c : ℚ) / n ≤ 1 := by
  have : (0 : ℚ) < n := by exact_mod_cast Nat.pos_of_ne_zero hn
  exact ⟨by positivity, (div_le_one this).2 (by exact_mod_cast hc)⟩

/-- The F-measure of `c` hits of `n` and of `m`. -/
theorem fOfCounts (hr : Rounding fl) (hw : Whole fl M) (hM : 2 ≤ M) (h2 : ∀ x, fl (2 * x) = 2 * fl x) {c n m : Nat}
    (hn : c ≤ n) (hm : c ≤ m) (n0 : n ≠ 0) (m0 : m ≠ 0) (hnM : n ≤ M) (hmM : m ≤ M) :
    ∃ q, fMeasureFl fl 1 (fl ((c : ℚ) / n)) (fl ((c : ℚ) / m)) = .ok q ∧ 0 ≤ q ∧ q ≤ 1 ∧
      fMeasureFl fl 1 (fl ((c : ℚ) / m)) (fl ((c : ℚ) / n)) = .ok q ∧ (c = n → c = m → q = 1) := by
  have h1 := whole_one hw (by omega)
  obtain ⟨a0, a1⟩ := count_ratio hn n0
  obtain ⟨b0, b1⟩ := count_ratio hm m0
  have p0 := fl_nonneg hr a0
  have p1 := fl_le_one hr h1 a1
  have r0 := fl_nonneg hr b0
  have r1 := fl_le_one hr h1 b1
  obtain ⟨e, _, q0, q1⟩ := fMeasure_fl hr hw hM h2 p0 p1 r0 r1 (hr.idem _) (hr.idem _)
  obtain ⟨e', _⟩ := fMeasure_fl hr hw hM h2 r0 r1 p0 p1 (hr.idem _) (hr.idem _)
  refine ⟨_, e, q0, q1, by rw [e', fMeasure_fl_comm], ?_⟩
  intro hcn hcm
  subst hcn; subst hcm
  have : (c : ℚ) ≠ 0 := by exact_mod_cast n0
  have f2 : fl 2 = 2 := by have := hw 2 hM; exact_mod_cast this
  rw [div_self this, h1]
  norm_num [f2, h1]

theorem fOfCounts_near {c n m : Nat} (hn : c ≤ n) (hm : c ≤ m) (n0 : n ≠ 0) (m0 : m ≠ 0) (hnM : n ≤ 2 ^ 53)
    (hmM : m ≤ 2 ^ 53) :
    ∃ q f, fMeasureFl double 1 (double ((c : ℚ) / n)) (double ((c : ℚ) / m)) = .ok q ∧
      Rouge.fMeasure 1 ((c : ℚ) / n) ((c : ℚ) / m) = .ok f ∧ |q - f| ≤ f / 2 ^ 50 := by
  have hr := Rounding.double_rounding
  have h1 := whole_one double_whole (by norm_num)
  obtain ⟨a0, a1⟩ := count_ratio hn n0
  obtain ⟨b0, b1⟩ := count_ratio hm m0
  obtain ⟨e, _, _, _⟩ := fMeasure_fl hr double_whole (by norm_num) double_two (fl_nonneg hr a0) (fl_le_one hr h1 a1)
    (fl_nonneg hr b0) (fl_le_one hr h1 b1) (hr.idem _) (hr.idem _)
  refine ⟨_, _, e, Rouge.fMeasure_value 1 _ _, ?_⟩
  have : Spec.fOf 1 ((c : ℚ) / n) ((c : ℚ) / m) =
      2 * ((c : ℚ) / n) * ((c : ℚ) / m) / ((c : ℚ) / n + (c : ℚ) / m) := by
    rw [Spec.fOf]; norm_num
  rw [this]
  exact fMeasure_near a0 b0

end

variable {α : Type} [DecidableEq α]

theorem foldl_add : ∀ (l : List Nat) (n : Nat), l.foldl (· + ·) n = n + l.sum := by
  intro l; induction l with
  | nil => simp
  | cons a l ih => intro n; simp [ih, Nat.add_assoc]

theorem foldl_mul : ∀ (l : List Nat) (n : Nat), l.foldl (· * ·) n = n * l.prod := by
  intro l; induction l with
  | nil => simp
  | cons a l ih => intro n; simp [ih, Nat.mul_assoc]

theorem fold_sets (s : List α) (rest : List (List α)) :
    (rest.foldl (fun (acc : Finset α × Finset α) seq =>
      (acc.1 ∪ seq.toFinset, acc.2 ∩ seq.toFinset)) (s.toFinset, s.toFinset)).1 = allElems (s :: rest) ∧
    (rest.foldl (fun (acc : Finset α × Finset α) seq =>
      (acc.1 ∪ seq.toFinset, acc.2 ∩ seq.toFinset)) (s.toFinset, s.toFinset)).2 = common (s :: rest) := by
  have H : ∀ (rest : List (List α)) (U F : Finset α),
      (∀ x, x ∈ (rest.foldl (fun (acc : Finset α × Finset α) seq =>
        (acc.1 ∪ seq.toFinset, acc.2 ∩ seq.toFinset)) (U, F)).1 ↔ x ∈ U ∨ ∃ l ∈ rest, x ∈ l) ∧
      (∀ x, x ∈ (rest.foldl (fun (acc : Finset α × Finset α) seq =>
        (acc.1 ∪ seq.toFinset, acc.2 ∩ seq.toFinset)) (U, F)).2 ↔ x ∈ F ∧ ∀ l ∈ rest, x ∈ l) := by
    intro rest
    induction rest with
    | nil => intro U F; simp
    | cons l rest ih =>
      intro U F
      obtain ⟨h1, h2⟩ := ih (U ∪ l.toFinset) (F ∩ l.toFinset)
      refine ⟨fun x => ?_, fun x => ?_⟩
      · simp only [List.foldl_cons]; rw [h1 x]; simp [or_assoc]
      · simp only [List.foldl_cons]; rw [h2 x]; simp [and_assoc]
  obtain ⟨h1, h2⟩ := H rest s.toFinset s.toFinset
  constructor
  · ext x; rw [h1, mem_allElems]; simp
  · ext x; rw [h2, mem_common (by simp)]; simp

theorem genCosineFl_eq {fl sq : ℚ → ℚ} (ls : List (List α)) (h : ls ≠ []) : genCosineFl fl sq ls =
    Py.catchZeroDiv 0 (rootRatioFl fl sq (common ls).card (ls.map List.length).prod) := by
  cases ls with
  | nil => exact absurd rfl h
  | cons s rest =>
    simp only [genCosineFl, accumulate_common, (accumulate_eq (· * ·) s rest).1, foldl_mul]
    simp

theorem common_sq_le (ls : List (List α)) (hn : ls.length ≠ 1) (h : ls ≠ []) :
    (common ls).card ^ 2 ≤ (ls.map List.length).prod := by
  have hc := common_card_le h
  match ls, hn, h with
  | a :: b :: rest, _, _ =>
    have ha := hc a (by simp)
    have hb := hc b (by simp)
    by_cases hz0 : (common (a :: b :: rest)).card = 0
    · rw [hz0]; simp
    · have hr := prod_ge _ (Nat.pos_of_ne_zero hz0) (rest.map List.length) (by
        intro x hx
        obtain ⟨l, hl, rfl⟩ := List.mem_map.1 hx
        exact hc l (by simp [hl]))
      simp only [List.map_cons, List.prod_cons, sq]
      rw [← Nat.mul_assoc]
      exact le_trans (Nat.mul_le_mul ha hb) (Nat.le_mul_of_pos_right _ hr)

theorem common_gap (ls : List (List α)) (hn : ls.length ≠ 1) (h : ls ≠ [])
    (hlt : (common ls).card ^ 2 < (ls.map List.length).prod) :
    (common ls).card ^ 2 + (common ls).card ≤ (ls.map List.length).prod := by
  have hc := common_card_le h
  match ls, hn, h with
  | a :: b :: rest, _, _ =>
    have ha := hc a (by simp)
    have hb := hc b (by simp)
    by_cases hz0 : (common (a :: b :: rest)).card = 0
    · omega
    · have hr := prod_ge _ (Nat.pos_of_ne_zero hz0) (rest.map List.length) (by
        intro x hx
        obtain ⟨l, hl, rfl⟩ := List.mem_map.1 hx
        exact hc l (by simp [hl]))
      simp only [List.map_cons, List.prod_cons] at hlt ⊢
      rw [← Nat.mul_assoc] at hlt ⊢
      generalize (common (a :: b :: rest)).card = c at *
      generalize (rest.map List.length).prod = P at *
      by_cases h1 : c = a.length
      · by_cases h2 : c = b.length
        · rw [← h1, ← h2] at hlt ⊢
          have : 2 ≤ P := by
            by_contra h3
            have : P = 1 := by omega
            subst this
            rw [sq] at hlt; omega
          have h4 : c * c * 2 ≤ c * c * P := Nat.mul_le_mul_left _ this
          nlinarith
        · have h3 : c + 1 ≤ b.length := by omega
          have h4 := Nat.mul_le_mul ha h3
          have h5 := Nat.le_mul_of_pos_right (a.length * b.length) hr
          nlinarith
      · have h3 : c + 1 ≤ a.length := by omega
        have h4 := Nat.mul_le_mul h3 hb
        have h5 := Nat.le_mul_of_pos_right (a.length * b.length) hr
        nlinarith

theorem fMeasure_nonneg {fl : ℚ → ℚ} (hr : Rounding fl) (beta : ℚ) {p r : ℚ} (hp : 0 ≤ p) (h : 0 ≤ r) :
    ∃ q, fMeasureFl fl beta p r = .ok q ∧ 0 ≤ q := by
  unfold fMeasureFl divFl
  have hb : 0 ≤ fl (beta ^ 2) := fl_nonneg hr (sq_nonneg _)
  have hb1 : 0 ≤ fl (1 + fl (beta ^ 2)) := fl_nonneg hr (by linarith)
  have hbp : 0 ≤ fl (fl (beta ^ 2) * p) := fl_nonneg hr (mul_nonneg hb hp)
  have hd : 0 ≤ fl (fl (fl (beta ^ 2) * p) + r) := fl_nonneg hr (by linarith)
  dsimp only
  split
  · exact ⟨0, rfl, le_refl _⟩
  · exact ⟨_, rfl, fl_nonneg hr (div_nonneg (fl_nonneg hr (mul_nonneg (fl_nonneg hr (mul_nonneg hb1 hp)) h)) hd)⟩

theorem ratioFl_zero {fl : ℚ → ℚ} (hr : Rounding fl) (a : Nat) : ratioFl fl a 0 = .error .zeroDivision := by
  unfold ratioFl divFl
  rw [Nat.cast_zero, hr.zero, if_pos rfl]

end Verif.Measure
