import Verif.Lemmas.EvalFloat
import Verif.Lemmas.RootSquare
import Verif.Lemmas.TextAlign

/-! Lemmas about the weighted cosine with floats. -/
namespace Verif.EvalFloat
open Verif Verif.Measure Verif.Spec.Rounding Verif.Rounding
set_option linter.unusedSectionVars false

variable {fl sq : ℚ → ℚ}

/-- The dot product computed. -/
def dotV (fl : ℚ → ℚ) (v w : List ℚ) : ℚ := sumFl fl 0 (List.zipWith (fun x y => fl (x * y)) v w)

/-- The sum of squares computed. -/
def lenV (fl : ℚ → ℚ) (v : List ℚ) : ℚ := sumFl fl 0 (v.map fun x => fl (x ^ 2))

theorem lenV_nonneg (hr : Rounding fl) (v : List ℚ) : 0 ≤ lenV fl v := by
  apply sumFl_nonneg hr _ (le_refl _)
  intro x hx
  obtain ⟨y, _, rfl⟩ := List.mem_map.1 hx
  exact fl_nonneg hr (sq_nonneg y)

theorem mem_zip {f : ℚ → ℚ → ℚ} : ∀ {v w : List ℚ} {x : ℚ}, x ∈ List.zipWith f v w → ∃ a ∈ v, ∃ b ∈ w, x = f a b
  | [], w, x, h => by simp at h
  | a :: v, [], x, h => by simp at h
  | a :: v, b :: w, x, h => by
    rw [List.zipWith_cons_cons, List.mem_cons] at h
    rcases h with rfl | h
    · exact ⟨a, by simp, b, by simp, rfl⟩
    · obtain ⟨c, hc, d, hd, e⟩ := mem_zip h
      exact ⟨c, by simp [hc], d, by simp [hd], e⟩

theorem weighted_eq (hr : Rounding fl) (hs : Root fl sq) (v w : List ℚ) : weightedCosineFl fl sq v w =
    .ok (if sq (fl (lenV fl v * lenV fl w)) = 0 then 0 else fl (dotV fl v w / sq (fl (lenV fl v * lenV fl w)))) := by
  have h0 : 0 ≤ fl (lenV fl v * lenV fl w) := fl_nonneg hr (mul_nonneg (lenV_nonneg hr v) (lenV_nonneg hr w))
  unfold weightedCosineFl
  change Py.catchZeroDiv 0 (sqrtPy sq (fl (lenV fl v * lenV fl w)) >>= fun r => divFl fl (dotV fl v w) r) = _
  rw [(sqrtPy_ok hr hs h0).1]
  show Py.catchZeroDiv 0 (divFl fl (dotV fl v w) (sq (fl (lenV fl v * lenV fl w)))) = _
  unfold divFl
  split <;> rfl

theorem dot_nonneg (hr : Rounding fl) {v w : List ℚ} (hv : ∀ x ∈ v, 0 ≤ x) (hw : ∀ x ∈ w, 0 ≤ x) : 0 ≤ dotV fl v w := by
  apply sumFl_nonneg hr _ (le_refl _)
  intro x hx
  obtain ⟨a, ha, b, hb, rfl⟩ := mem_zip hx
  exact fl_nonneg hr (mul_nonneg (hv a ha) (hw b hb))

theorem dot_comm (v w : List ℚ) : dotV fl v w = dotV fl w v := by
  unfold dotV
  congr 1
  rw [List.zipWith_comm]
  simp only [mul_comm]

theorem sumFl_zero (hr : Rounding fl) {l : List ℚ} (h : ∀ x ∈ l, x = 0) : sumFl fl 0 l = 0 := by
  induction l with
  | nil => rfl
  | cons a l ih =>
    show sumFl fl (fl (0 + a)) l = 0
    rw [h a (by simp), add_zero, hr.zero]
    exact ih fun x hx => h x (by simp [hx])

theorem lenV_zero (hr : Rounding fl) {v : List ℚ} (h : ∀ x ∈ v, x = 0) : lenV fl v = 0 := by
  apply sumFl_zero hr
  intro x hx
  obtain ⟨y, hy, rfl⟩ := List.mem_map.1 hx
  rw [h y hy]; norm_num [hr.zero]

theorem dot_self (v : List ℚ) : dotV fl v v = lenV fl v := by
  unfold dotV lenV
  congr 1
  induction v with
  | nil => rfl
  | cons a v ih => rw [List.zipWith_cons_cons, List.map_cons, ih, pow_two]

theorem sumFl_ge (hr : Rounding fl) {l : List ℚ} : ∀ {a : ℚ}, fl a = a → (∀ x ∈ l, 0 ≤ x ∧ fl x = x) → 0 ≤ a →
    a ≤ sumFl fl a l ∧ (∀ x ∈ l, x ≤ sumFl fl a l) ∧ fl (sumFl fl a l) = sumFl fl a l := by
  induction l with
  | nil => intro a ha _ _; exact ⟨le_refl _, by simp, ha⟩
  | cons y l ih =>
    intro a ha h h0
    obtain ⟨y0, yf⟩ := h y (by simp)
    have h1 : a ≤ fl (a + y) := by
      have := hr.mono (show a ≤ a + y by linarith)
      rwa [ha] at this
    have h2 : y ≤ fl (a + y) := by
      have := hr.mono (show y ≤ a + y by linarith)
      rwa [yf] at this
    obtain ⟨g1, g2, g3⟩ := ih (a := fl (a + y)) (hr.idem _) (fun x hx => h x (by simp [hx])) (le_trans h0 h1)
    refine ⟨le_trans h1 g1, ?_, g3⟩
    intro x hx
    rcases List.mem_cons.1 hx with rfl | hx
    · exact le_trans h2 g1
    · exact g2 x hx

theorem lenV_pos {v : List ℚ} (h : ∃ x ∈ v, x ≠ 0) : 0 < lenV double v ∧ double (lenV double v) = lenV double v := by
  obtain ⟨x, hx, h0⟩ := h
  obtain ⟨-, g2, g3⟩ := sumFl_ge double_rounding (l := v.map fun x => double (x ^ 2)) (a := 0) double_zero (by
    intro y hy
    obtain ⟨z, _, rfl⟩ := List.mem_map.1 hy
    exact ⟨fl_nonneg double_rounding (sq_nonneg z), double_idem _⟩) (le_refl _)
  refine ⟨lt_of_lt_of_le ?_ (g2 _ (List.mem_map.2 ⟨x, hx, rfl⟩)), g3⟩
  refine lt_of_le_of_ne (fl_nonneg double_rounding (sq_nonneg x)) (Ne.symm ?_)
  rw [ne_eq, double_eq_zero]
  exact pow_ne_zero _ h0

/-- Cauchy and Schwarz. -/
theorem cauchyQ (v w : List ℚ) : (List.zipWith (· * ·) v w).sum ^ 2 ≤
    (v.map fun x => x ^ 2).sum * (w.map fun x => x ^ 2).sum := by
  have h := TextAlign.cauchy (v.map fun x : ℚ => (x : ℝ)) (w.map fun x : ℚ => (x : ℝ))
  have e1 : ∀ l : List ℚ, ((l.map fun x : ℚ => (x : ℝ)).map fun x => x ^ 2).sum = (((l.map fun x => x ^ 2).sum : ℚ) : ℝ) := by
    intro l
    induction l with
    | nil => simp
    | cons a l ih => simp only [List.map_cons, List.sum_cons, ih]; push_cast; rfl
  have e2 : ∀ v w : List ℚ, (List.zipWith (· * ·) (v.map fun x : ℚ => (x : ℝ)) (w.map fun x : ℚ => (x : ℝ))).sum =
      (((List.zipWith (· * ·) v w).sum : ℚ) : ℝ) := by
    intro v
    induction v with
    | nil => simp
    | cons a v ih =>
      intro w
      cases w with
      | nil => simp
      | cons b w => simp only [List.map_cons, List.zipWith_cons_cons, List.sum_cons, ih]; push_cast; rfl
  rw [e1, e1, e2] at h
  exact_mod_cast h

theorem sum_double_near {l : List ℚ} (h : ∀ x ∈ l, 0 ≤ x) : (1 - 1 / 2 ^ 53) * l.sum ≤ (l.map double).sum ∧
    (l.map double).sum ≤ (1 + 1 / 2 ^ 53) * l.sum := by
  induction l with
  | nil => simp
  | cons a l ih =>
    obtain ⟨i1, i2⟩ := ih fun x hx => h x (by simp [hx])
    obtain ⟨n1, n2⟩ := near_mul (h a (by simp))
    simp only [List.map_cons, List.sum_cons]
    constructor <;> linarith

theorem lenV_low (v : List ℚ) {n : Nat} (hn : v.length ≤ n) :
    (1 - 1 / 2 ^ 53) ^ (n + 1) * (v.map fun x => x ^ 2).sum ≤ lenV double v := by
  have hl : (0 : ℚ) ≤ 1 - 1 / 2 ^ 53 := by norm_num
  have hl1 : (1 - 1 / 2 ^ 53 : ℚ) ≤ 1 := by norm_num
  have hs : ∀ x ∈ v.map fun x => x ^ 2, (0 : ℚ) ≤ x := by
    intro x hx; obtain ⟨y, _, rfl⟩ := List.mem_map.1 hx; exact sq_nonneg y
  have e : lenV double v = sumFl double 0 ((v.map fun x => x ^ 2).map double) := by
    unfold lenV; rw [List.map_map]; rfl
  obtain ⟨s1, -⟩ := sumFl_near (l := (v.map fun x => x ^ 2).map double) (by
    intro x hx; obtain ⟨y, hy, rfl⟩ := List.mem_map.1 hx; exact fl_nonneg double_rounding (hs y hy)) (a := 0) (b := 0) 0
    (le_refl _) (by simp) (by simp)
  rw [Nat.zero_add, zero_add] at s1
  have s2 := (sum_double_near hs).1
  have s3 : (0 : ℚ) ≤ (v.map fun x => x ^ 2).sum := List.sum_nonneg hs
  rw [e]
  refine le_trans ?_ s1
  rw [List.length_map, List.length_map]
  generalize (v.map fun x => x ^ 2).sum = S at *
  generalize ((v.map fun x => x ^ 2).map double).sum = T at *
  generalize (1 - 1 / 2 ^ 53 : ℚ) = u at *
  calc u ^ (n + 1) * S = u ^ n * (u * S) := by rw [pow_succ u n]; ring
    _ ≤ u ^ v.length * (u * S) :=
      mul_le_mul_of_nonneg_right (pow_le_pow_of_le_one hl hl1 hn) (mul_nonneg hl s3)
    _ ≤ u ^ v.length * T := mul_le_mul_of_nonneg_left s2 (pow_nonneg hl _)

theorem dotV_high {v w : List ℚ} (hv : ∀ x ∈ v, 0 ≤ x) (hw : ∀ x ∈ w, 0 ≤ x) {n : Nat} (hn : v.length ≤ n) :
    dotV double v w ≤ (1 + 1 / 2 ^ 53) ^ (n + 1) * (List.zipWith (· * ·) v w).sum := by
  have hl : (0 : ℚ) ≤ 1 + 1 / 2 ^ 53 := by norm_num
  have hl1 : (1 : ℚ) ≤ 1 + 1 / 2 ^ 53 := by norm_num
  have hs : ∀ x ∈ List.zipWith (· * ·) v w, (0 : ℚ) ≤ x := by
    intro x hx
    obtain ⟨a, ha, b, hb, rfl⟩ := mem_zip hx
    exact mul_nonneg (hv a ha) (hw b hb)
  have e : dotV double v w = sumFl double 0 ((List.zipWith (· * ·) v w).map double) := by
    unfold dotV; rw [List.map_zipWith]
  obtain ⟨-, s1⟩ := sumFl_near (l := (List.zipWith (· * ·) v w).map double) (by
    intro x hx; obtain ⟨y, hy, rfl⟩ := List.mem_map.1 hx; exact fl_nonneg double_rounding (hs y hy)) (a := 0) (b := 0) 0
    (le_refl _) (by simp) (by simp)
  rw [Nat.zero_add, zero_add] at s1
  have s2 := (sum_double_near hs).2
  have s3 : (0 : ℚ) ≤ (List.zipWith (· * ·) v w).sum := List.sum_nonneg hs
  have hlen : (List.zipWith (· * ·) v w).length ≤ n := by rw [List.length_zipWith]; omega
  rw [e]
  refine le_trans s1 ?_
  rw [List.length_map]
  generalize (List.zipWith (· * ·) v w).length = m at *
  generalize ((List.zipWith (· * ·) v w).map double).sum = T at *
  generalize (List.zipWith (· * ·) v w).sum = S at *
  generalize (1 + 1 / 2 ^ 53 : ℚ) = u at *
  calc u ^ m * T ≤ u ^ m * (u * S) := mul_le_mul_of_nonneg_left s2 (pow_nonneg hl _)
    _ ≤ u ^ n * (u * S) := mul_le_mul_of_nonneg_right (pow_le_pow_right₀ hl1 hlen) (mul_nonneg hl s3)
    _ = u ^ (n + 1) * S := by rw [pow_succ u n]; ring

/-- How much the cosine can exceed 1. -/
theorem weighted_bound (hs : Root double sq) {v w : List ℚ} (hv : ∀ x ∈ v, 0 ≤ x) (hw : ∀ x ∈ w, 0 ≤ x) {n : Nat}
    (hn : v.length ≤ n) (hn' : w.length ≤ n) :
    (if sq (double (lenV double v * lenV double w)) = 0 then 0 else
      double (dotV double v w / sq (double (lenV double v * lenV double w)))) ≤
      (1 + 1 / 2 ^ 53) ^ (n + 2) / (1 - 1 / 2 ^ 53) ^ (n + 3) := by
  have hr := double_rounding
  have a1 := lenV_low v hn
  have a2 := lenV_low w hn'
  have a3 := dotV_high hv hw hn
  have a4 := cauchyQ v w
  have a0 := dot_nonneg hr hv hw
  have v0 : (0 : ℚ) ≤ (v.map fun x => x ^ 2).sum := List.sum_nonneg (by
    intro x hx; obtain ⟨y, _, rfl⟩ := List.mem_map.1 hx; exact sq_nonneg y)
  have w0 : (0 : ℚ) ≤ (w.map fun x => x ^ 2).sum := List.sum_nonneg (by
    intro x hx; obtain ⟨y, _, rfl⟩ := List.mem_map.1 hx; exact sq_nonneg y)
  have d0 : (0 : ℚ) ≤ (List.zipWith (· * ·) v w).sum := List.sum_nonneg (by
    intro x hx
    obtain ⟨a, ha, b, hb, rfl⟩ := mem_zip hx
    exact mul_nonneg (hv a ha) (hw b hb))
  have L0 := lenV_nonneg hr v
  have L1 := lenV_nonneg hr w
  have hu : (0 : ℚ) < 1 - 1 / 2 ^ 53 := by norm_num
  have hu1 : (1 - 1 / 2 ^ 53 : ℚ) ≤ 1 := by norm_num
  have hU : (0 : ℚ) ≤ 1 + 1 / 2 ^ 53 := by norm_num
  have near1 : ∀ {x : ℚ}, 0 ≤ x → (1 - 1 / 2 ^ 53) * x ≤ double x := fun h => (near_mul h).1
  have near2 : ∀ {x : ℚ}, 0 ≤ x → double x ≤ (1 + 1 / 2 ^ 53) * x := fun h => (near_mul h).2
  have P0 : 0 ≤ double (lenV double v * lenV double w) := fl_nonneg hr (mul_nonneg L0 L1)
  have s0 : 0 ≤ sq (double (lenV double v * lenV double w)) := (sqrtPy_ok hr hs P0).2
  have P1 := near1 (mul_nonneg L0 L1)
  generalize (v.map fun x => x ^ 2).sum = A at *
  generalize (w.map fun x => x ^ 2).sum = B at *
  generalize (List.zipWith (· * ·) v w).sum = D at *
  generalize lenV double v = L at *
  generalize lenV double w = K at *
  generalize dotV double v w = E at *
  generalize double (L * K) = P at *
  generalize (1 - 1 / 2 ^ 53 : ℚ) = u at *
  generalize (1 + 1 / 2 ^ 53 : ℚ) = U at *
  by_cases hz : sq P = 0
  · rw [if_pos hz]; positivity
  rw [if_neg hz]
  have hq : 0 < sq P := lt_of_le_of_ne s0 (Ne.symm hz)
  have hy : (u ^ (n + 2) * D) ^ 2 ≤ P := by
    have p1 : u ^ (n + 1) * A * (u ^ (n + 1) * B) ≤ L * K :=
      mul_le_mul a1 a2 (mul_nonneg (pow_nonneg hu.le _) w0) L0
    calc (u ^ (n + 2) * D) ^ 2 = u * (u * (u ^ (n + 1) * u ^ (n + 1) * D ^ 2)) := by
          rw [show n + 2 = (n + 1) + 1 from rfl, pow_succ u (n + 1)]; ring
      _ ≤ u * (1 * (u ^ (n + 1) * u ^ (n + 1) * (A * B))) := by
          apply mul_le_mul_of_nonneg_left _ hu.le
          apply mul_le_mul hu1 _ (by positivity) (by norm_num)
          exact mul_le_mul_of_nonneg_left a4 (by positivity)
      _ = u * (u ^ (n + 1) * A * (u ^ (n + 1) * B)) := by ring
      _ ≤ u * (L * K) := mul_le_mul_of_nonneg_left p1 hu.le
      _ ≤ P := P1
  have hlow := hs.low P (u ^ (n + 2) * D) (mul_nonneg (pow_nonneg hu.le _) d0) hy
  have hlow2 : u ^ (n + 3) * D ≤ sq P := by
    refine le_trans ?_ hlow
    refine le_trans (le_of_eq ?_) (near1 (mul_nonneg (pow_nonneg hu.le _) d0))
    rw [show n + 3 = (n + 2) + 1 from rfl, pow_succ u (n + 2)]; ring
  refine le_trans (near2 (div_nonneg a0 hq.le)) ?_
  rw [le_div_iff₀ (by positivity), ← mul_div_assoc, div_mul_eq_mul_div, div_le_iff₀ hq]
  calc U * E * u ^ (n + 3) ≤ U * (U ^ (n + 1) * D) * u ^ (n + 3) := by
        apply mul_le_mul_of_nonneg_right _ (by positivity)
        exact mul_le_mul_of_nonneg_left a3 hU
    _ = U ^ (n + 2) * (u ^ (n + 3) * D) := by rw [show n + 2 = (n + 1) + 1 from rfl, pow_succ U (n + 1)]; ring
    _ ≤ U ^ (n + 2) * sq P := mul_le_mul_of_nonneg_left hlow2 (by positivity)

end Verif.EvalFloat
