import Verif.Lemmas.EvalFloatTable

namespace Verif.EvalFloat
open Verif Verif.Measure Verif.Spec Verif.Spec.Rounding Verif.AlignEval

/-! ### Errors of variances -/

theorem devFl_sum (fl : ℚ → ℚ) (m : ℚ) (l : List ℚ) : ∀ a : ℚ,
    devFl fl m a l = sumFl fl a (l.map fun x => fl (fl (x - m) ^ 2)) := by
  induction l with
  | nil => intro a; rfl
  | cons x l ih => intro a; exact ih _

/-- A square of a float differs by three roundings. -/
theorem square_near (x : ℚ) : (1 - 1 / 2 ^ 53) ^ 3 * x ^ 2 ≤ double (double x ^ 2) ∧
    double (double x ^ 2) ≤ (1 + 1 / 2 ^ 53) ^ 3 * x ^ 2 := by
  have h := Rounding.double_near x
  have h0 : 0 ≤ |x| := abs_nonneg x
  have h1 : |double x| ≤ (1 + 1 / 2 ^ 53) * |x| := by
    have := abs_add_le (double x - x) x
    rw [sub_add_cancel] at this
    linarith
  have h2 : (1 - 1 / 2 ^ 53) * |x| ≤ |double x| := by
    have := abs_add_le (x - double x) (double x)
    rw [sub_add_cancel, abs_sub_comm] at this
    linarith
  have hl : (0 : ℚ) ≤ 1 - 1 / 2 ^ 53 := by norm_num
  have hu : (0 : ℚ) ≤ 1 + 1 / 2 ^ 53 := by norm_num
  have s1 := pow_le_pow_left₀ (mul_nonneg hl h0) h2 2
  have s2 := pow_le_pow_left₀ (abs_nonneg _) h1 2
  rw [sq_abs, mul_pow, sq_abs] at s1
  rw [sq_abs, mul_pow, sq_abs] at s2
  obtain ⟨n1, n2⟩ := near_mul (sq_nonneg (double x))
  constructor
  · refine le_trans ?_ n1
    rw [pow_succ' (1 - 1 / 2 ^ 53 : ℚ) 2, mul_assoc]
    exact mul_le_mul_of_nonneg_left s1 hl
  · refine le_trans n2 ?_
    rw [pow_succ' (1 + 1 / 2 ^ 53 : ℚ) 2, mul_assoc]
    exact mul_le_mul_of_nonneg_left s2 hu

theorem sum_map_between (l : List ℚ) {f g : ℚ → ℚ} {a b : ℚ} (h : ∀ x, a * g x ≤ f x ∧ f x ≤ b * g x) :
    a * (l.map g).sum ≤ (l.map f).sum ∧ (l.map f).sum ≤ b * (l.map g).sum := by
  induction l with
  | nil => simp
  | cons x l ih =>
    simp only [List.map_cons, List.sum_cons, mul_add]
    exact ⟨add_le_add (h x).1 ih.1, add_le_add (h x).2 ih.2⟩

/-- The relative error of a variance of `n` floats. -/
theorem varV_near (l : List ℚ) (m : ℚ) :
    (1 - 1 / 2 ^ 53) ^ (l.length + 4) * varOf l m ≤ varV double l m ∧
    varV double l m ≤ (1 + 1 / 2 ^ 53) ^ (l.length + 4) * varOf l m := by
  unfold varV varOf
  by_cases h1 : l.length = 1
  · rw [if_pos h1, h1]; norm_num
  rw [if_neg h1]
  by_cases h0 : l = []
  · subst h0
    simp [devFl, Rounding.double_rounding.zero]
  have hp : 0 < l.length := List.length_pos_iff.2 h0
  have hc : ((l.length - 1 : Nat) : ℚ) = (l.length : ℚ) - 1 := by rw [Nat.cast_sub hp]; norm_num
  have hn : (0 : ℚ) ≤ ((l.length - 1 : Nat) : ℚ) := Nat.cast_nonneg _
  rw [← hc, devFl_sum]
  have hnn : ∀ x ∈ l.map (fun x => double (double (x - m) ^ 2)), 0 ≤ x := by
    intro x hx
    obtain ⟨y, -, rfl⟩ := List.mem_map.1 hx
    exact fl_nonneg Rounding.double_rounding (sq_nonneg _)
  obtain ⟨s1, s2⟩ := sumFl_near hnn (a := 0) (b := 0) 0 (le_refl _) (by simp) (by simp)
  rw [Nat.zero_add, zero_add, List.length_map] at s1 s2
  obtain ⟨q1, q2⟩ := sum_map_between l (f := fun x => double (double (x - m) ^ 2)) (g := fun x => (x - m) ^ 2)
    (fun x => square_near (x - m))
  have hl : (0 : ℚ) ≤ 1 - 1 / 2 ^ 53 := by norm_num
  have hu : (0 : ℚ) ≤ 1 + 1 / 2 ^ 53 := by norm_num
  have hs : 0 ≤ (l.map fun x => (x - m) ^ 2).sum := List.sum_nonneg (by
    intro x hx
    obtain ⟨y, -, rfl⟩ := List.mem_map.1 hx
    exact sq_nonneg _)
  obtain ⟨n1, n2⟩ := near_mul (div_nonneg (sumFl_nonneg Rounding.double_rounding hnn (le_refl 0)) hn)
  constructor
  · refine le_trans ?_ n1
    rw [show l.length + 4 = (l.length + 3) + 1 by rfl, pow_succ' (1 - 1 / 2 ^ 53 : ℚ) (l.length + 3), mul_assoc, ← mul_div_assoc,
      pow_add, mul_assoc ((1 - 1 / 2 ^ 53 : ℚ) ^ l.length)]
    exact mul_le_mul_of_nonneg_left (div_le_div_of_nonneg_right
      (le_trans (mul_le_mul_of_nonneg_left q1 (pow_nonneg hl _)) s1) hn) hl
  · refine le_trans n2 ?_
    rw [show l.length + 4 = (l.length + 3) + 1 by rfl, pow_succ' (1 + 1 / 2 ^ 53 : ℚ) (l.length + 3), mul_assoc,
      ← mul_div_assoc ((1 + 1 / 2 ^ 53 : ℚ) ^ (l.length + 3)), pow_add, mul_assoc ((1 + 1 / 2 ^ 53 : ℚ) ^ l.length)]
    exact mul_le_mul_of_nonneg_left (div_le_div_of_nonneg_right
      (le_trans s2 (mul_le_mul_of_nonneg_left q2 (pow_nonneg hu _))) hn) hu

/-! ### Errors of the table of agreement -/

theorem totalV_near {labels : List String} (hn : labels.Nodup) {v : String → String → ℚ}
    (h : ∀ r ∈ labels, ∀ c ∈ labels, c ≠ r → 0 ≤ v r c) :
    (1 - 1 / 2 ^ 53) ^ (labels.length - 1 + labels.length) * (offDiagonal labels v).sum ≤ totalV double labels v ∧
    totalV double labels v ≤ (1 + 1 / 2 ^ 53) ^ (labels.length - 1 + labels.length) * (offDiagonal labels v).sum := by
  have hc0 : ∀ c ∈ labels, ∀ x ∈ column labels v c, 0 ≤ x := by
    intro c hc x hx
    obtain ⟨r, h1, h3, rfl⟩ := mem_column hx
    exact h r h1 c hc h3
  have hl : (0 : ℚ) ≤ 1 - 1 / 2 ^ 53 := by norm_num
  have hu : (0 : ℚ) ≤ 1 + 1 / 2 ^ 53 := by norm_num
  have hcol : ∀ c ∈ labels, (1 - 1 / 2 ^ 53) ^ (labels.length - 1) * (column labels v c).sum ≤ sumFl double 0 (column labels v c) ∧
      sumFl double 0 (column labels v c) ≤ (1 + 1 / 2 ^ 53) ^ (labels.length - 1) * (column labels v c).sum := by
    intro c hc
    have := sumFl_near (hc0 c hc) (a := 0) (b := 0) 0 (le_refl _) (by simp) (by simp)
    rwa [Nat.zero_add, zero_add, column_len hn hc] at this
  have hb : ∀ ls : List String, (∀ c ∈ ls, c ∈ labels) →
      (1 - 1 / 2 ^ 53) ^ (labels.length - 1) * (ls.flatMap (column labels v)).sum ≤
        (ls.map fun c => sumFl double 0 (column labels v c)).sum ∧
      (ls.map fun c => sumFl double 0 (column labels v c)).sum ≤
        (1 + 1 / 2 ^ 53) ^ (labels.length - 1) * (ls.flatMap (column labels v)).sum := by
    intro ls
    induction ls with
    | nil => intro _; simp
    | cons c ls ih =>
      intro hs
      have h1 := hcol c (hs c (by simp))
      have h2 := ih fun y hy => hs y (by simp [hy])
      simp only [List.map_cons, List.sum_cons, List.flatMap_cons, List.sum_append, mul_add]
      exact ⟨add_le_add h1.1 h2.1, add_le_add h1.2 h2.2⟩
  obtain ⟨b1, b2⟩ := hb labels fun _ h => h
  have hnn : ∀ x ∈ labels.map (fun c => sumFl double 0 (column labels v c)), 0 ≤ x := by
    intro x hx
    obtain ⟨c, hc, rfl⟩ := List.mem_map.1 hx
    exact sumFl_nonneg Rounding.double_rounding (hc0 c hc) (le_refl _)
  obtain ⟨s1, s2⟩ := sumFl_near hnn (a := 0) (b := 0) 0 (le_refl _) (by simp) (by simp)
  rw [Nat.zero_add, zero_add, List.length_map] at s1 s2
  constructor
  · refine le_trans ?_ s1
    rw [add_comm (labels.length - 1), pow_add, mul_assoc]
    exact mul_le_mul_of_nonneg_left b1 (pow_nonneg hl _)
  · refine le_trans s2 ?_
    rw [add_comm (labels.length - 1), pow_add, mul_assoc]
    exact mul_le_mul_of_nonneg_left b2 (pow_nonneg hu _)

theorem overallV_near {labels : List String} (hn : labels.Nodup) (h2 : 1 ≤ labels.length) {v : String → String → ℚ}
    (h : ∀ r ∈ labels, ∀ c ∈ labels, c ≠ r → 0 ≤ v r c) :
    (1 - 1 / 2 ^ 53) ^ (2 * labels.length) * meanOf (offDiagonal labels v) ≤ overallV double labels v ∧
    overallV double labels v ≤ (1 + 1 / 2 ^ 53) ^ (2 * labels.length) * meanOf (offDiagonal labels v) := by
  obtain ⟨s1, s2⟩ := totalV_near hn h
  have hl : (0 : ℚ) ≤ 1 - 1 / 2 ^ 53 := by norm_num
  have hu : (0 : ℚ) ≤ 1 + 1 / 2 ^ 53 := by norm_num
  have hs : 0 ≤ (offDiagonal labels v).sum := List.sum_nonneg (by
    intro x hx
    obtain ⟨c, hc, h3⟩ := List.mem_flatMap.1 hx
    obtain ⟨r, h1, h4, rfl⟩ := mem_column h3
    exact h r h1 c hc h4)
  have h0 : 0 ≤ totalV double labels v := le_trans (mul_nonneg (pow_nonneg hl _) hs) s1
  have hn' : (0 : ℚ) ≤ (offDiagonal labels v).length := Nat.cast_nonneg _
  obtain ⟨n1, n2⟩ := near_mul (div_nonneg h0 hn')
  unfold overallV meanOf
  rw [show 2 * labels.length = (labels.length - 1 + labels.length) + 1 by omega]
  constructor
  · refine le_trans ?_ n1
    rw [pow_succ' (1 - 1 / 2 ^ 53 : ℚ), mul_assoc, ← mul_div_assoc]
    exact mul_le_mul_of_nonneg_left (div_le_div_of_nonneg_right s1 hn') hl
  · refine le_trans n2 ?_
    rw [pow_succ' (1 + 1 / 2 ^ 53 : ℚ), mul_assoc, ← mul_div_assoc ((1 + 1 / 2 ^ 53 : ℚ) ^ (labels.length - 1 + labels.length))]
    exact mul_le_mul_of_nonneg_left (div_le_div_of_nonneg_right s2 hn') hu

theorem column_perm {l l' : List String} (h : l.Perm l') (v : String → String → ℚ) (c : String) :
    (column l v c).Perm (column l' v c) := (h.filter _).map _

theorem offDiagonal_perm {l l' : List String} (h : l.Perm l') (v : String → String → ℚ) :
    (offDiagonal l v).Perm (offDiagonal l' v) :=
  h.flatMap fun c _ => column_perm h v c

theorem meanOf_perm {l l' : List ℚ} (h : l.Perm l') : meanOf l = meanOf l' := by
  unfold meanOf; rw [h.sum_eq, h.length_eq]

theorem varOf_perm {l l' : List ℚ} (h : l.Perm l') (m : ℚ) : varOf l m = varOf l' m := by
  unfold varOf; rw [(h.map _).sum_eq, h.length_eq]

end Verif.EvalFloat
