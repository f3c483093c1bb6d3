import Verif.Model.EvalFloat
import Verif.Lemmas.SimilarFloat
import Verif.Lemmas.AlignEval
import Verif.Lemmas.Agreement

namespace Verif.EvalFloat
open Verif Verif.Measure Verif.Spec Verif.Spec.Rounding Verif.AlignEval
set_option linter.unusedSectionVars false

section
variable {fl sq : ℚ → ℚ} {M : Nat}

/-! ### Sums -/

theorem sumFl_nonneg (hr : Rounding fl) {l : List ℚ} (h : ∀ x ∈ l, 0 ≤ x) : ∀ {a : ℚ}, 0 ≤ a → 0 ≤ sumFl fl a l := by
  induction l with
  | nil => intro a ha; exact ha
  | cons x l ih =>
    intro a ha
    exact ih (fun y hy => h y (by simp [hy])) (fl_nonneg hr (by have := h x (by simp); linarith))

theorem sumFl_le (hr : Rounding fl) (hw : Whole fl M) (b : Nat) {l : List ℚ} (h : ∀ x ∈ l, x ≤ b) :
    ∀ {a : ℚ} {k : Nat}, a ≤ k → k + l.length * b ≤ M → sumFl fl a l ≤ (k + l.length * b : Nat) := by
  induction l with
  | nil => intro a k ha _; simpa [sumFl] using ha
  | cons x l ih =>
    intro a k ha hM
    have hk : k + b ≤ M := by simp only [List.length_cons, Nat.succ_mul] at hM; omega
    have h1 : fl (a + x) ≤ ((k + b : Nat) : ℚ) := by
      rw [← hw _ hk]
      apply hr.mono
      have := h x (by simp)
      push_cast; linarith
    have := ih (fun y hy => h y (by simp [hy])) h1 (by simp only [List.length_cons, Nat.succ_mul] at hM; omega)
    refine le_trans this (le_of_eq ?_)
    simp only [List.length_cons, Nat.succ_mul]
    congr 1; omega

theorem sumFl_ones (hw : Whole fl M) (b : Nat) {l : List ℚ} (h : ∀ x ∈ l, x = b) :
    ∀ {k : Nat}, k + l.length * b ≤ M → sumFl fl k l = (k + l.length * b : Nat) := by
  induction l with
  | nil => intro k _; simp [sumFl]
  | cons x l ih =>
    intro k hM
    have hk : k + b ≤ M := by simp only [List.length_cons, Nat.succ_mul] at hM; omega
    have h1 : fl (k + x) = ((k + b : Nat) : ℚ) := by
      rw [← hw _ hk, h x (by simp)]; push_cast; rfl
    have := ih (fun y hy => h y (by simp [hy])) (k := k + b) (by simp only [List.length_cons, Nat.succ_mul] at hM; omega)
    show sumFl fl (fl (k + x)) l = _
    rw [h1, this]
    simp only [List.length_cons, Nat.succ_mul]
    congr 1; omega

theorem devFl_nonneg (hr : Rounding fl) (m : ℚ) {l : List ℚ} : ∀ {a : ℚ}, 0 ≤ a → 0 ≤ devFl fl m a l := by
  induction l with
  | nil => intro a ha; exact ha
  | cons x l ih =>
    intro a ha
    exact ih (fl_nonneg hr (add_nonneg ha (fl_nonneg hr (sq_nonneg _))))

theorem devFl_zero (hr : Rounding fl) {m : ℚ} {l : List ℚ} (h : ∀ x ∈ l, x = m) : devFl fl m 0 l = 0 := by
  induction l with
  | nil => rfl
  | cons x l ih =>
    show devFl fl m (fl (0 + fl (fl (x - m) ^ 2))) l = 0
    rw [h x (by simp), sub_self, hr.zero]
    norm_num [hr.zero]
    exact ih fun y hy => h y (by simp [hy])

theorem sqrtPy_ok (hr : Rounding fl) (hs : Root fl sq) {x : ℚ} (h : 0 ≤ x) : sqrtPy sq x = .ok (sq x) ∧ 0 ≤ sq x := by
  refine ⟨if_neg (not_lt.2 h), ?_⟩
  have := hs.low x 0 (le_refl _) (by simpa using h)
  rwa [hr.zero] at this

theorem pred_fl (hw : Whole fl M) {n : Nat} (h1 : 1 ≤ n) (hn : n ≤ M) : fl (fl n - 1) = (n - 1 : Nat) := by
  rw [hw n hn, ← hw (n - 1) (by omega), Nat.cast_sub h1]; norm_num

/-- The variance computed. -/
def varV (fl : ℚ → ℚ) (l : List ℚ) (m : ℚ) : ℚ := if l.length = 1 then 0 else fl (devFl fl m 0 l / (l.length - 1 : Nat))

theorem varianceFl_ok (hr : Rounding fl) (hw : Whole fl M) {l : List ℚ} (h1 : l ≠ []) (hM : l.length ≤ M) (m : ℚ) :
    varianceFl fl l m = .ok (varV fl l m) ∧ 0 ≤ varV fl l m ∧ ((∀ x ∈ l, x = m) → varV fl l m = 0) := by
  have hl := List.length_pos_iff.2 h1
  refine ⟨?_, ?_, ?_⟩
  · unfold varianceFl varV divFl
    rw [pred_fl hw hl hM]
    by_cases h : l.length = 1
    · rw [if_pos h, if_pos (by rw [h]; rfl)]; rfl
    · rw [if_neg h, if_neg (by have : l.length - 1 ≠ 0 := by omega
                               exact_mod_cast this)]
      rfl
  · unfold varV
    split
    · exact le_refl _
    · exact fl_nonneg hr (div_nonneg (devFl_nonneg hr m (le_refl _)) (Nat.cast_nonneg _))
  · intro h
    unfold varV
    split
    · rfl
    · rw [devFl_zero hr h, zero_div, hr.zero]

/-! ### Rows -/

/-- The measures computed. -/
def rowV (fl : ℚ → ℚ) (c : Counts) : Measures
  | .prec => fl (precisionOf (c .pred) (c .common))
  | .recall => fl (recallOf (c .true) (c .common))
  | .f =>
    let p := fl (precisionOf (c .pred) (c .common))
    let r := fl (recallOf (c .true) (c .common))
    if p + r = 0 then 0 else fl (fl (2 * p * r) / fl (p + r))

theorem catch_ratio_fl (hr : Rounding fl) (hw : Whole fl M) {a b : Nat} (ha : a ≤ M) (hb : b ≤ M) :
    Py.catchZeroDiv 0 (ratioFl fl a b) = .ok (fl ((a : ℚ) / b)) := by
  rw [catch_ratioFl hr hw ha hb, catch_div']; rfl

theorem ratio_unit {a b : Nat} (h : a ≤ b) : 0 ≤ (a : ℚ) / b ∧ (a : ℚ) / b ≤ 1 := by
  refine ⟨by positivity, div_le_one_of_le₀ (by exact_mod_cast h) (Nat.cast_nonneg _)⟩

theorem evalCountsFl_ok (hr : Rounding fl) (hw : Whole fl M) (hM : 2 ≤ M) (h2 : ∀ x, fl (2 * x) = 2 * fl x) {c : Counts}
    (ht : c .common ≤ c .true) (hp : c .common ≤ c .pred) (hT : c .true ≤ M) (hP : c .pred ≤ M) :
    evalCountsFl fl 1 c = .ok (rowV fl c) ∧ ∀ m, 0 ≤ rowV fl c m ∧ rowV fl c m ≤ 1 := by
  have h1 := whole_one hw (by omega)
  obtain ⟨a0, a1⟩ := ratio_unit hp
  obtain ⟨b0, b1⟩ := ratio_unit ht
  have p0 := fl_nonneg hr a0
  have p1 := fl_le_one hr h1 a1
  have r0 := fl_nonneg hr b0
  have r1 := fl_le_one hr h1 b1
  obtain ⟨e, _, q0, q1⟩ := fMeasure_fl hr hw hM h2 p0 p1 r0 r1 (hr.idem _) (hr.idem _)
  constructor
  · unfold evalCountsFl precisionFl recallFl
    have e' : fScoreFl fl 1 (fl ((c .common : ℚ) / c .pred)) (fl ((c .common : ℚ) / c .true)) =
        fMeasureFl fl 1 (fl ((c .common : ℚ) / c .pred)) (fl ((c .common : ℚ) / c .true)) := by
      unfold fScoreFl fMeasureFl
      rw [if_pos (by norm_num)]
      simp only [add_comm]
    rw [catch_ratio_fl hr hw (by omega) hP, catch_ratio_fl hr hw (by omega) hT]
    simp only [bind, Except.bind, e', e]
    congr 1
  · intro m
    cases m
    · exact ⟨p0, p1⟩
    · exact ⟨r0, r1⟩
    · exact ⟨q0, q1⟩

theorem rowV_one (hw : Whole fl M) (hM : 2 ≤ M) {c : Counts} (h1 : c .common = c .true) (h2 : c .common = c .pred)
    (h0 : c .common ≠ 0) (m : Measure) : rowV fl c m = 1 := by
  have e1 := whole_one hw (by omega)
  have e2 : fl 2 = 2 := by have := hw 2 hM; exact_mod_cast this
  have hne : (c .common : ℚ) ≠ 0 := by exact_mod_cast h0
  have p : fl (precisionOf (c .pred) (c .common)) = 1 := by rw [precisionOf, ← h2, div_self hne, e1]
  have r : fl (recallOf (c .true) (c .common)) = 1 := by rw [recallOf, ← h1, div_self hne, e1]
  cases m
  · exact p
  · exact r
  · simp only [rowV, p, r]
    norm_num [e1, e2]

/-- The mean computed. -/
def meanV (fl : ℚ → ℚ) (l : List ℚ) : ℚ := fl (sumFl fl 0 l / l.length)

theorem meanV_unit (hr : Rounding fl) (hw : Whole fl M) (hM : 1 ≤ M) {l : List ℚ} (h1 : l ≠ []) (hl : l.length ≤ M)
    (h : ∀ x ∈ l, 0 ≤ x ∧ x ≤ 1) : 0 ≤ meanV fl l ∧ meanV fl l ≤ 1 := by
  have hp : (0 : ℚ) < l.length := by exact_mod_cast List.length_pos_iff.2 h1
  have u := sumFl_le hr hw 1 (fun x hx => by simpa using (h x hx).2) (a := 0) (k := 0) (by simp) (by omega)
  have o := sumFl_nonneg hr (fun x hx => (h x hx).1) (le_refl (0 : ℚ))
  refine ⟨fl_nonneg hr (div_nonneg o hp.le), fl_le_one hr (whole_one hw hM) ((div_le_one hp).2 ?_)⟩
  simpa using u

theorem meanV_one (hw : Whole fl M) (hM : 1 ≤ M) {l : List ℚ} (h1 : l ≠ []) (hl : l.length ≤ M)
    (h : ∀ x ∈ l, x = 1) : meanV fl l = 1 := by
  have hp : (l.length : ℚ) ≠ 0 := by exact_mod_cast (List.length_pos_iff.2 h1).ne'
  have u := sumFl_ones hw 1 (fun x hx => by simpa using h x hx) (k := 0) (by omega)
  rw [Nat.cast_zero] at u
  unfold meanV
  rw [u]
  simp [div_self hp, whole_one hw hM]

/-- The table computed. -/
def tableV (fl sq : ℚ → ℚ) (t : List Counts) : TableFl :=
  let rows := t.map (rowV fl)
  let sum : Count → Nat := fun c => (t.map fun x => x c).sum
  let countMean := fun c => fl ((sum c : ℚ) / t.length)
  let countVar := fun c => varV fl (t.map fun x => fl (x c)) (countMean c)
  let macroMean := fun m => meanV fl (rows.map fun x => x m)
  let macroVar := fun m => varV fl (rows.map fun x => x m) (macroMean m)
  let microMean := rowV fl sum
  let microVar := fun m => varV fl (rows.map fun x => x m) (microMean m)
  ⟨rows, sum, countMean, countVar, fun c => sq (countVar c), macroMean, macroVar, fun m => sq (macroVar m), microMean,
    microVar, fun m => sq (microVar m)⟩

theorem sum_le_of {t : List Counts} {f g : Count} (h : ∀ x ∈ t, x f ≤ x g) :
    (t.map fun x => x f).sum ≤ (t.map fun x => x g).sum := List.sum_le_sum h

theorem le_sum {t : List Counts} {x : Counts} (hx : x ∈ t) (f : Count) : x f ≤ (t.map fun x => x f).sum :=
  List.single_le_sum (by simp) _ (List.mem_map.2 ⟨x, hx, rfl⟩)

theorem evalTableFl_ok (hr : Rounding fl) (hs : Root fl sq) (hw : Whole fl M) (hM : 2 ≤ M)
    (h2 : ∀ x, fl (2 * x) = 2 * fl x) {t : List Counts} (hne : t ≠ []) (hl : t.length ≤ M)
    (hc : ∀ x ∈ t, x .common ≤ x .true ∧ x .common ≤ x .pred)
    (hT : (t.map fun x => x .true).sum ≤ M) (hP : (t.map fun x => x .pred).sum ≤ M) :
    evalTableFl fl sq t = .ok (tableV fl sq t) := by
  have hrow : ∀ x ∈ t, evalCountsFl fl 1 x = .ok (rowV fl x) := fun x hx =>
    (evalCountsFl_ok hr hw hM h2 (hc x hx).1 (hc x hx).2 ((le_sum hx _).trans hT) ((le_sum hx _).trans hP)).1
  have hsum := evalCountsFl_ok hr hw hM h2 (c := fun c => (t.map fun x => x c).sum) (sum_le_of fun x hx => (hc x hx).1)
    (sum_le_of fun x hx => (hc x hx).2) hT hP
  have hC : (t.map fun x => x .common).sum ≤ M := (sum_le_of fun x hx => (hc x hx).1).trans hT
  have hS : ∀ c : Count, (t.map fun x => x c).sum ≤ M := by intro c; cases c <;> assumption
  have hlen := List.length_pos_iff.2 hne
  unfold evalTableFl
  have a1 : t.mapM (evalCountsFl fl 1) = .ok (t.map (rowV fl)) := mapM_eq t hrow
  have a2 : (perCount fun c => ratioFl fl (t.map fun x => x c).sum t.length) = .ok (tableV fl sq t).countMean :=
    perCount_ok fun c => by rw [ratioFl_ok hw hlen.ne' (hS c) hl]; rfl
  have a3 : (perCount fun c => varianceFl fl (t.map fun x => fl (x c)) ((tableV fl sq t).countMean c)) =
      .ok (tableV fl sq t).countVar :=
    perCount_ok fun c => (varianceFl_ok hr hw (by simpa using hne) (by simpa using hl) _).1
  have vc : ∀ c, 0 ≤ (tableV fl sq t).countVar c := fun c => by
    show 0 ≤ varV fl (t.map fun x : Counts => fl ((x c : Nat) : ℚ)) _
    exact (varianceFl_ok hr hw (l := t.map fun x : Counts => fl ((x c : Nat) : ℚ)) (by simpa using hne) (by simpa using hl) _).2.1
  have a4 : (perCount fun c => sqrtPy sq ((tableV fl sq t).countVar c)) = .ok (tableV fl sq t).countSd :=
    perCount_ok fun c => (sqrtPy_ok hr hs (vc c)).1
  have a5 : (perMeasure fun m => divFl fl (sumFl fl 0 ((t.map (rowV fl)).map fun x => x m)) (fl t.length)) =
      .ok (tableV fl sq t).macroMean := perMeasure_ok fun m => by
    unfold divFl
    rw [hw _ hl, if_neg (by exact_mod_cast hlen.ne')]
    simp only [tableV, meanV, List.length_map]
  have v : ∀ (m : Measure) (q : ℚ), varianceFl fl ((t.map (rowV fl)).map fun x => x m) q =
      .ok (varV fl ((t.map (rowV fl)).map fun x => x m) q) ∧ 0 ≤ varV fl ((t.map (rowV fl)).map fun x => x m) q := by
    intro m q
    have := varianceFl_ok hr hw (l := (t.map (rowV fl)).map fun x => x m) (by simpa using hne) (by simpa using hl) q
    exact ⟨this.1, this.2.1⟩
  have a6 : (perMeasure fun m => varianceFl fl ((t.map (rowV fl)).map fun x => x m) ((tableV fl sq t).macroMean m)) =
      .ok (tableV fl sq t).macroVar := perMeasure_ok fun m => (v m _).1
  have a7 : (perMeasure fun m => sqrtPy sq ((tableV fl sq t).macroVar m)) = .ok (tableV fl sq t).macroSd :=
    perMeasure_ok fun m => (sqrtPy_ok hr hs (v m ((tableV fl sq t).macroMean m)).2).1
  have a8 : evalCountsFl fl 1 (fun c => (t.map fun x => x c).sum) = .ok (tableV fl sq t).microMean := hsum.1
  have a9 : (perMeasure fun m => varianceFl fl ((t.map (rowV fl)).map fun x => x m) ((tableV fl sq t).microMean m)) =
      .ok (tableV fl sq t).microVar := perMeasure_ok fun m => (v m _).1
  have a10 : (perMeasure fun m => sqrtPy sq ((tableV fl sq t).microVar m)) = .ok (tableV fl sq t).microSd :=
    perMeasure_ok fun m => (sqrtPy_ok hr hs (v m ((tableV fl sq t).microMean m)).2).1
  simp only [bind, Except.bind, pure, Except.pure]
  rw [a1]
  dsimp only
  rw [a2]
  dsimp only
  rw [a3]
  dsimp only
  rw [a4]
  dsimp only
  rw [a5]
  dsimp only
  rw [a6]
  dsimp only
  rw [a7]
  dsimp only
  rw [a8]
  dsimp only
  rw [a9]
  dsimp only
  rw [a10]
  rfl

end

/-! ### Errors of sums -/

/-- The relative error of a sum of `n` floats that are not negative. -/
theorem sumFl_near {l : List ℚ} (h : ∀ x ∈ l, 0 ≤ x) : ∀ {a b : ℚ} (k : Nat), 0 ≤ b →
    (1 - 1 / 2 ^ 53) ^ k * b ≤ a → a ≤ (1 + 1 / 2 ^ 53) ^ k * b →
    (1 - 1 / 2 ^ 53) ^ (k + l.length) * (b + l.sum) ≤ sumFl double a l ∧
    sumFl double a l ≤ (1 + 1 / 2 ^ 53) ^ (k + l.length) * (b + l.sum) := by
  induction l with
  | nil => intro a b k hb h1 h2; simp only [sumFl, List.foldl_nil, List.length_nil, Nat.add_zero, List.sum_nil, add_zero]; exact ⟨h1, h2⟩
  | cons x l ih =>
    intro a b k hb h1 h2
    have hx := h x (by simp)
    have hl : (0 : ℚ) ≤ 1 - 1 / 2 ^ 53 := by norm_num
    have ha : 0 ≤ a := le_trans (mul_nonneg (pow_nonneg hl _) hb) h1
    obtain ⟨n1, n2⟩ := near_mul (x := a + x) (by linarith)
    have lp : (1 - 1 / 2 ^ 53 : ℚ) ^ k ≤ 1 := pow_le_one₀ hl (by norm_num)
    have up : (1 : ℚ) ≤ (1 + 1 / 2 ^ 53) ^ k := one_le_pow₀ (by norm_num)
    have := ih (fun y hy => h y (by simp [hy])) (a := double (a + x)) (b := b + x) (k + 1) (by linarith)
      (by
        refine le_trans ?_ n1
        rw [pow_succ (1 - 1 / 2 ^ 53 : ℚ) k, mul_comm ((1 - 1 / 2 ^ 53 : ℚ) ^ k), mul_assoc]
        apply mul_le_mul_of_nonneg_left _ hl
        have : (1 - 1 / 2 ^ 53 : ℚ) ^ k * x ≤ x := mul_le_of_le_one_left hx lp
        linarith)
      (by
        refine le_trans n2 ?_
        rw [pow_succ (1 + 1 / 2 ^ 53 : ℚ) k, mul_comm ((1 + 1 / 2 ^ 53 : ℚ) ^ k), mul_assoc]
        apply mul_le_mul_of_nonneg_left _ (by norm_num)
        have : x ≤ (1 + 1 / 2 ^ 53 : ℚ) ^ k * x := le_mul_of_one_le_left hx up
        linarith)
    show _ ≤ sumFl double (double (a + x)) l ∧ sumFl double (double (a + x)) l ≤ _
    rw [List.length_cons, List.sum_cons, show k + (l.length + 1) = k + 1 + l.length by omega, ← add_assoc]
    exact this

theorem meanV_near {l : List ℚ} (h : ∀ x ∈ l, 0 ≤ x) :
    (1 - 1 / 2 ^ 53) ^ (l.length + 1) * meanOf l ≤ meanV double l ∧
    meanV double l ≤ (1 + 1 / 2 ^ 53) ^ (l.length + 1) * meanOf l := by
  obtain ⟨s1, s2⟩ := sumFl_near h (a := 0) (b := 0) 0 (le_refl _) (by simp) (by simp)
  rw [Nat.zero_add, zero_add] at s1 s2
  have hs : 0 ≤ l.sum := List.sum_nonneg h
  have hl : (0 : ℚ) ≤ 1 - 1 / 2 ^ 53 := by norm_num
  have h0 : 0 ≤ sumFl double 0 l := le_trans (mul_nonneg (pow_nonneg hl _) hs) s1
  have hn : (0 : ℚ) ≤ l.length := Nat.cast_nonneg _
  obtain ⟨n1, n2⟩ := near_mul (div_nonneg h0 hn)
  unfold meanV meanOf
  constructor
  · refine le_trans ?_ n1
    rw [pow_succ (1 - 1 / 2 ^ 53 : ℚ) l.length, mul_comm ((1 - 1 / 2 ^ 53 : ℚ) ^ l.length), mul_assoc, ← mul_div_assoc]
    exact mul_le_mul_of_nonneg_left (div_le_div_of_nonneg_right s1 hn) hl
  · refine le_trans n2 ?_
    rw [pow_succ (1 + 1 / 2 ^ 53 : ℚ) l.length, mul_comm ((1 + 1 / 2 ^ 53 : ℚ) ^ l.length), mul_assoc,
      ← mul_div_assoc ((1 + 1 / 2 ^ 53 : ℚ) ^ l.length)]
    have hu : (0 : ℚ) ≤ 1 + 1 / 2 ^ 53 := by norm_num
    exact mul_le_mul_of_nonneg_left (div_le_div_of_nonneg_right s2 hn) hu

end Verif.EvalFloat
