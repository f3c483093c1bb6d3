import Verif.Lemmas.EvalFloatVar
import Verif.Lemmas.RoundingReal
import Verif.Lemmas.WeightedFloat
import Verif.Props.Agreement

/-! Property C82: the evaluation scores as they are computed, with floats. -/
namespace Verif.Props.EvalFloat
open Verif Verif.Measure Verif.Spec Verif.Spec.Rounding Verif.AlignEval Verif.Agreement Verif.EvalFloat

/-- Counts of predictions of which no more are common than are true or predicted. -/
def Consistent (t : List Counts) : Prop := ∀ x ∈ t, x .common ≤ x .true ∧ x .common ≤ x .pred

/-- What a user expects of a table of scores: precision and recall are the exact ones, rounded once; everything is between 0
and 1; no variance is negative and each deviation is the root of its variance. -/
structure IsScores (fl sq : ℚ → ℚ) (t : List Counts) (s : TableFl) : Prop where
  length : s.rows.length = t.length
  rows : ∀ (i : Nat) (c : Counts), t[i]? = some c → ∃ m : Measures, s.rows[i]? = some m ∧
    m .prec = fl (precisionOf (c .pred) (c .common)) ∧ m .recall = fl (recallOf (c .true) (c .common)) ∧
    ∀ k, 0 ≤ m k ∧ m k ≤ 1
  sums : ∀ k, s.sum k = (t.map fun x => x k).sum
  countMeans : ∀ k, s.countMean k = fl (meanOf (t.map fun x => (x k : ℚ)))
  micro : s.microMean .prec = fl (precisionOf (s.sum .pred) (s.sum .common)) ∧
    s.microMean .recall = fl (recallOf (s.sum .true) (s.sum .common))
  means : ∀ k, (0 ≤ s.macroMean k ∧ s.macroMean k ≤ 1) ∧ 0 ≤ s.microMean k ∧ s.microMean k ≤ 1
  variances : ∀ k, 0 ≤ s.macroVar k ∧ 0 ≤ s.microVar k
  countVariances : ∀ k, 0 ≤ s.countVar k
  deviations : ∀ k, s.macroSd k = sq (s.macroVar k) ∧ s.microSd k = sq (s.microVar k) ∧ 0 ≤ s.macroSd k ∧ 0 ≤ s.microSd k
  countDeviations : ∀ k, s.countSd k = sq (s.countVar k) ∧ 0 ≤ s.countSd k

private theorem sums_consistent {t : List Counts} (h : Consistent t) :
    (t.map fun x => x .common).sum ≤ (t.map fun x => x .true).sum ∧
    (t.map fun x => x .common).sum ≤ (t.map fun x => x .pred).sum :=
  ⟨sum_le_of fun x hx => (h x hx).1, sum_le_of fun x hx => (h x hx).2⟩

private theorem cast_sum (l : List Nat) : ((l.map fun n : Nat => (n : ℚ)).sum) = (l.sum : ℚ) := by
  induction l with
  | nil => rfl
  | cons a l ih => rw [List.map_cons, List.sum_cons, List.sum_cons, ih, Nat.cast_add]

/-- C82: evaluating a table with at least one comparison never raises (no square root of a negative number) for any rounding
that keeps the integers up to `M` and doubles, and the scores are what a user expects. -/
theorem table_scores {fl sq : ℚ → ℚ} {M : Nat} (hr : Rounding fl) (hs : Root fl sq) (hw : Whole fl M) (hM : 2 ≤ M)
    (h2 : ∀ x, fl (2 * x) = 2 * fl x) {t : List Counts} (hne : t ≠ []) (hc : Consistent t) (hl : t.length ≤ M)
    (hT : (t.map fun x => x .true).sum ≤ M) (hP : (t.map fun x => x .pred).sum ≤ M) :
    ∃ s, evalTableFl fl sq t = .ok s ∧ IsScores fl sq t s := by
  refine ⟨tableV fl sq t, evalTableFl_ok hr hs hw hM h2 hne hl hc hT hP, ?_⟩
  have hrow : ∀ x ∈ t, ∀ k, 0 ≤ rowV fl x k ∧ rowV fl x k ≤ 1 := fun x hx =>
    (evalCountsFl_ok hr hw hM h2 (hc x hx).1 (hc x hx).2 ((le_sum hx _).trans hT) ((le_sum hx _).trans hP)).2
  have hmic := (evalCountsFl_ok hr hw hM h2 (c := fun c => (t.map fun x => x c).sum) (sums_consistent hc).1
    (sums_consistent hc).2 hT hP).2
  have hvals : ∀ k : Measure, ∀ x ∈ (t.map (rowV fl)).map fun m : Measures => m k, 0 ≤ x ∧ x ≤ 1 := by
    intro k x hx
    simp only [List.map_map, List.mem_map, Function.comp_apply] at hx
    obtain ⟨c, h1, rfl⟩ := hx
    exact hrow c h1 k
  have sq0 : ∀ {x : ℚ}, 0 ≤ x → 0 ≤ sq x := fun hx => (sqrtPy_ok hr hs hx).2
  refine ⟨?_, ?_, fun _ => rfl, ?_, ⟨rfl, rfl⟩, ?_, ?_, ?_, ?_, ?_⟩
  · simp [tableV]
  · intro i c h
    refine ⟨rowV fl c, ?_, rfl, rfl, hrow c (List.mem_of_getElem? h)⟩
    simp [tableV, h]
  · intro k
    simp only [tableV, meanOf, List.length_map]
    rw [← cast_sum, List.map_map]
    rfl
  · intro k
    exact ⟨meanV_unit hr hw (by omega) (by simpa using hne) (by simpa using hl) (hvals k), hmic k⟩
  · intro k
    exact ⟨varV_nonneg hr _ _, varV_nonneg hr _ _⟩
  · intro k
    exact varV_nonneg hr _ _
  · intro k
    exact ⟨rfl, rfl, sq0 (varV_nonneg hr _ _), sq0 (varV_nonneg hr _ _)⟩
  · intro k
    exact ⟨rfl, sq0 (varV_nonneg hr _ _)⟩

/-- C82: without a comparison the evaluation raises ZeroDivisionError. -/
theorem empty_table {fl sq : ℚ → ℚ} (hr : Rounding fl) : evalTableFl fl sq [] = .error .zeroDivision := by
  unfold evalTableFl perCount ratioFl divFl
  simp [hr.zero, bind, Except.bind, pure, Except.pure]

/-- C82: if all predictions are right (and there are some in each comparison), all scores are exactly 1 and their
deviations exactly 0. -/
theorem perfect {fl sq : ℚ → ℚ} {M : Nat} (hr : Rounding fl) (hs : Root fl sq) (hw : Whole fl M) (hM : 2 ≤ M)
    (h2 : ∀ x, fl (2 * x) = 2 * fl x) {t : List Counts} (hne : t ≠ []) (hl : t.length ≤ M)
    (hc : ∀ x ∈ t, x .common = x .true ∧ x .common = x .pred ∧ x .common ≠ 0)
    (hT : (t.map fun x => x .true).sum ≤ M) :
    ∃ s, evalTableFl fl sq t = .ok s ∧ (∀ m ∈ s.rows, ∀ k, m k = 1) ∧
      ∀ k, s.macroMean k = 1 ∧ s.microMean k = 1 ∧ s.macroSd k = 0 ∧ s.microSd k = 0 := by
  have hP : (t.map fun x => x .pred) = t.map fun x => x .true :=
    List.map_congr_left fun x hx => (hc x hx).2.1.symm.trans (hc x hx).1
  have hC : (t.map fun x => x .common) = t.map fun x => x .true := List.map_congr_left fun x hx => (hc x hx).1
  have hrows : ∀ m ∈ t.map (rowV fl), ∀ k, m k = 1 := by
    intro m hm k
    obtain ⟨c, h1, rfl⟩ := List.mem_map.1 hm
    exact rowV_one hw hM (hc c h1).1 (hc c h1).2.1 (hc c h1).2.2 k
  have hvals : ∀ k : Measure, ∀ x ∈ (t.map (rowV fl)).map fun m : Measures => m k, x = 1 := by
    intro k x hx
    obtain ⟨m, h1, rfl⟩ := List.mem_map.1 hx
    exact hrows m h1 k
  have hmac : ∀ k, (tableV fl sq t).macroMean k = 1 := fun k =>
    meanV_one hw (by omega) (l := (t.map (rowV fl)).map fun m : Measures => m k) (by simpa using hne) (by simpa using hl)
      (hvals k)
  have hmic : ∀ k, (tableV fl sq t).microMean k = 1 := by
    intro k
    show rowV fl (fun c => (t.map fun x => x c).sum) k = 1
    refine rowV_one hw hM ?_ ?_ ?_ k
    · show (t.map fun x => x .common).sum = (t.map fun x => x .true).sum
      rw [hC]
    · show (t.map fun x => x .common).sum = (t.map fun x => x .pred).sum
      rw [hC, hP]
    · show (t.map fun x => x .common).sum ≠ 0
      intro h0
      obtain ⟨x, hx⟩ := List.exists_mem_of_ne_nil t hne
      have := le_sum hx .common
      exact (hc x hx).2.2 (by omega)
  have hvar : ∀ k, varV fl ((t.map (rowV fl)).map fun m : Measures => m k) 1 = 0 := fun k =>
    (varianceFl_ok hr hw (l := (t.map (rowV fl)).map fun m : Measures => m k) (by simpa using hne) (by simpa using hl)
      1).2.2 (hvals k)
  refine ⟨tableV fl sq t, evalTableFl_ok hr hs hw hM h2 hne hl
    (fun x hx => ⟨(hc x hx).1.le, (hc x hx).2.1.le⟩) hT (by rw [hP]; exact hT), hrows, ?_⟩
  intro k
  refine ⟨hmac k, hmic k, ?_, ?_⟩
  · show sq (varV fl ((t.map (rowV fl)).map fun m : Measures => m k) ((tableV fl sq t).macroMean k)) = 0
    rw [hmac k, hvar k, root_zero hr hs]
  · show sq (varV fl ((t.map (rowV fl)).map fun m : Measures => m k) ((tableV fl sq t).microMean k)) = 0
    rw [hmic k, hvar k, root_zero hr hs]

private theorem fOf_one (p r : ℚ) : fOf 1 p r = 2 * p * r / (p + r) := by unfold fOf; norm_num

private theorem row_near (c : Counts) :
    |rowV double c .f - fOf 1 (precisionOf (c .pred) (c .common)) (recallOf (c .true) (c .common))| ≤
      fOf 1 (precisionOf (c .pred) (c .common)) (recallOf (c .true) (c .common)) / 2 ^ 50 := by
  rw [fOf_one]
  exact fMeasure_near (by unfold precisionOf; positivity) (by unfold recallOf; positivity)

private theorem near_general {M : Nat} (hW : Whole double M) (h2 : 2 ≤ M) {t : List Counts} (hne : t ≠ []) (hc : Consistent t) (hl : t.length ≤ M)
    (hT : (t.map fun x => x .true).sum ≤ M) (hP : (t.map fun x => x .pred).sum ≤ M) :
    ∃ s, evalTableFl double sqrtDouble t = .ok s ∧ s.rows.length = t.length ∧
      (∀ (i : Nat) (c : Counts) (m : Measures), t[i]? = some c → s.rows[i]? = some m →
        |m .f - fOf 1 (precisionOf (c .pred) (c .common)) (recallOf (c .true) (c .common))| ≤
          fOf 1 (precisionOf (c .pred) (c .common)) (recallOf (c .true) (c .common)) / 2 ^ 50) ∧
      |s.microMean .f - fOf 1 (precisionOf (s.sum .pred) (s.sum .common)) (recallOf (s.sum .true) (s.sum .common))| ≤
        fOf 1 (precisionOf (s.sum .pred) (s.sum .common)) (recallOf (s.sum .true) (s.sum .common)) / 2 ^ 50 ∧
      ∀ k, (1 - 1 / 2 ^ 53) ^ (t.length + 1) * meanOf (s.rows.map fun m => m k) ≤ s.macroMean k ∧
        s.macroMean k ≤ (1 + 1 / 2 ^ 53) ^ (t.length + 1) * meanOf (s.rows.map fun m => m k) := by
  have hr := Rounding.double_rounding
  have hrow : ∀ x ∈ t, ∀ k, 0 ≤ rowV double x k := fun x hx k =>
    ((evalCountsFl_ok hr hW h2 double_two (hc x hx).1 (hc x hx).2 ((le_sum hx _).trans hT) ((le_sum hx _).trans hP)).2 k).1
  refine ⟨tableV double sqrtDouble t, evalTableFl_ok hr Rounding.sqrtDouble_root hW h2 double_two hne hl hc hT hP,
    by simp [tableV], ?_, ?_, ?_⟩
  · intro i c m h1 h3
    have : m = rowV double c := by
      have h4 : (t.map (rowV double))[i]? = some m := h3
      rw [List.getElem?_map, h1] at h4
      exact (Option.some.inj h4).symm
    subst this
    exact row_near c
  · have hmic := row_near (fun c => (t.map fun x => x c).sum)
    exact hmic
  · intro k
    have := meanV_near (l := (t.map (rowV double)).map fun m : Measures => m k) (by
      intro x hx
      obtain ⟨m, h1, rfl⟩ := List.mem_map.1 hx
      obtain ⟨c, h3, rfl⟩ := List.mem_map.1 h1
      exact hrow c h3 k)
    rw [List.length_map, List.length_map] at this
    exact this

/-- C82: with doubles, each F is within the 2^50th part of the exact F, and a macro mean of n values differs from the exact
mean of these values at most by the factors (1 - 2^-53)^(n+1) and (1 + 2^-53)^(n+1). -/
theorem table_near {t : List Counts} (hne : t ≠ []) (hc : Consistent t) (hl : t.length ≤ 2 ^ 53)
    (hT : (t.map fun x => x .true).sum ≤ 2 ^ 53) (hP : (t.map fun x => x .pred).sum ≤ 2 ^ 53) :
    ∃ s, evalTableFl double sqrtDouble t = .ok s ∧ s.rows.length = t.length ∧
      (∀ (i : Nat) (c : Counts) (m : Measures), t[i]? = some c → s.rows[i]? = some m →
        |m .f - fOf 1 (precisionOf (c .pred) (c .common)) (recallOf (c .true) (c .common))| ≤
          fOf 1 (precisionOf (c .pred) (c .common)) (recallOf (c .true) (c .common)) / 2 ^ 50) ∧
      |s.microMean .f - fOf 1 (precisionOf (s.sum .pred) (s.sum .common)) (recallOf (s.sum .true) (s.sum .common))| ≤
        fOf 1 (precisionOf (s.sum .pred) (s.sum .common)) (recallOf (s.sum .true) (s.sum .common)) / 2 ^ 50 ∧
      ∀ k, (1 - 1 / 2 ^ 53) ^ (t.length + 1) * meanOf (s.rows.map fun m => m k) ≤ s.macroMean k ∧
        s.macroMean k ≤ (1 + 1 / 2 ^ 53) ^ (t.length + 1) * meanOf (s.rows.map fun m => m k) :=
  near_general double_whole (by norm_num) hne hc hl hT hP

/-- `n` roundings away from the exact value. -/
def Within (n : Nat) (exact x : ℚ) : Prop :=
  (1 - 1 / 2 ^ 53) ^ n * exact ≤ x ∧ x ≤ (1 + 1 / 2 ^ 53) ^ n * exact

private theorem variance_general {M : Nat} (hW : Whole double M) (h2 : 2 ≤ M) {t : List Counts} (hne : t ≠ [])
    (hc : Consistent t) (hl : t.length ≤ M) (hT : (t.map fun x => x .true).sum ≤ M) (hP : (t.map fun x => x .pred).sum ≤ M) :
    ∃ s, evalTableFl double sqrtDouble t = .ok s ∧
      (∀ k, Within (t.length + 4) (varOf (t.map fun x => (x k : ℚ)) (s.countMean k)) (s.countVar k)) ∧
      ∀ k, Within (t.length + 4) (varOf (s.rows.map fun m => m k) (s.macroMean k)) (s.macroVar k) ∧
        Within (t.length + 4) (varOf (s.rows.map fun m => m k) (s.microMean k)) (s.microVar k) := by
  have hC : (t.map fun x => x .common).sum ≤ M := (sums_consistent hc).1.trans hT
  refine ⟨tableV double sqrtDouble t,
    evalTableFl_ok Rounding.double_rounding Rounding.sqrtDouble_root hW h2 double_two hne hl hc hT hP, ?_, ?_⟩
  · intro k
    have e : (t.map fun x => (x k : ℚ)) = t.map fun x => double (x k) := by
      refine List.map_congr_left fun x hx => (hW _ ?_).symm
      have := le_sum hx k
      cases k <;> omega
    rw [e]
    have := varV_near (t.map fun x => double (x k)) ((tableV double sqrtDouble t).countMean k)
    rw [List.length_map] at this
    exact this
  · intro k
    have := fun q => varV_near ((t.map (rowV double)).map fun m : Measures => m k) q
    rw [List.length_map, List.length_map] at this
    exact ⟨this _, this _⟩

/-- C82: with doubles, each variance of n values is within the factors (1 - 2^-53)^(n+4) and (1 + 2^-53)^(n+4) of the sum of
the squared distances to the mean, divided by n - 1 (0 for a single value). -/
theorem variance_near {t : List Counts} (hne : t ≠ []) (hc : Consistent t) (hl : t.length ≤ 2 ^ 53)
    (hT : (t.map fun x => x .true).sum ≤ 2 ^ 53) (hP : (t.map fun x => x .pred).sum ≤ 2 ^ 53) :
    ∃ s, evalTableFl double sqrtDouble t = .ok s ∧
      (∀ k, Within (t.length + 4) (varOf (t.map fun x => (x k : ℚ)) (s.countMean k)) (s.countVar k)) ∧
      ∀ k, Within (t.length + 4) (varOf (s.rows.map fun m => m k) (s.macroMean k)) (s.macroVar k) ∧
        Within (t.length + 4) (varOf (s.rows.map fun m => m k) (s.microMean k)) (s.microVar k) :=
  variance_general double_whole (by norm_num) hne hc hl hT hP

/-- Two comparisons: 3 of 4 predictions right, with 5 to find, and 1 of 1, with 3 to find. -/
private def twoRows : List Counts :=
  [fun | .true => 5 | .pred => 4 | .common => 3, fun | .true => 3 | .pred => 1 | .common => 1]

example : twoRows ≠ [] ∧ Consistent twoRows ∧ twoRows.length ≤ 2 ^ 53 ∧ (twoRows.map fun x => x .true).sum ≤ 2 ^ 53 ∧
    (twoRows.map fun x => x .pred).sum ≤ 2 ^ 53 := by
  refine ⟨by simp [twoRows], ?_, by decide, by decide, by decide⟩
  intro x hx
  simp only [twoRows, List.mem_cons, List.not_mem_nil, or_false] at hx
  rcases hx with rfl | rfl <;> exact ⟨by decide, by decide⟩

/-- Its first F is 0.6666666666666665, although 2/3 is 0.6666666666666666 as a float. -/
example : (evalCountsFl double 1 (fun | .true => 5 | .pred => 4 | .common => 3)).map (fun m => m .f) =
    .ok (6004799503160660 / 2 ^ 53) ∧ double (2 / 3) = 6004799503160661 / 2 ^ 53 := by decide +kernel

/-- What a user expects of a table of agreement: the cells are the scores, the means and the overall mean are between 0 and 1,
the deviations are not negative. -/
structure IsFloatTable (annotators : List String) (v : String → String → ℚ) (d : Table) : Prop where
  cells : ∀ t ∈ annotators, ∀ p ∈ annotators, t ≠ p → cell d t p = .ok (v t p)
  means : ∀ p ∈ annotators, ∃ x, cell d "mean" p = .ok x ∧ 0 ≤ x ∧ x ≤ 1
  mean : ∃ x, cell d "mean" "overall" = .ok x ∧ 0 ≤ x ∧ x ≤ 1
  deviations : ∀ p ∈ annotators, ∃ x, cell d "SD" p = .ok x ∧ 0 ≤ x
  deviation : ∃ x, cell d "SD" "overall" = .ok x ∧ 0 ≤ x

private theorem statistics {fl sq : ℚ → ℚ} {M : Nat} (hr : Rounding fl) (hs : Root fl sq) (hw : Whole fl M)
    {annotators : List String} (hn : annotators.Nodup) (h2 : 2 ≤ annotators.length)
    (hM : annotators.length * (annotators.length - 1) ≤ M)
    (hu : "mean" ∉ annotators ∧ "SD" ∉ annotators ∧ "overall" ∉ annotators) {names : List (String × String)}
    (hd : names.Nodup) (hm : ∀ t p, (t, p) ∈ names ↔ t ∈ annotators ∧ p ∈ annotators ∧ t ≠ p) {rows : List Measures}
    (hl : names.length = rows.length) {m : Measure} {v : String → String → ℚ}
    (hv : ∀ x ∈ names.zip rows, x.2 m = v x.1.1 x.1.2) :
    ∃ labels d, labels.Perm annotators ∧ tableizeFl fl sq names rows m = .ok d ∧ DeviatedFl fl sq labels v d := by
  have hp := labelsOf_perm hn h2 hm
  have hmem : ∀ a, a ∈ labelsOf names ↔ a ∈ annotators := fun a => hp.mem_iff
  have hu' : Unreserved (labelsOf names) := by
    simpa only [Unreserved, hmem] using hu
  have hn' : (labelsOf names).Nodup := hp.nodup_iff.2 hn
  have h2' : 2 ≤ (labelsOf names).length := by rw [hp.length_eq]; exact h2
  have hM' : (labelsOf names).length * ((labelsOf names).length - 1) ≤ M := by rw [hp.length_eq]; exact hM
  obtain ⟨d, e1, e2, e3, e4⟩ := fill_ok hd hl hv (labels := labelsOf names)
    (fun x hx => (hmem _).2 ((hm x.1 x.2).1 hx).1)
  have hR : Reads (labelsOf names) v d := by
    intro r hr c hc hne
    exact e2 (r, c) ((hm r c).2 ⟨(hmem _).1 hr, (hmem _).1 hc, fun e => hne e.symm⟩)
  obtain ⟨d1, f1, f2⟩ := calculateAvFl_ok (fl := fl) hw hu' hn' h2' hM' hR e3 e4
  obtain ⟨d2, g1, g2⟩ := calculateSdFl_ok hr hs hw hu' hn' h2' hM' f2
  refine ⟨labelsOf names, d2, hp, ?_, g2⟩
  simp only [tableizeFl, calculateStatisticsFl, e1, f1, bind, Except.bind]; exact g1

/-- C82: the table of agreement of at least two annotators with names that are not titles never raises, for any rounding that
keeps the integers up to the number of comparisons. -/
theorem agreement_table {fl sq : ℚ → ℚ} {M : Nat} (hr : Rounding fl) (hs : Root fl sq) (hw : Whole fl M)
    {annotators : List String} (hn : annotators.Nodup) (h2 : 2 ≤ annotators.length)
    (hM : annotators.length * (annotators.length - 1) ≤ M)
    (hu : "mean" ∉ annotators ∧ "SD" ∉ annotators ∧ "overall" ∉ annotators) {names : List (String × String)}
    (hd : names.Nodup) (hm : ∀ t p, (t, p) ∈ names ↔ t ∈ annotators ∧ p ∈ annotators ∧ t ≠ p) {rows : List Measures}
    (hl : names.length = rows.length) {m : Measure} {v : String → String → ℚ}
    (hv : ∀ x ∈ names.zip rows, x.2 m = v x.1.1 x.1.2)
    (h01 : ∀ t ∈ annotators, ∀ p ∈ annotators, t ≠ p → 0 ≤ v t p ∧ v t p ≤ 1) :
    ∃ d, tableizeFl fl sq names rows m = .ok d ∧ IsFloatTable annotators v d := by
  obtain ⟨labels, d, hp, e, g⟩ := statistics hr hs hw hn h2 hM hu hd hm hl hv
  have hmem : ∀ a, a ∈ labels ↔ a ∈ annotators := fun a => hp.mem_iff
  have hn' : labels.Nodup := hp.nodup_iff.2 hn
  rw [← hp.length_eq] at h2 hM
  have hp2 : 2 ≤ labels.length * (labels.length - 1) := by
    calc 2 = 2 * 1 := rfl
      _ ≤ _ := Nat.mul_le_mul h2 (by omega)
  have hl1 : labels.length - 1 ≤ M := by
    nlinarith [Nat.le_mul_of_pos_left (labels.length - 1) (show 0 < labels.length by omega)]
  have h01' : ∀ r ∈ labels, ∀ c ∈ labels, c ≠ r → 0 ≤ v r c ∧ v r c ≤ 1 := fun r h1 c h3 hne =>
    h01 r ((hmem _).1 h1) c ((hmem _).1 h3) fun e => hne e.symm
  have sq0 : ∀ {x : ℚ}, 0 ≤ x → 0 ≤ sq x := fun hx => (sqrtPy_ok hr hs hx).2
  refine ⟨d, e, ?_, ?_, ⟨_, g.overall, overallV_unit hr hw hn' h2 hM h01'⟩, ?_, ⟨_, g.sdAll, sq0 (varV_nonneg hr _ _)⟩⟩
  · intro t ht p hp' hne
    exact g.reads t ((hmem _).2 ht) p ((hmem _).2 hp') fun e => hne e.symm
  · intro p hp'
    have hc := (hmem _).2 hp'
    have hlen := column_len hn' hc v
    refine ⟨_, g.means p hc, meanV_unit hr hw (by omega) ?_ (by omega) ?_⟩
    · intro h0
      rw [h0, List.length_nil] at hlen; omega
    · intro x hx
      obtain ⟨r, h1, h3, rfl⟩ := mem_column hx
      exact h01' r h1 p hc h3
  · intro p hp'
    exact ⟨_, g.sds p ((hmem _).2 hp'), sq0 (varV_nonneg hr _ _)⟩

private theorem agreement_general {M : Nat} (hW : Whole double M) {annotators : List String} (hn : annotators.Nodup) (h2 : 2 ≤ annotators.length)
    (hM : annotators.length * (annotators.length - 1) ≤ M)
    (hu : "mean" ∉ annotators ∧ "SD" ∉ annotators ∧ "overall" ∉ annotators) {names : List (String × String)}
    (hd : names.Nodup) (hm : ∀ t p, (t, p) ∈ names ↔ t ∈ annotators ∧ p ∈ annotators ∧ t ≠ p) {rows : List Measures}
    (hl : names.length = rows.length) {m : Measure} {v : String → String → ℚ}
    (hv : ∀ x ∈ names.zip rows, x.2 m = v x.1.1 x.1.2)
    (h0 : ∀ t ∈ annotators, ∀ p ∈ annotators, t ≠ p → 0 ≤ v t p) :
    ∃ d, tableizeFl double sqrtDouble names rows m = .ok d ∧
      (∀ p ∈ annotators, ∃ x w, cell d "mean" p = .ok x ∧ cell d "SD" p = .ok (sqrtDouble w) ∧
        Within annotators.length (meanOf (column annotators v p)) x ∧
        Within (annotators.length + 3) (varOf (column annotators v p) x) w) ∧
      ∃ x w, cell d "mean" "overall" = .ok x ∧ cell d "SD" "overall" = .ok (sqrtDouble w) ∧
        Within (2 * annotators.length) (meanOf (offDiagonal annotators v)) x ∧
        Within (annotators.length * (annotators.length - 1) + 4) (varOf (offDiagonal annotators v) x) w := by
  obtain ⟨labels, d, hp, e, g⟩ := statistics Rounding.double_rounding Rounding.sqrtDouble_root hW hn h2 hM hu hd hm hl hv
  have hmem : ∀ a, a ∈ labels ↔ a ∈ annotators := fun a => hp.mem_iff
  have hn' : labels.Nodup := hp.nodup_iff.2 hn
  have h0' : ∀ r ∈ labels, ∀ c ∈ labels, c ≠ r → 0 ≤ v r c := fun r h1 c h3 hne =>
    h0 r ((hmem _).1 h1) c ((hmem _).1 h3) fun e => hne e.symm
  have h2' : 2 ≤ labels.length := by rw [hp.length_eq]; exact h2
  refine ⟨d, e, ?_, _, _, g.overall, g.sdAll, ?_, ?_⟩
  · intro p hp'
    have hc := (hmem _).2 hp'
    have hlen := column_len hn' hc v
    refine ⟨_, _, g.means p hc, g.sds p hc, ?_, ?_⟩
    · have := meanV_near (l := column labels v p) (by
        intro x hx
        obtain ⟨r, h1, h3, rfl⟩ := mem_column hx
        exact h0' r h1 p hc h3)
      rw [hlen, show labels.length - 1 + 1 = annotators.length by rw [hp.length_eq]; omega,
        meanOf_perm (column_perm hp v p)] at this
      exact this
    · have := varV_near (column labels v p) (meanV double (column labels v p))
      rw [hlen, show labels.length - 1 + 4 = annotators.length + 3 by rw [hp.length_eq]; omega,
        varOf_perm (column_perm hp v p)] at this
      exact this
  · have := overallV_near hn' (by omega) h0'
    rw [hp.length_eq, meanOf_perm (offDiagonal_perm hp v)] at this
    exact this
  · have := varV_near (offDiagonal labels v) (overallV double labels v)
    rw [offDiagonal_len hn', hp.length_eq, varOf_perm (offDiagonal_perm hp v)] at this
    exact this

/-- C82: with doubles, the mean of the scores of an annotator in the table of agreement of n annotators is n roundings away from
the exact mean, that of all scores 2n; the deviations are the roots of variances that are n + 3 and n(n - 1) + 4 roundings away
from the exact ones. -/
theorem agreement_near {annotators : List String} (hn : annotators.Nodup) (h2 : 2 ≤ annotators.length)
    (hM : annotators.length * (annotators.length - 1) ≤ 2 ^ 53)
    (hu : "mean" ∉ annotators ∧ "SD" ∉ annotators ∧ "overall" ∉ annotators) {names : List (String × String)}
    (hd : names.Nodup) (hm : ∀ t p, (t, p) ∈ names ↔ t ∈ annotators ∧ p ∈ annotators ∧ t ≠ p) {rows : List Measures}
    (hl : names.length = rows.length) {m : Measure} {v : String → String → ℚ}
    (hv : ∀ x ∈ names.zip rows, x.2 m = v x.1.1 x.1.2)
    (h0 : ∀ t ∈ annotators, ∀ p ∈ annotators, t ≠ p → 0 ≤ v t p) :
    ∃ d, tableizeFl double sqrtDouble names rows m = .ok d ∧
      (∀ p ∈ annotators, ∃ x w, cell d "mean" p = .ok x ∧ cell d "SD" p = .ok (sqrtDouble w) ∧
        Within annotators.length (meanOf (column annotators v p)) x ∧
        Within (annotators.length + 3) (varOf (column annotators v p) x) w) ∧
      ∃ x w, cell d "mean" "overall" = .ok x ∧ cell d "SD" "overall" = .ok (sqrtDouble w) ∧
        Within (2 * annotators.length) (meanOf (offDiagonal annotators v)) x ∧
        Within (annotators.length * (annotators.length - 1) + 4) (varOf (offDiagonal annotators v) x) w :=
  agreement_general double_whole hn h2 hM hu hd hm hl hv h0

/-- C82: if the annotators agree completely, all means are exactly 1 and all deviations exactly 0. -/
theorem full_agreement {fl sq : ℚ → ℚ} {M : Nat} (hr : Rounding fl) (hs : Root fl sq) (hw : Whole fl M)
    {annotators : List String} (hn : annotators.Nodup) (h2 : 2 ≤ annotators.length)
    (hM : annotators.length * (annotators.length - 1) ≤ M)
    (hu : "mean" ∉ annotators ∧ "SD" ∉ annotators ∧ "overall" ∉ annotators) {names : List (String × String)}
    (hd : names.Nodup) (hm : ∀ t p, (t, p) ∈ names ↔ t ∈ annotators ∧ p ∈ annotators ∧ t ≠ p) {rows : List Measures}
    (hl : names.length = rows.length) {m : Measure} (h1 : ∀ x ∈ rows, x m = 1) :
    ∃ d, tableizeFl fl sq names rows m = .ok d ∧
      (∀ p ∈ annotators ++ ["overall"], cell d "mean" p = .ok 1 ∧ cell d "SD" p = .ok 0) := by
  obtain ⟨labels, d, hp, e, g⟩ := statistics (v := fun _ _ => 1) hr hs hw hn h2 hM hu hd hm hl
    (fun x hx => h1 _ (List.of_mem_zip hx).2)
  have hmem : ∀ a, a ∈ labels ↔ a ∈ annotators := fun a => hp.mem_iff
  have hn' : labels.Nodup := hp.nodup_iff.2 hn
  rw [← hp.length_eq] at h2 hM
  have hp2 : 2 ≤ labels.length * (labels.length - 1) := by
    calc 2 = 2 * 1 := rfl
      _ ≤ _ := Nat.mul_le_mul h2 (by omega)
  have hl1 : labels.length - 1 ≤ M := by
    nlinarith [Nat.le_mul_of_pos_left (labels.length - 1) (show 0 < labels.length by omega)]
  have hcol : ∀ c, ∀ x ∈ column labels (fun _ _ => 1) c, x = 1 := by
    intro c x hx
    obtain ⟨r, _, _, rfl⟩ := mem_column hx; rfl
  have hone := overallV_one (v := fun _ _ => 1) hw hn' h2 hM (fun _ _ _ _ _ => rfl)
  refine ⟨d, e, ?_⟩
  intro p hp'
  rcases List.mem_append.1 hp' with hp' | hp'
  · have hc := (hmem _).2 hp'
    have hlen := column_len hn' hc (fun _ _ => 1)
    have hne : column labels (fun _ _ => 1) p ≠ [] := by
      intro h0
      rw [h0, List.length_nil] at hlen; omega
    have hmean := meanV_one hw (by omega) hne (by omega) (hcol p)
    refine ⟨by rw [g.means p hc, hmean], ?_⟩
    rw [g.sds p hc, hmean, (varianceFl_ok hr hw hne (by omega) 1).2.2 (hcol p), root_zero hr hs]
  · rw [List.mem_singleton] at hp'
    subst hp'
    have hlen := offDiagonal_len hn' (fun _ _ => 1)
    have hne : offDiagonal labels (fun _ _ => 1) ≠ [] := by
      intro h0
      rw [h0, List.length_nil] at hlen; omega
    refine ⟨by rw [g.overall, hone], ?_⟩
    rw [g.sdAll, hone, (varianceFl_ok hr hw hne (by omega) 1).2.2 ?_, root_zero hr hs]
    intro x hx
    obtain ⟨c, _, h3⟩ := List.mem_flatMap.1 hx
    exact hcol c x h3

example : let annotators := ["ann", "bob", "cor"]
    let names := [("ann", "bob"), ("ann", "cor"), ("bob", "ann"), ("bob", "cor"), ("cor", "ann"), ("cor", "bob")]
    annotators.Nodup ∧ 2 ≤ annotators.length ∧ annotators.length * (annotators.length - 1) ≤ 2 ^ 53 ∧
    ("mean" ∉ annotators ∧ "SD" ∉ annotators ∧ "overall" ∉ annotators) ∧ names.Nodup ∧
    ∀ t ∈ annotators, ∀ p ∈ annotators, ((t, p) ∈ names ↔ t ≠ p) := by decide

/-- A mean need not lie between the smallest and the largest value: the mean of ten times 1/3 is more than 1/3. -/
theorem mean_above : divFl double (sumFl double 0 (List.replicate 10 (double (1 / 3)))) (double 10) =
    .ok (double (1 / 3) + 1 / 2 ^ 54) := by decide +kernel

private theorem scores_value {fl : ℚ → ℚ} {M : Nat} (hr : Rounding fl) (hw : Whole fl M) (hM : 2 ≤ M)
    (h2 : ∀ x, fl (2 * x) = 2 * fl x) {nTrue nPred nCommon : Nat} (ht : nCommon ≤ nTrue) (hp : nCommon ≤ nPred)
    (hT : nTrue ≤ M) (hP : nPred ≤ M) :
    computeScoresFl fl nTrue nPred nCommon = .ok (fl (nPred / nTrue), fl (precisionOf nPred nCommon),
      fl (recallOf nTrue nCommon), rowV fl (fun | .true => nTrue | .pred => nPred | .common => nCommon) .f) := by
  have h1 := whole_one hw (by omega)
  obtain ⟨a0, a1⟩ := ratio_unit hp
  obtain ⟨b0, b1⟩ := ratio_unit ht
  obtain ⟨-, hpos, -⟩ := fMeasure_fl hr hw hM h2 (fl_nonneg hr a0) (fl_le_one hr h1 a1) (fl_nonneg hr b0)
    (fl_le_one hr h1 b1) (hr.idem _) (hr.idem _)
  have ep : fl (2 * fl ((nCommon : ℚ) / nPred)) = 2 * fl ((nCommon : ℚ) / nPred) := by rw [h2, hr.idem]
  have hf : rowV fl (fun | .true => nTrue | .pred => nPred | .common => nCommon) .f =
      if fl ((nCommon : ℚ) / nPred) + fl ((nCommon : ℚ) / nTrue) = 0 then 0 else
        fl (fl (2 * fl ((nCommon : ℚ) / nPred) * fl ((nCommon : ℚ) / nTrue)) /
          fl (fl ((nCommon : ℚ) / nPred) + fl ((nCommon : ℚ) / nTrue))) := rfl
  rw [hf]
  unfold computeScoresFl
  simp only [catch_ratio_fl hr hw hP hT, catch_ratio_fl hr hw (ht.trans hT) hT, catch_ratio_fl hr hw (hp.trans hP) hP,
    bind, Except.bind, pure, Except.pure, precisionOf, recallOf, ep]
  unfold divFl
  by_cases h0 : fl ((nCommon : ℚ) / nPred) + fl ((nCommon : ℚ) / nTrue) = 0
  · rw [if_pos h0, if_pos (by rw [h0, hr.zero])]; rfl
  · rw [if_neg h0, if_neg (hpos h0).ne']; rfl

/-- C82: the scores of a comparison of two parallel texts: ratio, precision and recall are the exact quotients, 0 for a zero
divisor, rounded once; all but the ratio are between 0 and 1; nothing raises. -/
theorem text_scores {fl : ℚ → ℚ} {M : Nat} (hr : Rounding fl) (hw : Whole fl M) (hM : 2 ≤ M)
    (h2 : ∀ x, fl (2 * x) = 2 * fl x) {nTrue nPred nCommon : Nat} (ht : nCommon ≤ nTrue) (hp : nCommon ≤ nPred)
    (hT : nTrue ≤ M) (hP : nPred ≤ M) :
    ∃ p r f, computeScoresFl fl nTrue nPred nCommon = .ok (fl (nPred / nTrue), p, r, f) ∧
      p = fl (precisionOf nPred nCommon) ∧ r = fl (recallOf nTrue nCommon) ∧ (0 ≤ p ∧ p ≤ 1) ∧ (0 ≤ r ∧ r ≤ 1) ∧ 0 ≤ f ∧
      f ≤ 1 ∧ (nCommon = nTrue → nCommon = nPred → nCommon ≠ 0 → p = 1 ∧ r = 1 ∧ f = 1) := by
  have hc := (evalCountsFl_ok hr hw hM h2 (c := fun | .true => nTrue | .pred => nPred | .common => nCommon) ht hp hT hP).2
  refine ⟨_, _, _, scores_value hr hw hM h2 ht hp hT hP, rfl, rfl, hc .prec, hc .recall, (hc .f).1, (hc .f).2, ?_⟩
  intro g1 g2 g3
  have := rowV_one hw hM (c := fun | .true => nTrue | .pred => nPred | .common => nCommon) g1 g2 g3
  exact ⟨this .prec, this .recall, this .f⟩

/-- C82: with doubles, this F is within the 2^50th part of the exact F. -/
theorem text_scores_near {nTrue nPred nCommon : Nat} (ht : nCommon ≤ nTrue) (hp : nCommon ≤ nPred) (hT : nTrue ≤ 2 ^ 53)
    (hP : nPred ≤ 2 ^ 53) :
    ∃ q p r f, computeScoresFl double nTrue nPred nCommon = .ok (q, p, r, f) ∧
      |f - fOf 1 (precisionOf nPred nCommon) (recallOf nTrue nCommon)| ≤
        fOf 1 (precisionOf nPred nCommon) (recallOf nTrue nCommon) / 2 ^ 50 :=
  ⟨_, _, _, _, scores_value Rounding.double_rounding double_whole (by norm_num) double_two ht hp hT hP,
    row_near (fun | .true => nTrue | .pred => nPred | .common => nCommon)⟩

example : computeScoresFl double 7 5 3 = .ok (6433713753386423 / 2 ^ 53, 5404319552844595 / 2 ^ 53,
    7720456504063707 / 2 ^ 54, 4503599627370496 / 2 ^ 53) := by decide +kernel

/-- C82: the weighted cosine never raises, whatever the weights and the rounding; it is symmetric, not negative for weights
that are not, and 0 if all weights of one side are 0. -/
theorem weighted_cosine {fl sq : ℚ → ℚ} (hr : Rounding fl) (hs : Root fl sq) (v w : List ℚ) :
    ∃ q, weightedCosineFl fl sq v w = .ok q ∧ weightedCosineFl fl sq w v = .ok q ∧
      ((∀ x ∈ v, 0 ≤ x) → (∀ x ∈ w, 0 ≤ x) → 0 ≤ q) ∧ ((∀ x ∈ v, x = 0) ∨ (∀ x ∈ w, x = 0) → q = 0) := by
  refine ⟨_, weighted_eq hr hs v w, ?_, ?_, ?_⟩
  · rw [weighted_eq hr hs w v, mul_comm (lenV fl w), dot_comm w v]
  · intro hv hw
    split
    · exact le_refl _
    · exact fl_nonneg hr (div_nonneg (dot_nonneg hr hv hw)
        (sqrtPy_ok hr hs (fl_nonneg hr (mul_nonneg (lenV_nonneg hr v) (lenV_nonneg hr w)))).2)
  · intro h
    apply if_pos
    rcases h with h | h
    · rw [lenV_zero hr h, zero_mul, hr.zero, root_zero hr hs]
    · rw [lenV_zero hr h, mul_zero, hr.zero, root_zero hr hs]

/-- C82: with doubles, the weighted cosine of weights that are not all 0 with themselves is exactly 1. -/
theorem weighted_cosine_self (v : List ℚ) (h : ∃ x ∈ v, x ≠ 0) : weightedCosineFl double sqrtDouble v v = .ok 1 := by
  have hr := Rounding.double_rounding
  obtain ⟨h0, hd⟩ := lenV_pos h
  rw [weighted_eq hr Rounding.sqrtDouble_root, root_square Rounding.sqrtDouble_root h0.le hd, if_neg h0.ne', dot_self,
    div_self h0.ne', whole_one double_whole (by norm_num)]

/-- C82: with doubles, the weighted cosine of at most n weights that are not negative is at most
(1 + 2^-53)^(n+2) / (1 - 2^-53)^(n+3). -/
theorem weighted_cosine_bound (v w : List ℚ) {n : Nat} (hv : ∀ x ∈ v, 0 ≤ x) (hw : ∀ x ∈ w, 0 ≤ x) (hn : v.length ≤ n)
    (hn' : w.length ≤ n) :
    ∃ q, weightedCosineFl double sqrtDouble v w = .ok q ∧ q ≤ (1 + 1 / 2 ^ 53) ^ (n + 2) / (1 - 1 / 2 ^ 53) ^ (n + 3) :=
  ⟨_, weighted_eq Rounding.double_rounding Rounding.sqrtDouble_root v w, weighted_bound Rounding.sqrtDouble_root hv hw hn hn'⟩

/-- But it can be more than 1: that of 0.7 and 2.0999999999999996 is 1.0000000000000002. -/
theorem weighted_cosine_above :
    weightedCosineFl double sqrtDouble [3152519739159347 / 2 ^ 52] [1182194902184755 / 2 ^ 49] = .ok (1 + 1 / 2 ^ 52) := by
  rw [weighted_eq Rounding.double_rounding Rounding.sqrtDouble_root]
  have e1 : double (lenV double [3152519739159347 / 2 ^ 52] * lenV double [1182194902184755 / 2 ^ 49]) =
      2432957108696225 / 2 ^ 50 := by decide +kernel
  have e2 : dotV double [3152519739159347 / 2 ^ 52] [1182194902184755 / 2 ^ 49] = 1655072863058657 / 2 ^ 50 := by
    decide +kernel
  have e3 : sqrtDouble (2432957108696225 / 2 ^ 50) = 6620291452234627 / 2 ^ 52 := by
    apply le_antisymm
    · have := Rounding.sqrtDouble_root.high (2432957108696225 / 2 ^ 50) ((6620291452234627 + 49 / 100) / 2 ^ 52)
        (by norm_num) (by norm_num) (by norm_num)
      refine le_trans this (le_of_eq ?_)
      decide +kernel
    · have := Rounding.sqrtDouble_root.low (2432957108696225 / 2 ^ 50) ((6620291452234627 - 49 / 100) / 2 ^ 52)
        (by norm_num) (by norm_num)
      refine le_trans (le_of_eq ?_) this
      decide +kernel
  rw [e1, e2, e3, if_neg (by norm_num)]
  congr 1
  decide +kernel

example : (∃ x ∈ [(0 : ℚ), 1 / 3, 7 / 5], x ≠ 0) ∧ (∀ x ∈ [(0 : ℚ), 1 / 3, 7 / 5], 0 ≤ x) := by
  constructor
  · exact ⟨1 / 3, by simp, by norm_num⟩
  · intro x hx
    simp only [List.mem_cons, List.not_mem_nil, or_false] at hx
    rcases hx with rfl | rfl | rfl <;> norm_num

end Verif.Props.EvalFloat
