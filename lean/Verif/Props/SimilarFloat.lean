import Verif.Lemmas.SimilarFloat
import Verif.Lemmas.RoundingReal
import Verif.Props.Similar
import Verif.Props.Rouge
import Verif.Props.Lcs
import Verif.Props.Levenshtein

/-! Property C81: the similarity measures as they are computed, with floats. -/
namespace Verif.Props.SimilarFloat
open Verif Verif.Measure Verif.Spec.Rounding Verif.Similar

variable {α : Type} [DecidableEq α]

/-- C81: with any rounding that keeps the integers up to `M`, the measures of two sequences are the exact ones, rounded
once. -/
theorem rounded_once {fl : ℚ → ℚ} {M : Nat} (hr : Rounding fl) (hw : Whole fl M) (a b : List α)
    (h : a.length + b.length ≤ M) :
    diceFl fl a b = (dice a b).map fl ∧ tanimotoFl fl a b = (tanimoto a b).map fl ∧
    jaccardFl fl a b = (jaccard a b).map fl ∧ overlapMinFl fl a b = (overlapMin a b).map fl ∧
    overlapMaxFl fl a b = (overlapMax a b).map fl ∧
    normLevenshteinFl fl a b = (Levenshtein.normalized a b).map fl ∧
    (2 ≤ M → symTokenMatchFl fl a b = .ok (fl (symTokenMatch a b))) := by
  have h1 := inter_card_le_left a b
  have h2 := inter_card_le_right a b
  have h3 : (a.toFinset ∪ b.toFinset).card ≤ a.length + b.length :=
    (Finset.card_union_le _ _).trans (Nat.add_le_add (List.toFinset_card_le a) (List.toFinset_card_le b))
  refine ⟨?_, ?_, ?_, ?_, ?_, ?_, ?_⟩
  · rw [dice_eq, diceFl, catch_ratioFl hr hw (by omega) (by omega)]
  · rw [tanimoto_eq, tanimotoFl, catch_ratioFl hr hw (by omega) (by omega)]
  · rw [jaccard, jaccardFl, catch_ratioFl hr hw (by omega) (by omega)]
  · rw [overlapMin, overlapMinFl, catch_ratioFl hr hw (by omega) (by omega)]
  · rw [overlapMax, overlapMaxFl, catch_ratioFl hr hw (by omega) (by omega)]
  · have h4 := Levenshtein.lev_le_max a b
    unfold normLevenshteinFl Levenshtein.normalized
    simp only [Levenshtein.levenshtein_eq, bind, Except.bind]
    rw [catch_ratioFl hr hw (by omega) (by omega), catch_ratio]
    by_cases h0 : max a.length b.length = 0
    · rw [if_pos h0, if_pos (by rw [h0]; rfl)]; rfl
    · rw [if_neg h0, if_neg (by exact_mod_cast h0)]; rfl
  · intro h2M
    have t1 : tokenMatch a b ≤ a.length := List.length_filter_le _ _
    have t2 : tokenMatch b a ≤ b.length := List.length_filter_le _ _
    rw [symTokenMatchFl, ratioFl_eq hw (by omega) h2M, symTokenMatch, Py.div, if_neg (by norm_num)]
    rfl

/-- C81: so are the measures of many sequences. -/
theorem rounded_once_many {fl : ℚ → ℚ} {M : Nat} (hr : Rounding fl) (hw : Whole fl M) (ls : List (List α))
    (h : (ls.map List.length).sum ≤ M) :
    genDiceFl fl ls = (genDice ls).map fl ∧ genJaccardFl fl ls = (genJaccard ls).map fl := by
  have hle : ls.length * (common ls).card ≤ (ls.map List.length).sum := by
    by_cases h : ls = []
    · simp [h]
    · have := sum_ge_mul (common ls).card (ls.map List.length) (by
        intro x hx
        obtain ⟨l, hl, rfl⟩ := List.mem_map.1 hx
        exact common_card_le h l hl)
      simpa using this
  have hall : (allElems ls).card ≤ (ls.map List.length).sum := by
    refine (List.toFinset_card_le _).trans ?_
    rw [List.length_flatten]
  have hc := (Finset.card_le_card (common_subset_all ls)).trans hall
  cases ls with
  | nil => simp [genDiceFl, genJaccardFl, genDice, genJaccard, Except.map, hr.zero]
  | cons s rest =>
    constructor
    · have e : genDiceFl fl (s :: rest) = Py.catchZeroDiv 0 (ratioFl fl ((s :: rest).length * (common (s :: rest)).card)
          ((s :: rest).map List.length).sum) := by
        simp only [genDiceFl, accumulate_common, (accumulate_eq (· + ·) s rest).1, foldl_add]
        simp
      rw [e, genDice_eq, catch_ratioFl hr hw (by omega) h]
    · have e : genJaccardFl fl (s :: rest) = Py.catchZeroDiv 0 (ratioFl fl (common (s :: rest)).card
          (allElems (s :: rest)).card) := by
        simp only [genJaccardFl, (fold_sets s rest).1, (fold_sets s rest).2]
      rw [e, genJaccard_eq, catch_ratioFl hr hw (by omega) (by omega)]

/-- C81: and ROUGE-N. -/
theorem rounded_once_rouge {fl : ℚ → ℚ} {M : Nat} (hr : Rounding fl) (hw : Whole fl M) (pad : α) (cand : List α)
    (refs : List (List α)) (n : Nat) (h1 : cand.length + 1 ≤ M) (h2 : (refs.map (fun r => r.length + 1)).sum ≤ M) :
    rougeNFl fl pad cand refs n = (Rouge.rougeN pad cand refs n).map fl := by
  unfold rougeNFl Rouge.rougeN rougeNgramFl Rouge.rougeNgram
  apply catch_ratioFl hr hw
  · refine (List.length_filter_le _ _).trans ?_
    simp [NGram.nGramSlices, NGram.pad]; omega
  · rw [Rouge.refNgrams_eq, List.length_flatMap]
    refine le_trans (List.sum_le_sum ?_) h2
    intro r _
    simp [NGram.nGramSlices, NGram.pad]

/-- C81: with doubles: what a user expects of an overlap coefficient, as long as the sequences have no more than 2^53
elements. -/
def IsFloatCoefficient (m : List α → List α → Py ℚ) (same : List α → List α → Prop) : Prop :=
  ∀ a b, a.length + b.length ≤ 2 ^ 53 → ∃ q, m a b = .ok q ∧ 0 ≤ q ∧ q ≤ 1 ∧ m b a = .ok q ∧
    (q = 0 ↔ ∀ x ∈ a, x ∉ b) ∧ (q = 1 ↔ same a b)

private theorem lift {m e : List α → List α → Py ℚ} {same : List α → List α → Prop} (num den : List α → List α → Nat)
    (hm : ∀ a b, a.length + b.length ≤ 2 ^ 53 → m a b = (e a b).map double)
    (he : ∀ a b, e a b = Py.catchZeroDiv 0 (Py.div (num a b : ℚ) (den a b)))
    (hle : ∀ a b, num a b ≤ den a b) (hden : ∀ a b, den a b ≤ a.length + b.length)
    (hc : Props.Similar.IsCoefficient e) (h1 : ∀ a b, e a b = .ok 1 ↔ same a b) : IsFloatCoefficient m same := by
  intro a b hab
  obtain ⟨q, e1, q0, q1, e2, qz⟩ := hc a b
  have r1 := whole_one double_whole (by norm_num)
  refine ⟨double q, by rw [hm a b hab, e1]; rfl, fl_nonneg Rounding.double_rounding q0,
    fl_le_one Rounding.double_rounding r1 q1, by rw [hm b a (by omega), e2]; rfl, by rw [double_eq_zero, qz], ?_⟩
  rw [← h1 a b, e1, Except.ok.injEq]
  have hv := he a b
  rw [catch_ratio, e1, Except.ok.injEq] at hv
  rw [hv]
  exact double_ratio_one (hle a b) ((hden a b).trans hab)

/-- C81: dice, tanimoto, jaccard and overlap_max with doubles: between 0 and 1, symmetric, 0 exactly for sequences without a
common element, 1 exactly for the sequences for which the exact coefficient is 1. -/
theorem float_coefficients :
    IsFloatCoefficient (diceFl (α := α) double) (fun a b => a ≠ [] ∧ a.Nodup ∧ b.Nodup ∧ ∀ x, x ∈ a ↔ x ∈ b) ∧
    IsFloatCoefficient (tanimotoFl (α := α) double) (fun a b => a ≠ [] ∧ a.Nodup ∧ b.Nodup ∧ ∀ x, x ∈ a ↔ x ∈ b) ∧
    IsFloatCoefficient (overlapMaxFl (α := α) double) (fun a b => a ≠ [] ∧ a.Nodup ∧ b.Nodup ∧ ∀ x, x ∈ a ↔ x ∈ b) ∧
    IsFloatCoefficient (jaccardFl (α := α) double) (fun a b => a ≠ [] ∧ ∀ x, x ∈ a ↔ x ∈ b) ∧
    IsFloatCoefficient (overlapMinFl (α := α) double) (fun a b => overlapMin a b = .ok 1) := by
  have hR := Rounding.double_rounding
  have hu : ∀ a b : List α, (a.toFinset ∪ b.toFinset).card ≤ a.length + b.length := fun a b =>
    (Finset.card_union_le _ _).trans (Nat.add_le_add (List.toFinset_card_le a) (List.toFinset_card_le b))
  refine ⟨?_, ?_, ?_, ?_, ?_⟩
  · exact lift _ _ (fun a b h => (rounded_once hR double_whole a b h).1) dice_eq
      (fun a b => by have := inter_card_le_left a b; have := inter_card_le_right a b; omega) (fun a b => le_refl _)
      Props.Similar.dice_coefficient Props.Similar.dice_eq_one
  · exact lift _ _ (fun a b h => (rounded_once hR double_whole a b h).2.1) tanimoto_eq
      (fun a b => by have := inter_card_le_left a b; have := inter_card_le_right a b; omega) (fun a b => by omega)
      Props.Similar.tanimoto_coefficient Props.Similar.tanimoto_eq_one
  · exact lift (fun a b => (inter a b).card) (fun a b => max a.length b.length)
      (fun a b h => (rounded_once hR double_whole a b h).2.2.2.2.1) (fun a b => rfl)
      (fun a b => by have := inter_card_le_left a b; omega) (fun a b => by omega)
      Props.Similar.overlap_max_coefficient Props.Similar.overlap_max_eq_one
  · exact lift (fun a b => (inter a b).card) (fun a b => (a.toFinset ∪ b.toFinset).card)
      (fun a b h => (rounded_once hR double_whole a b h).2.2.1) (fun a b => rfl)
      inter_card_le_union hu Props.Similar.jaccard_coefficient Props.Similar.jaccard_eq_one
  · exact lift (fun a b => (inter a b).card) (fun a b => min a.length b.length)
      (fun a b h => (rounded_once hR double_whole a b h).2.2.2.1) (fun a b => rfl)
      (fun a b => by have := inter_card_le_left a b; have := inter_card_le_right a b; omega) (fun a b => by omega)
      Props.Similar.overlap_min_coefficient (fun a b => Iff.rfl)

example : diceFl double "abc".toList "abd".toList = .ok (6004799503160661 / 2 ^ 53) ∧
    "abc".toList.length + "abd".toList.length ≤ 2 ^ 53 := by decide +kernel

/-- C81: rounding never reverses the order of two values: what is more similar by the exact coefficient is not less
similar by the computed one. -/
theorem ranking {fl : ℚ → ℚ} {M : Nat} (hr : Rounding fl) (hw : Whole fl M) (a b c d : List α)
    (h : a.length + b.length ≤ M) (h' : c.length + d.length ≤ M) (p q : ℚ) (hpq : p ≤ q) :
    (dice a b = .ok p → dice c d = .ok q → ∃ p' q', diceFl fl a b = .ok p' ∧ diceFl fl c d = .ok q' ∧ p' ≤ q') ∧
    (jaccard a b = .ok p → jaccard c d = .ok q →
      ∃ p' q', jaccardFl fl a b = .ok p' ∧ jaccardFl fl c d = .ok q' ∧ p' ≤ q') ∧
    (tanimoto a b = .ok p → tanimoto c d = .ok q →
      ∃ p' q', tanimotoFl fl a b = .ok p' ∧ tanimotoFl fl c d = .ok q' ∧ p' ≤ q') := by
  obtain ⟨d1, t1, j1, _⟩ := rounded_once hr hw a b h
  obtain ⟨d2, t2, j2, _⟩ := rounded_once hr hw c d h'
  refine ⟨fun e1 e2 => ⟨fl p, fl q, ?_, ?_, hr.mono hpq⟩, fun e1 e2 => ⟨fl p, fl q, ?_, ?_, hr.mono hpq⟩,
    fun e1 e2 => ⟨fl p, fl q, ?_, ?_, hr.mono hpq⟩⟩
  · rw [d1, e1]; rfl
  · rw [d2, e2]; rfl
  · rw [j1, e1]; rfl
  · rw [j2, e2]; rfl
  · rw [t1, e1]; rfl
  · rw [t2, e2]; rfl

/-- C81: the normalized Levenshtein distance with doubles: between 0 and 1, symmetric, 0 exactly for equal sequences. -/
theorem levenshtein_double (a b : List α) (h : a.length + b.length ≤ 2 ^ 53) :
    ∃ q, normLevenshteinFl double a b = .ok q ∧ 0 ≤ q ∧ q ≤ 1 ∧ normLevenshteinFl double b a = .ok q ∧ (q = 0 ↔ a = b) := by
  obtain ⟨q, e, q0, q1, qz⟩ := Props.Levenshtein.normalized_range a b
  have e1 := (rounded_once Rounding.double_rounding double_whole a b h).2.2.2.2.2.1
  have e2 := (rounded_once Rounding.double_rounding double_whole b a (by omega)).2.2.2.2.2.1
  rw [Props.Levenshtein.normalized_symm, e] at e2
  rw [e] at e1
  exact ⟨double q, e1, fl_nonneg Rounding.double_rounding q0,
    fl_le_one Rounding.double_rounding (whole_one double_whole (by norm_num)) q1, e2, by rw [double_eq_zero, qz]⟩

example : normLevenshteinFl double "abc".toList "abd".toList = .ok (6004799503160661 / 2 ^ 54) := by decide +kernel

/-- C81: the square root as it is computed: floats nearest to the root of a float. -/
theorem sqrt_rounded : Root double sqrtDouble := Rounding.sqrtDouble_root

/-- C81: the cosine of two sequences with any rounding and a square root rounded by it: between 0 and 1 and symmetric. -/
theorem cosine_range {fl sq : ℚ → ℚ} {M : Nat} (hr : Rounding fl) (hs : Root fl sq) (hw : Whole fl M) (hM : 1 ≤ M)
    (a b : List α) (h : a.length * b.length ≤ M) :
    ∃ q, cosineFl fl sq a b = .ok q ∧ 0 ≤ q ∧ q ≤ 1 ∧ cosineFl fl sq b a = .ok q := by
  have hc : (inter a b).card ^ 2 ≤ a.length * b.length := by
    rw [_root_.sq]; exact Nat.mul_le_mul (inter_card_le_left a b) (inter_card_le_right a b)
  obtain ⟨q, e, q0, q1, _⟩ := rootRatio_eq hr hs hw hM hc h
  refine ⟨q, e, q0, q1, ?_⟩
  rw [cosineFl, inter_comm b a, Nat.mul_comm, ← e]

/-- C81: the cosine with doubles is 0 exactly for sequences without a common element and 1 exactly for sequences with the
same elements, once each. -/
theorem cosine_double (a b : List α) (h : a.length * b.length ≤ 2 ^ 53) :
    (cosineFl double sqrtDouble a b = .ok 0 ↔ ∀ x ∈ a, x ∉ b) ∧
    (cosineFl double sqrtDouble a b = .ok 1 ↔ a ≠ [] ∧ a.Nodup ∧ b.Nodup ∧ ∀ x, x ∈ a ↔ x ∈ b) := by
  have l1 := inter_card_le_left a b
  have l2 := inter_card_le_right a b
  have hc : (inter a b).card ^ 2 ≤ a.length * b.length := by rw [_root_.sq]; exact Nat.mul_le_mul l1 l2
  refine ⟨by rw [cosineFl, rootRatio_zero sqrt_rounded hc h, inter_card_zero], ?_⟩
  have hb := both_full a b
  unfold SameSet at hb
  rw [← hb, ← List.length_pos_iff]
  constructor
  · intro h1
    by_contra hcon
    by_cases hp : a.length * b.length = 0
    · obtain ⟨q, e, _, _, hz, _⟩ := rootRatio_eq Rounding.double_rounding sqrt_rounded double_whole (by norm_num) hc h
      rw [cosineFl, e, hz hp] at h1
      cases h1
    have ha : 0 < a.length := Nat.pos_of_ne_zero (by intro h0; apply hp; simp [h0])
    have hbp : 0 < b.length := Nat.pos_of_ne_zero (by intro h0; apply hp; simp [h0])
    have hgap : (inter a b).card ^ 2 + (inter a b).card ≤ a.length * b.length := by
      by_cases h3 : (inter a b).card = a.length
      · have h4 : (inter a b).card + 1 ≤ b.length := by
          by_contra h5; exact hcon ⟨ha, h3, by omega⟩
        nlinarith [Nat.mul_le_mul l1 h4]
      · have h4 : (inter a b).card + 1 ≤ a.length := by omega
        nlinarith [Nat.mul_le_mul h4 l2]
    have hlt : (inter a b).card ^ 2 < a.length * b.length := by
      by_cases h0 : (inter a b).card = 0
      · rw [h0]; simpa using Nat.pos_of_ne_zero hp
      · omega
    exact rootRatio_one sqrt_rounded hlt hgap h h1
  · rintro ⟨ha, h3, h4⟩
    obtain ⟨q, e, _, _, _, _, h1⟩ := rootRatio_eq Rounding.double_rounding sqrt_rounded double_whole (by norm_num) hc h
    rw [cosineFl, e, h1 (by rw [_root_.sq]; nth_rw 1 [h3]; rw [h4])
      (by rw [← h3, ← h4]; exact (Nat.mul_pos (by omega) (by omega)).ne')]

example : "ab".toList.length * "bcb".toList.length ≤ 2 ^ 53 ∧ ¬ (∀ x ∈ "ab".toList, x ∉ "bcb".toList) := by decide

/-- C81: the generalized cosine of two or more sequences with any rounding: between 0 and 1, and the order of the sequences
does not matter. -/
theorem gen_cosine_range {fl sq : ℚ → ℚ} {M : Nat} (hr : Rounding fl) (hs : Root fl sq) (hw : Whole fl M) (hM : 1 ≤ M)
    (ls : List (List α)) (hn : ls.length ≠ 1) (h : (ls.map List.length).prod ≤ M) :
    ∃ q, genCosineFl fl sq ls = .ok q ∧ 0 ≤ q ∧ q ≤ 1 ∧ ∀ ls', ls.Perm ls' → genCosineFl fl sq ls' = .ok q := by
  by_cases h0 : ls = []
  · subst h0
    refine ⟨0, rfl, le_refl _, zero_le_one, ?_⟩
    intro ls' hp
    rw [List.nil_perm.1 hp]; rfl
  · obtain ⟨q, e, q0, q1, _⟩ := rootRatio_eq hr hs hw hM (common_sq_le ls hn h0) h
    refine ⟨q, by rw [genCosineFl_eq ls h0, e], q0, q1, ?_⟩
    intro ls' hp
    have h' : ls' ≠ [] := by rintro rfl; exact h0 (List.perm_nil.1 hp)
    rw [genCosineFl_eq ls' h', ← common_perm hp, ← (hp.map List.length).prod_eq, e]

example : [[1, 2], [2, 3], [2]].length ≠ 1 ∧ ([[1, 2], [2, 3], [2]].map List.length).prod ≤ 2 ^ 53 := by decide

/-- C81: with doubles the generalized cosine of two or more sequences is 1 only if the exact one is. -/
theorem gen_cosine_double (ls : List (List α)) (hn : ls.length ≠ 1) (h : (ls.map List.length).prod ≤ 2 ^ 53) :
    genCosineFl double sqrtDouble ls = .ok 1 ↔ genCosine ls = .ok 1 := by
  by_cases h0 : ls = []
  · subst h0; simp [genCosineFl, genCosine]
  have hsq := common_sq_le ls hn h0
  obtain ⟨q, e, _, _, hz, hnz, hone⟩ := rootRatio_eq Rounding.double_rounding sqrt_rounded double_whole (by norm_num) hsq h
  obtain ⟨r, e', rz, rnz⟩ := Py.catch_divR ((common ls).card : ℝ) (Real.sqrt (((ls.map List.length).prod : Nat) : ℝ))
  rw [genCosine_eq ls h0, e', genCosineFl_eq ls h0]
  by_cases hp : (ls.map List.length).prod = 0
  · rw [e, hz hp, rz (by rw [hp]; simp)]; simp
  have hpos : (0 : ℝ) < Real.sqrt (((ls.map List.length).prod : Nat) : ℝ) := by
    apply Real.sqrt_pos.2; exact_mod_cast Nat.pos_of_ne_zero hp
  have key : r = 1 ↔ (common ls).card ^ 2 = (ls.map List.length).prod := by
    rw [rnz hpos.ne', div_eq_one_iff_eq hpos.ne']
    constructor
    · intro he
      have h5 : ((common ls).card : ℝ) ^ 2 = (((ls.map List.length).prod : Nat) : ℝ) := by
        rw [he, Real.sq_sqrt (Nat.cast_nonneg _)]
      exact_mod_cast h5
    · intro he
      rw [← he, Nat.cast_pow, Real.sqrt_sq (Nat.cast_nonneg _)]
  rw [Except.ok.injEq, key]
  constructor
  · intro h1
    by_contra hne
    have hlt := lt_of_le_of_ne hsq hne
    exact rootRatio_one sqrt_rounded hlt (common_gap ls hn h0 hlt) h h1
  · intro he
    rw [e, hone he hp]

/-- C81: normalized_lcs with any rounding: between 0 and 1, symmetric, 1 for a sequence with itself. -/
theorem lcs_range {fl sq : ℚ → ℚ} {M : Nat} (hr : Rounding fl) (hs : Root fl sq) (hw : Whole fl M) (hM : 1 ≤ M)
    (fuel : Nat) (a b : List α) (hf : a.length + b.length < fuel) (h : a.length * b.length ≤ M) :
    ∃ q, normLcsFl fl sq fuel a b = .ok q ∧ 0 ≤ q ∧ q ≤ 1 ∧ normLcsFl fl sq fuel b a = .ok q ∧ (a = b → a ≠ [] → q = 1) := by
  obtain ⟨c, h1, h2⟩ := Props.Lcs.lcs_correct a b fuel hf
  obtain ⟨d, h3, h4⟩ := Props.Lcs.lcs_correct b a fuel (by omega)
  have hcd := Props.Lcs.lcs_length_symm a b c d fuel hf h1 h3
  obtain ⟨hca, hcb⟩ := Props.Lcs.isLcs_length_le h2
  have hc : c.length ^ 2 ≤ a.length * b.length := by rw [_root_.sq]; exact Nat.mul_le_mul hca hcb
  obtain ⟨q, e, q0, q1, _, _, q2⟩ := rootRatio_eq hr hs hw hM hc h
  refine ⟨q, ?_, q0, q1, ?_, ?_⟩
  · simp only [normLcsFl, h1, bind, Except.bind, e]
  · simp only [normLcsFl, h3, bind, Except.bind, ← hcd, Nat.mul_comm b.length, e]
  · rintro rfl hne
    have h5 : c.length = a.length :=
      Nat.le_antisymm hca (h2.2 a ⟨List.Sublist.refl _, List.Sublist.refl _⟩)
    have hpos := List.length_pos_iff.2 hne
    exact q2 (by rw [h5, _root_.sq]) (Nat.mul_pos hpos hpos).ne'

/-- C81: with doubles, normalized_lcs of two sequences that are not empty is 1 only if they are equal. -/
theorem lcs_double (fuel : Nat) (a b : List α) (hf : a.length + b.length < fuel) (h : a.length * b.length ≤ 2 ^ 53)
    (ha : a ≠ []) (hb : b ≠ []) : normLcsFl double sqrtDouble fuel a b = .ok 1 ↔ a = b := by
  constructor
  · intro h1
    obtain ⟨c, e, h2⟩ := Props.Lcs.lcs_correct a b fuel hf
    obtain ⟨hca, hcb⟩ := Props.Lcs.isLcs_length_le h2
    simp only [normLcsFl, e, bind, Except.bind] at h1
    have pa := List.length_pos_iff.2 ha
    have pb := List.length_pos_iff.2 hb
    by_cases h3 : c.length = a.length ∧ c.length = b.length
    · rw [← h2.1.1.eq_of_length h3.1, ← h2.1.2.eq_of_length h3.2]
    · exfalso
      have hgap : c.length ^ 2 + c.length ≤ a.length * b.length := by
        by_cases h4 : c.length = a.length
        · have h5 : c.length + 1 ≤ b.length := by by_contra h6; exact h3 ⟨h4, by omega⟩
          nlinarith [Nat.mul_le_mul hca h5]
        · have h5 : c.length + 1 ≤ a.length := by omega
          nlinarith [Nat.mul_le_mul h5 hcb]
      have hlt : c.length ^ 2 < a.length * b.length := by
        by_cases h0 : c.length = 0
        · rw [h0]; simpa using Nat.mul_pos pa pb
        · omega
      exact rootRatio_one sqrt_rounded hlt hgap h h1
  · rintro rfl
    obtain ⟨q, e, _, _, _, h1⟩ := lcs_range Rounding.double_rounding sqrt_rounded double_whole (by norm_num) fuel a a hf h
    rw [e, h1 rfl ha]

example : "ab".toList.length * "bcb".toList.length ≤ 2 ^ 53 ∧ "ab".toList ≠ [] ∧ "bcb".toList ≠ [] := by decide

/-- C81: ROUGE-L with floats (beta 1) of sequences that are not empty: between 0 and 1, symmetric, 1 for a sequence with
itself, for any rounding that keeps the integers up to `M` and doubles. -/
theorem rouge_l_float {fl : ℚ → ℚ} {M : Nat} (hr : Rounding fl) (hw : Whole fl M) (hM : 2 ≤ M)
    (h2 : ∀ x, fl (2 * x) = 2 * fl x) (fuel : Nat) (a b : List α) (hf : a.length + b.length < fuel)
    (h : a.length + b.length ≤ M) (ha : a ≠ []) (hb : b ≠ []) :
    ∃ q, rougeLFl fl fuel a b 1 = .ok q ∧ 0 ≤ q ∧ q ≤ 1 ∧ rougeLFl fl fuel b a 1 = .ok q ∧ (a = b → q = 1) := by
  obtain ⟨c, e1, l1⟩ := Props.Lcs.lcs_correct a b fuel hf
  obtain ⟨d, e2, l2⟩ := Props.Lcs.lcs_correct b a fuel (by omega)
  have hcd := Props.Lcs.lcs_length_symm a b c d fuel hf e1 e2
  obtain ⟨hca, hcb⟩ := Props.Lcs.isLcs_length_le l1
  have na : a.length ≠ 0 := by simpa using ha
  have nb : b.length ≠ 0 := by simpa using hb
  obtain ⟨q, f1, q0, q1, f2, f3⟩ := fOfCounts hr hw hM h2 (c := c.length) hca hcb na nb (by omega) (by omega)
  refine ⟨q, ?_, q0, q1, ?_, ?_⟩
  · simp only [rougeLFl, e1, bind, Except.bind, ratioFl_ok hw nb (show c.length ≤ M by omega) (show b.length ≤ M by omega),
      ratioFl_ok hw na (show c.length ≤ M by omega) (show a.length ≤ M by omega), f1]
  · simp only [rougeLFl, e2, ← hcd, bind, Except.bind,
      ratioFl_ok hw nb (show c.length ≤ M by omega) (show b.length ≤ M by omega),
      ratioFl_ok hw na (show c.length ≤ M by omega) (show a.length ≤ M by omega), f2]
  · rintro rfl
    have h5 : c.length = a.length :=
      Nat.le_antisymm hca (l1.2 a ⟨List.Sublist.refl _, List.Sublist.refl _⟩)
    exact f3 h5 h5

/-- C81: for every beta and every rounding, ROUGE-L raises ZeroDivisionError exactly when a sequence is empty, and is not
negative otherwise. -/
theorem rouge_l_error {fl : ℚ → ℚ} {M : Nat} (hr : Rounding fl) (hw : Whole fl M) (fuel : Nat) (a b : List α) (beta : ℚ)
    (hf : a.length + b.length < fuel) (h : a.length + b.length ≤ M) :
    (a = [] ∨ b = [] → rougeLFl fl fuel a b beta = .error .zeroDivision) ∧
    (a ≠ [] → b ≠ [] → ∃ q, rougeLFl fl fuel a b beta = .ok q ∧ 0 ≤ q) := by
  obtain ⟨c, e1, l1⟩ := Props.Lcs.lcs_correct a b fuel hf
  obtain ⟨hca, hcb⟩ := Props.Lcs.isLcs_length_le l1
  unfold rougeLFl
  simp only [e1, bind, Except.bind]
  constructor
  · intro h0
    by_cases hb : b = []
    · subst hb; rw [List.length_nil, ratioFl_zero hr]
    · have ha : a = [] := by tauto
      subst ha
      have nb : b.length ≠ 0 := by simpa using hb
      rw [ratioFl_ok hw nb (show c.length ≤ M by omega) (show b.length ≤ M by omega), List.length_nil]
      simp only [ratioFl_zero hr]
  · intro ha hb
    have na : a.length ≠ 0 := by simpa using ha
    have nb : b.length ≠ 0 := by simpa using hb
    simp only [ratioFl_ok hw nb (show c.length ≤ M by omega) (show b.length ≤ M by omega),
      ratioFl_ok hw na (show c.length ≤ M by omega) (show a.length ≤ M by omega)]
    exact fMeasure_nonneg hr beta (fl_nonneg hr (by positivity)) (fl_nonneg hr (by positivity))

/-- C81: with doubles, ROUGE-L (beta 1) differs from the exact value by at most its 2^50th part. -/
theorem rouge_l_near (fuel : Nat) (a b : List α) (hf : a.length + b.length < fuel)
    (h : a.length + b.length ≤ 2 ^ 53) (ha : a ≠ []) (hb : b ≠ []) :
    ∃ q f, rougeLFl double fuel a b 1 = .ok q ∧ Rouge.rougeL fuel a b 1 = .ok f ∧ |q - f| ≤ f / 2 ^ 50 := by
  obtain ⟨c, e1, l1⟩ := Props.Lcs.lcs_correct a b fuel hf
  obtain ⟨hca, hcb⟩ := Props.Lcs.isLcs_length_le l1
  have na : a.length ≠ 0 := by simpa using ha
  have nb : b.length ≠ 0 := by simpa using hb
  obtain ⟨q, f, f1, f2, f3⟩ := fOfCounts_near (c := c.length) hca hcb na nb (by omega) (by omega)
  refine ⟨q, f, ?_, ?_, f3⟩
  · simp only [rougeLFl, e1, bind, Except.bind,
      ratioFl_ok double_whole nb (show c.length ≤ 2 ^ 53 by omega) (show b.length ≤ 2 ^ 53 by omega),
      ratioFl_ok double_whole na (show c.length ≤ 2 ^ 53 by omega) (show a.length ≤ 2 ^ 53 by omega), f1]
  · simp only [Rouge.rougeL, e1, bind, Except.bind, Rouge.div_nat _ _ na, Rouge.div_nat _ _ nb, f2]

example : rougeLFl double 9 "abcd".toList "acx".toList 1 = .ok (5146971002709139 / 2 ^ 53) ∧
    Rouge.rougeL 9 "abcd".toList "acx".toList 1 = .ok (4 / 7) := by decide +kernel

/-- C81: ROUGE-S with floats (beta 1) of sequences of two or more tokens, and ROUGE-SU: between 0 and 1 and symmetric; with
doubles within the 2^50th part of the exact value. -/
theorem rouge_s_float {fl : ℚ → ℚ} {M : Nat} (hr : Rounding fl) (hw : Whole fl M) (hM : 2 ≤ M)
    (h2 : ∀ x, fl (2 * x) = 2 * fl x) (a b : List α) (limit : Nat) (la : 2 ≤ a.length) (lb : 2 ≤ b.length)
    (hA : (NGram.skipBigramSlices limit a).length ≤ M) (hB : (NGram.skipBigramSlices limit b).length ≤ M) :
    ∃ q, rougeSFl fl a b limit 1 = .ok q ∧ 0 ≤ q ∧ q ≤ 1 ∧ rougeSFl fl b a limit 1 = .ok q := by
  have na : (NGram.skipBigramSlices limit a).length ≠ 0 := by
    rw [ne_eq, List.length_eq_zero_iff, Rouge.skip_nil_iff]; omega
  have nb : (NGram.skipBigramSlices limit b).length ≠ 0 := by
    rw [ne_eq, List.length_eq_zero_iff, Rouge.skip_nil_iff]; omega
  have l1 := inter_card_le_left (NGram.skipBigramSlices limit a) (NGram.skipBigramSlices limit b)
  have l2 := inter_card_le_right (NGram.skipBigramSlices limit a) (NGram.skipBigramSlices limit b)
  obtain ⟨q, f1, q0, q1, f2, f3⟩ := fOfCounts hr hw hM h2 l2 l1 nb na hB hA
  refine ⟨q, ?_, q0, q1, ?_⟩
  · unfold rougeSFl rougeSkipBigramFl
    change (_ >>= fun _ => _) = _
    rw [show ((NGram.skipBigramSlices limit a).toFinset ∩ (NGram.skipBigramSlices limit b).toFinset).card =
      (inter (NGram.skipBigramSlices limit a) (NGram.skipBigramSlices limit b)).card from rfl]
    simp only [bind, Except.bind, ratioFl_ok hw na (l1.trans hA) hA, ratioFl_ok hw nb (l1.trans hA) hB, f1]
  · unfold rougeSFl rougeSkipBigramFl
    change (_ >>= fun _ => _) = _
    rw [show ((NGram.skipBigramSlices limit b).toFinset ∩ (NGram.skipBigramSlices limit a).toFinset).card =
      (inter (NGram.skipBigramSlices limit a) (NGram.skipBigramSlices limit b)).card by rw [Finset.inter_comm]; rfl]
    simp only [bind, Except.bind, ratioFl_ok hw na (l1.trans hA) hA, ratioFl_ok hw nb (l1.trans hA) hB, f2]

theorem rouge_s_near (a b : List α) (limit : Nat) (la : 2 ≤ a.length) (lb : 2 ≤ b.length)
    (hA : (NGram.skipBigramSlices limit a).length ≤ 2 ^ 53) (hB : (NGram.skipBigramSlices limit b).length ≤ 2 ^ 53) :
    ∃ q f, rougeSFl double a b limit 1 = .ok q ∧ Rouge.rougeS a b limit 1 = .ok f ∧ |q - f| ≤ f / 2 ^ 50 := by
  have na : (NGram.skipBigramSlices limit a).length ≠ 0 := by
    rw [ne_eq, List.length_eq_zero_iff, Rouge.skip_nil_iff]; omega
  have nb : (NGram.skipBigramSlices limit b).length ≠ 0 := by
    rw [ne_eq, List.length_eq_zero_iff, Rouge.skip_nil_iff]; omega
  have l1 := inter_card_le_left (NGram.skipBigramSlices limit a) (NGram.skipBigramSlices limit b)
  have l2 := inter_card_le_right (NGram.skipBigramSlices limit a) (NGram.skipBigramSlices limit b)
  obtain ⟨q, f, f1, f2, f3⟩ := fOfCounts_near l2 l1 nb na hB hA
  refine ⟨q, f, ?_, ?_, f3⟩
  · unfold rougeSFl rougeSkipBigramFl
    change (_ >>= fun _ => _) = _
    rw [show ((NGram.skipBigramSlices limit a).toFinset ∩ (NGram.skipBigramSlices limit b).toFinset).card =
      (inter (NGram.skipBigramSlices limit a) (NGram.skipBigramSlices limit b)).card from rfl]
    simp only [bind, Except.bind, ratioFl_ok double_whole na (l1.trans hA) hA, ratioFl_ok double_whole nb (l1.trans hA) hB,
      f1]
  · unfold Rouge.rougeS Rouge.rougeSkipBigram
    change (_ >>= fun _ => _) = _
    rw [show ((NGram.skipBigramSlices limit a).toFinset ∩ (NGram.skipBigramSlices limit b).toFinset).card =
      (inter (NGram.skipBigramSlices limit a) (NGram.skipBigramSlices limit b)).card from rfl]
    simp only [bind, Except.bind, Rouge.div_nat _ _ na, Rouge.div_nat _ _ nb, f2]

example : 2 ≤ "abc".toList.length ∧ (NGram.skipBigramSlices 9 "abc".toList).length ≤ 2 ^ 53 ∧
    rougeSFl double "abc".toList "acb".toList 5 1 = .ok (6004799503160661 / 2 ^ 53) := by decide +kernel

/-- C81: ROUGE-SU likewise, of sequences that are not empty. -/
theorem rouge_su_float {fl : ℚ → ℚ} {M : Nat} (hr : Rounding fl) (hw : Whole fl M) (hM : 2 ≤ M)
    (h2 : ∀ x, fl (2 * x) = 2 * fl x) (a b : List α) (limit : Nat) (marker : α) (la : a ≠ []) (lb : b ≠ [])
    (hA : (NGram.skipBigramSlices limit (marker :: a)).length ≤ M)
    (hB : (NGram.skipBigramSlices limit (marker :: b)).length ≤ M) :
    ∃ q, rougeSUFl fl a b limit 1 marker = .ok q ∧ 0 ≤ q ∧ q ≤ 1 ∧ rougeSUFl fl b a limit 1 marker = .ok q := by
  have l1 := List.length_pos_iff.2 la
  have l2 := List.length_pos_iff.2 lb
  exact rouge_s_float hr hw hM h2 _ _ limit (by simp; omega) (by simp; omega) hA hB

/-- C81: floats satisfy what is asked of the rounding. -/
theorem doubles : Rounding double ∧ Whole double (2 ^ 53) ∧ (∀ x, double (2 * x) = 2 * double x) :=
  ⟨Rounding.double_rounding, double_whole, double_two⟩

/-- C81: rounding is felt: a precision and a recall of one fifth have an F-measure above one fifth. -/
theorem f_measure_above : fMeasureFl double 1 (double (1 / 5)) (double (1 / 5)) = .ok (7205759403792795 / 2 ^ 55) ∧
    double (1 / 5) < 7205759403792795 / 2 ^ 55 ∧
    (∃ q, rougeLFl double 99 "abcde".toList "axxxx".toList 1 = .ok q ∧ double (1 / 5) < q ∧
      Rouge.rougeL 99 "abcde".toList "axxxx".toList 1 = .ok (1 / 5)) := by
  refine ⟨by decide +kernel, by decide +kernel, 7205759403792795 / 2 ^ 55, by decide +kernel, by decide +kernel, by decide +kernel⟩

end Verif.Props.SimilarFloat
