import Verif.Lemmas.Similar

/-! Properties C08–C10 (lib/daeso/string/similar.py). -/
namespace Verif.Props.Similar
open Verif Verif.Similar

variable {α : Type} [DecidableEq α]

/-- What a user expects of an overlap coefficient: it never raises, is in [0,1], is symmetric, and is 0
exactly when no element is shared. -/
def IsCoefficient {K : Type} [Zero K] [One K] [LE K] (m : List α → List α → Py K) : Prop :=
  ∀ a b, ∃ q, m a b = .ok q ∧ 0 ≤ q ∧ q ≤ 1 ∧ m b a = .ok q ∧ (q = 0 ↔ ∀ x ∈ a, x ∉ b)

/-- C08: dice. -/
theorem dice_coefficient : IsCoefficient (dice (α := α)) := by
  intro a b
  have h1 := inter_card_le_left a b
  have h2 := inter_card_le_right a b
  obtain ⟨p1, p2, p3, _⟩ := ratio_props (2 * (inter a b).card) (a.length + b.length) (by omega)
  refine ⟨_, by rw [dice_eq, catch_ratio], p1, p2, ?_, ?_⟩
  · rw [dice_eq, catch_ratio, inter_comm b a, Nat.add_comm b.length]
  · rw [p3, ← inter_card_zero]; omega

/-- C08: jaccard. -/
theorem jaccard_coefficient : IsCoefficient (jaccard (α := α)) := by
  intro a b
  obtain ⟨p1, p2, p3, _⟩ := ratio_props _ _ (inter_card_le_union a b)
  refine ⟨_, by rw [jaccard, catch_ratio], p1, p2, ?_, ?_⟩
  · rw [jaccard, catch_ratio, inter_comm b a, Finset.union_comm]
  · rw [p3, ← inter_card_zero]

/-- C08: tanimoto. -/
theorem tanimoto_coefficient : IsCoefficient (tanimoto (α := α)) := by
  intro a b
  have h1 := inter_card_le_left a b
  have h2 := inter_card_le_right a b
  obtain ⟨p1, p2, p3, _⟩ := ratio_props (inter a b).card (a.length + b.length - (inter a b).card)
    (by omega)
  refine ⟨_, by rw [tanimoto_eq, catch_ratio], p1, p2, ?_, ?_⟩
  · rw [tanimoto_eq, catch_ratio, inter_comm b a, Nat.add_comm b.length]
  · rw [p3, ← inter_card_zero]

/-- C08: cosine. -/
theorem cosine_coefficient : IsCoefficient (cosine (α := α)) := by
  intro a b
  obtain ⟨q, h, p1, p2, p3, _⟩ := sqrt_ratio (inter a b).card a.length b.length
    (inter_card_le_left a b) (inter_card_le_right a b)
  refine ⟨q, h, p1, p2, ?_, ?_⟩
  · rw [← h, cosine, inter_comm b a, Nat.mul_comm]
  · rw [p3, ← inter_card_zero]

/-- C08: overlap_min. -/
theorem overlap_min_coefficient : IsCoefficient (overlapMin (α := α)) := by
  intro a b
  have h1 := inter_card_le_left a b
  have h2 := inter_card_le_right a b
  obtain ⟨p1, p2, p3, _⟩ := ratio_props (inter a b).card (min a.length b.length) (by omega)
  refine ⟨_, by rw [overlapMin, catch_ratio], p1, p2, ?_, ?_⟩
  · rw [overlapMin, catch_ratio, inter_comm b a, Nat.min_comm]
  · rw [p3, ← inter_card_zero]

/-- C08: overlap_max. -/
theorem overlap_max_coefficient : IsCoefficient (overlapMax (α := α)) := by
  intro a b
  have h1 := inter_card_le_left a b
  obtain ⟨p1, p2, p3, _⟩ := ratio_props (inter a b).card (max a.length b.length) (by omega)
  refine ⟨_, by rw [overlapMax, catch_ratio], p1, p2, ?_, ?_⟩
  · rw [overlapMax, catch_ratio, inter_comm b a, Nat.max_comm]
  · rw [p3, ← inter_card_zero]

/-- C08: type_match counts the distinct shared elements, token_match the shared tokens; the symmetric
variant is symmetric. -/
theorem match_counts (a b : List α) :
    typeMatch a b = (a.toFinset.filter (· ∈ b)).card ∧ typeMatch a b = typeMatch b a ∧
    tokenMatch a b = a.countP (fun x => decide (x ∈ b)) ∧ typeMatch a b ≤ tokenMatch a b ∧
    symTokenMatch a b = symTokenMatch b a := by
  refine ⟨?_, ?_, ?_, ?_, ?_⟩
  · unfold typeMatch inter; congr 1; ext x; simp
  · rw [typeMatch, inter_comm]; rfl
  · simp [tokenMatch, List.countP_eq_length_filter]
  · unfold typeMatch tokenMatch
    refine le_trans (Finset.card_le_card ?_) (List.toFinset_card_le _)
    intro x; simp [inter]
  · simp [symTokenMatch, Nat.add_comm]

/-- C08: what the coefficients are, with `n` the number of different elements shared (0 when the denominator is). -/
theorem coefficient_values (a b : List α) :
    let n : ℚ := (a.dedup.filter (· ∈ b)).length
    dice a b = .ok (2 * n / (a.length + b.length)) ∧ tanimoto a b = .ok (n / (a.length + b.length - n)) ∧
    jaccard a b = .ok (n / (a ++ b).dedup.length) ∧ overlapMin a b = .ok (n / min a.length b.length) ∧
    overlapMax a b = .ok (n / max a.length b.length) ∧
    cosine a b = .ok ((n : ℝ) / Real.sqrt (a.length * b.length)) ∧
    symTokenMatch a b = ((a.countP (· ∈ b) : ℚ) + b.countP (· ∈ a)) / 2 := by
  intro n
  have hn : (((inter a b).card : Nat) : ℚ) = n := by
    show _ = (((a.dedup.filter (· ∈ b)).length : Nat) : ℚ)
    rw [← List.toFinset_card_of_nodup ((List.nodup_dedup a).filter _)]
    congr 2
    ext x
    simp [inter]
  have hz : ∀ x y : ℚ, Py.catchZeroDiv 0 (Py.div x y) = .ok (x / y) := by
    intro x y
    rw [Py.catch_div]
    split
    · rename_i h; rw [h, div_zero]
    · rfl
  have hu : (((a.toFinset ∪ b.toFinset).card : Nat) : ℚ) = (a ++ b).dedup.length := by
    rw [← List.toFinset_card_of_nodup (List.nodup_dedup (a ++ b))]
    congr 2
    ext x
    simp
  refine ⟨?_, ?_, ?_, ?_, ?_, ?_, ?_⟩
  · rw [dice, hz, hn]
  · rw [tanimoto, hz, hn]
  · rw [jaccard, hz, hn, hu]
  · rw [overlapMin, hz, hn]
  · rw [overlapMax, hz, hn]
  · obtain ⟨q, e, h1, h2⟩ := Py.catch_divR ((inter a b).card : ℝ) (Real.sqrt ((a.length * b.length : Nat) : ℝ))
    rw [cosine, e]
    have hr : (((inter a b).card : Nat) : ℝ) = ((n : ℚ) : ℝ) := by rw [← hn]; push_cast; rfl
    congr 1
    rw [← hr, show ((a.length : ℝ) * b.length) = ((a.length * b.length : Nat) : ℝ) by push_cast; rfl]
    by_cases h0 : Real.sqrt ((a.length * b.length : Nat) : ℝ) = 0
    · rw [h1 h0, h0, div_zero]
    · exact h2 h0
  · simp only [symTokenMatch, tokenMatch, List.countP_eq_length_filter]
    push_cast; rfl

/-- C09: jaccard is 1 exactly on sequences with the same non-empty set of elements. -/
theorem jaccard_eq_one (a b : List α) : jaccard a b = .ok 1 ↔ a ≠ [] ∧ ∀ x, x ∈ a ↔ x ∈ b := by
  obtain ⟨_, _, _, p4⟩ := ratio_props _ _ (inter_card_le_union a b)
  rw [jaccard, catch_ratio, Except.ok.injEq, p4, inter_card_eq_union]
  constructor
  · rintro ⟨h1, h2⟩
    refine ⟨?_, h2⟩
    rintro rfl
    have : b = [] := by
      cases b with
      | nil => rfl
      | cons y b => have := (h2 y).2 (by simp); simp at this
    subst this; simp at h1
  · rintro ⟨h1, h2⟩
    refine ⟨?_, h2⟩
    obtain ⟨x, l, rfl⟩ := List.exists_cons_of_ne_nil h1
    apply Finset.card_ne_zero_of_mem (a := x)
    simp

example : jaccard "aab".toList "bba".toList = .ok 1 := by decide +kernel

/-- C09 (with duplicates the values are less, see `dice_not_one_on_identical`): dice, tanimoto and overlap_max are 1 exactly on
duplicate-free non-empty sequences with the same elements. -/
theorem dice_eq_one (a b : List α) :
    dice a b = .ok 1 ↔ a ≠ [] ∧ a.Nodup ∧ b.Nodup ∧ ∀ x, x ∈ a ↔ x ∈ b := by
  have h1 := inter_card_le_left a b
  have h2 := inter_card_le_right a b
  obtain ⟨_, _, _, p4⟩ := ratio_props (2 * (inter a b).card) (a.length + b.length) (by omega)
  rw [dice_eq, catch_ratio, Except.ok.injEq, p4]
  have hb := both_full a b
  unfold SameSet at hb
  rw [← hb, ← List.length_pos_iff]
  omega

example : dice "ab".toList "ba".toList = .ok 1 := by decide +kernel

theorem tanimoto_eq_one (a b : List α) :
    tanimoto a b = .ok 1 ↔ a ≠ [] ∧ a.Nodup ∧ b.Nodup ∧ ∀ x, x ∈ a ↔ x ∈ b := by
  have h1 := inter_card_le_left a b
  have h2 := inter_card_le_right a b
  obtain ⟨_, _, _, p4⟩ := ratio_props (inter a b).card (a.length + b.length - (inter a b).card)
    (by omega)
  rw [tanimoto_eq, catch_ratio, Except.ok.injEq, p4]
  have hb := both_full a b
  unfold SameSet at hb
  rw [← hb, ← List.length_pos_iff]
  omega

theorem overlap_max_eq_one (a b : List α) :
    overlapMax a b = .ok 1 ↔ a ≠ [] ∧ a.Nodup ∧ b.Nodup ∧ ∀ x, x ∈ a ↔ x ∈ b := by
  have h1 := inter_card_le_left a b
  have h2 := inter_card_le_right a b
  obtain ⟨_, _, _, p4⟩ := ratio_props (inter a b).card (max a.length b.length) (by omega)
  rw [overlapMax, catch_ratio, Except.ok.injEq, p4]
  have hb := both_full a b
  unfold SameSet at hb
  rw [← hb, ← List.length_pos_iff]
  omega

theorem cosine_eq_one (a b : List α) :
    cosine a b = .ok 1 ↔ a ≠ [] ∧ a.Nodup ∧ b.Nodup ∧ ∀ x, x ∈ a ↔ x ∈ b := by
  obtain ⟨q, h, _, _, _, p4⟩ := sqrt_ratio (inter a b).card a.length b.length
    (inter_card_le_left a b) (inter_card_le_right a b)
  have hb := both_full a b
  unfold SameSet at hb
  rw [cosine, h, Except.ok.injEq, p4, ← hb, ← List.length_pos_iff]

/-- overlap_min is 1 exactly when the shorter sequence is non-empty, duplicate free and all its elements
occur in the other. -/
theorem overlap_min_eq_one (a b : List α) (hle : a.length ≤ b.length) :
    overlapMin a b = .ok 1 ↔ a ≠ [] ∧ a.Nodup ∧ ∀ x ∈ a, x ∈ b := by
  have h1 := inter_card_le_left a b
  have h2 := inter_card_le_right a b
  obtain ⟨_, _, _, p4⟩ := ratio_props (inter a b).card (min a.length b.length) (by omega)
  rw [overlapMin, catch_ratio, Except.ok.injEq, p4, ← inter_card_eq_left, ← List.length_pos_iff]
  omega

example : overlapMin [1] [2, 1] = .ok 1 := by decide +kernel

/-- C09 is violated by dice (and by tanimoto and overlap_max): identical sequences regarded as
sets do not give 1 when an element repeats. -/
theorem dice_not_one_on_identical :
    dice "aa".toList "aa".toList = .ok (1 / 2) ∧ tanimoto "aa".toList "aa".toList = .ok (1 / 3) ∧
    overlapMax "aa".toList "aa".toList = .ok (1 / 2) := by decide +kernel

/-- C10: generalized_dice on any list of sequences: in [0,1], independent of the order of the list. -/
theorem gen_dice_range (ls : List (List α)) :
    ∃ q, genDice ls = .ok q ∧ 0 ≤ q ∧ q ≤ 1 ∧ ∀ ls', ls.Perm ls' → genDice ls' = .ok q := by
  have hle : ls.length * (common ls).card ≤ (ls.map List.length).sum := by
    by_cases h : ls = []
    · simp [h]
    · have := sum_ge_mul (common ls).card (ls.map List.length) (by
        intro x hx
        obtain ⟨l, hl, rfl⟩ := List.mem_map.1 hx
        exact common_card_le h l hl)
      simpa using this
  obtain ⟨p1, p2, _, _⟩ := ratio_props _ _ hle
  refine ⟨_, by rw [genDice_eq, catch_ratio], p1, p2, ?_⟩
  intro ls' hp
  rw [genDice_eq, catch_ratio, hp.length_eq, common_perm hp, (hp.map List.length).sum_eq]

/-- C10: generalized_jaccard likewise. -/
theorem gen_jaccard_range (ls : List (List α)) :
    ∃ q, genJaccard ls = .ok q ∧ 0 ≤ q ∧ q ≤ 1 ∧ ∀ ls', ls.Perm ls' → genJaccard ls' = .ok q := by
  obtain ⟨p1, p2, _, _⟩ := ratio_props _ _ (Finset.card_le_card (common_subset_all ls))
  refine ⟨_, by rw [genJaccard_eq, catch_ratio], p1, p2, ?_⟩
  intro ls' hp
  rw [genJaccard_eq, catch_ratio, common_perm hp, allElems_perm hp]

/-- C10: generalized_cosine is in [0,1] and order independent for every list except a
single sequence (see `gen_cosine_singleton_exceeds`). -/
theorem gen_cosine_range (ls : List (List α)) (hn : ls.length ≠ 1) :
    ∃ q, genCosine ls = .ok q ∧ 0 ≤ q ∧ q ≤ 1 ∧ ∀ ls', ls.Perm ls' → genCosine ls' = .ok q := by
  by_cases h : ls = []
  · subst h
    refine ⟨0, rfl, le_refl _, zero_le_one, ?_⟩
    intro ls' hp
    rw [List.nil_perm.1 hp]; rfl
  · obtain ⟨q, hq, hz, hnz⟩ := Py.catch_divR ((common ls).card : ℝ)
      (Real.sqrt (((ls.map List.length).prod : Nat) : ℝ))
    have hperm : ∀ ls', ls.Perm ls' → genCosine ls' = .ok q := by
      intro ls' hp
      have h' : ls' ≠ [] := by rintro rfl; exact h (List.perm_nil.1 hp)
      rw [genCosine_eq _ h', ← common_perm hp, ← (hp.map List.length).prod_eq]
      exact hq
    refine ⟨q, by rw [genCosine_eq _ h]; exact hq, ?_, ?_, hperm⟩
    · by_cases h0 : Real.sqrt (((ls.map List.length).prod : Nat) : ℝ) = 0
      · rw [hz h0]
      · rw [hnz h0]; positivity
    · by_cases h0 : Real.sqrt (((ls.map List.length).prod : Nat) : ℝ) = 0
      · rw [hz h0]; exact zero_le_one
      · rw [hnz h0]
        have hpos : 0 < Real.sqrt (((ls.map List.length).prod : Nat) : ℝ) :=
          lt_of_le_of_ne (Real.sqrt_nonneg _) (Ne.symm h0)
        rw [div_le_one hpos]
        apply Real.le_sqrt_of_sq_le
        have hc := common_card_le h
        match ls, hn, h with
        | a :: b :: rest, _, _ =>
          have ha := hc a (by simp)
          have hb := hc b (by simp)
          by_cases hz0 : (common (a :: b :: rest)).card = 0
          · rw [hz0]
            have : (0 : ℝ) ≤ ((((a :: b :: rest).map List.length).prod : Nat) : ℝ) := Nat.cast_nonneg _
            simpa using this
          · have hr := prod_ge _ (Nat.pos_of_ne_zero hz0) (rest.map List.length) (by
              intro x hx
              obtain ⟨l, hl, rfl⟩ := List.mem_map.1 hx
              exact hc l (by simp [hl]))
            have : (common (a :: b :: rest)).card ^ 2 ≤ ((a :: b :: rest).map List.length).prod := by
              simp only [List.map_cons, List.prod_cons, sq]
              rw [← Nat.mul_assoc]
              exact le_trans (Nat.mul_le_mul ha hb) (Nat.le_mul_of_pos_right _ hr)
            exact_mod_cast this

example : [[1, 2], [2, 3], [2]].length ≠ 1 := by decide

/-- C10 is violated by generalized_cosine on a single sequence with two distinct elements. -/
theorem gen_cosine_singleton_exceeds : ∃ q, genCosine [[0, 1]] = .ok q ∧ 1 < q := by
  obtain ⟨q, hq, hz, hnz⟩ := Py.catch_divR ((common [[0, 1]] : Finset Nat).card : ℝ)
    (Real.sqrt ((([[0, 1]].map (List.length (α := Nat))).prod : Nat) : ℝ))
  refine ⟨q, by rw [genCosine_eq _ (by simp)]; exact hq, ?_⟩
  have h2 : (common [[0, 1]] : Finset Nat).card = 2 := by decide
  have h3 : ([[0, 1]].map (List.length (α := Nat))).prod = 2 := by decide
  rw [h2, h3] at hnz
  have hpos : (0 : ℝ) < Real.sqrt ((2 : Nat) : ℝ) := Real.sqrt_pos.2 (by norm_num)
  rw [hnz (ne_of_gt hpos), lt_div_iff₀ hpos, one_mul, Real.sqrt_lt' (by norm_num)]
  norm_num

/-- C10: what the generalised coefficients of a non-empty list are, in terms of the elements `C` common to all its
sequences and the elements `U` of any of them.  (A quotient by 0 is 0.) -/
theorem gen_values (ls : List (List α)) (hne : ls ≠ []) (C U : Finset α) (hC : ∀ x, x ∈ C ↔ ∀ l ∈ ls, x ∈ l)
    (hU : ∀ x, x ∈ U ↔ ∃ l ∈ ls, x ∈ l) :
    genDice ls = .ok ((ls.length * C.card : ℚ) / ((ls.map List.length).sum : Nat)) ∧
    genJaccard ls = .ok ((C.card : ℚ) / U.card) ∧
    genCosine ls = .ok ((C.card : ℝ) / Real.sqrt ((ls.map List.length).prod : Nat)) := by
  have e1 : common ls = C := by ext x; rw [mem_common hne, hC]
  have e2 : allElems ls = U := by ext x; rw [mem_allElems, hU]
  refine ⟨?_, ?_, ?_⟩
  · rw [genDice_eq, catch_ratio, e1]
    split
    · rename_i h; rw [h, div_zero]
    · push_cast; rfl
  · rw [genJaccard_eq, catch_ratio, e1, e2]
    split
    · rename_i h; rw [h, div_zero]
    · rfl
  · rw [genCosine_eq _ hne, e1]
    obtain ⟨q, hq, hz, hnz⟩ := Py.catch_divR (C.card : ℝ) (Real.sqrt (((ls.map List.length).prod : Nat) : ℝ))
    rw [hq]
    by_cases h : Real.sqrt (((ls.map List.length).prod : Nat) : ℝ) = 0
    · rw [hz h, h, div_zero]
    · rw [hnz h]

example : (∀ x, x ∈ ({1} : Finset Nat) ↔ ∀ l ∈ [[1, 2], [1, 3], [3, 1, 1]], x ∈ l) ∧
    genDice [[1, 2], [1, 3], [3, 1, 1]] = .ok (3 / 7) := by
  refine ⟨fun x => ?_, by decide +kernel⟩
  simp
  omega

/-- C10: on two sequences the generalised coefficients are the binary ones; on none they are 0. -/
theorem gen_two (a b : List α) :
    genDice [a, b] = dice a b ∧ genJaccard [a, b] = jaccard a b ∧ genCosine [a, b] = cosine a b ∧
    genDice ([] : List (List α)) = .ok 0 ∧ genJaccard ([] : List (List α)) = .ok 0 ∧
    genCosine ([] : List (List α)) = .ok 0 := by
  refine ⟨?_, ?_, ?_, rfl, rfl, rfl⟩
  · rw [genDice_eq, dice_eq, common_two]; simp
  · rw [genJaccard_eq, jaccard, common_two]
    congr 4
    simp [allElems]
  · rw [genCosine_eq _ (by simp), cosine, common_two]; simp

end Verif.Props.Similar
