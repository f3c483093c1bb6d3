import Verif.Lemmas.Levenshtein

/-! Properties C01–C03 (lib/daeso/string/levenshtein.py). -/
namespace Verif.Props.Levenshtein
open Verif Verif.Spec Verif.Levenshtein

variable {α : Type} [DecidableEq α]

/-- C01: the call returns, and the value is the least number of one-element edits. -/
theorem levenshtein_minimal (s1 s2 : List α) :
    ∃ d, levenshtein s1 s2 = .ok d ∧ IsEditDistance s1 s2 d :=
  ⟨_, levenshtein_eq s1 s2, lev_isEditDistance s1 s2⟩

example : levenshtein "kitten".toList "sitting".toList = .ok 3 := by decide

/-- C02a: distance zero exactly on equal sequences. -/
theorem levenshtein_zero_iff (s1 s2 : List α) : levenshtein s1 s2 = .ok 0 ↔ s1 = s2 := by
  rw [levenshtein_eq]
  simp [lev_eq_zero]

/-- C02b: symmetry. -/
theorem levenshtein_symm (s1 s2 : List α) : levenshtein s1 s2 = levenshtein s2 s1 := by
  rw [levenshtein_eq, levenshtein_eq, lev_comm]

/-- C02c: triangle inequality. -/
theorem levenshtein_triangle (s1 s2 s3 : List α) (a b c : Nat)
    (h12 : levenshtein s1 s2 = .ok a) (h23 : levenshtein s2 s3 = .ok b)
    (h13 : levenshtein s1 s3 = .ok c) : c ≤ a + b := by
  rw [levenshtein_eq] at *
  cases h12; cases h23; cases h13
  exact lev_le_chain (EditChain.trans' (chain_lev s1 s2) (chain_lev s2 s3))

example : levenshtein [1, 2] [2, 3] = .ok 2 ∧ levenshtein [2, 3] [3] = .ok 1 ∧
    levenshtein [1, 2] [3] = .ok 2 := by decide

/-- C03a: the distance lies between the length difference and the longer length. -/
theorem levenshtein_bounds (s1 s2 : List α) (d : Nat) (h : levenshtein s1 s2 = .ok d) :
    max s1.length s2.length - min s1.length s2.length ≤ d ∧ d ≤ max s1.length s2.length := by
  rw [levenshtein_eq] at h
  cases h
  have h1 := lev_ge s1 s2
  have h2 := lev_le_max s1 s2
  omega

example : levenshtein [1, 2, 3] [4] = .ok 3 := by decide

/-- C03b: `normalized_levenshtein` never raises; it is 0 for two empty sequences and otherwise the
distance divided by the longer length. -/
theorem normalized_value (s1 s2 : List α) :
    ∃ d, IsEditDistance s1 s2 d ∧
      normalized s1 s2 = .ok (if s1 = [] ∧ s2 = [] then 0 else
        (d : Rat) / (max s1.length s2.length : Nat)) := by
  refine ⟨lev s1 s2, lev_isEditDistance _ _, ?_⟩
  unfold normalized
  simp only [levenshtein_eq, bind, Except.bind]
  have : max s1.length s2.length = 0 ↔ s1 = [] ∧ s2 = [] := by
    rw [← List.length_eq_zero_iff, ← List.length_eq_zero_iff]; omega
  simp only [this]
  split <;> rfl

/-- C03c: the normalised distance is in [0,1], and 0 exactly on equal sequences. -/
theorem normalized_range (s1 s2 : List α) :
    ∃ q, normalized s1 s2 = .ok q ∧ 0 ≤ q ∧ q ≤ 1 ∧ (q = 0 ↔ s1 = s2) := by
  obtain ⟨d, hd, hn⟩ := normalized_value s1 s2
  have := IsEditDistance.unique hd (lev_isEditDistance s1 s2)
  subst this
  refine ⟨_, hn, ?_⟩
  split
  · rename_i h; simp [h.1, h.2]
  · rename_i h
    have hmax : max s1.length s2.length ≠ 0 := by
      intro h0; apply h
      rw [← List.length_eq_zero_iff, ← List.length_eq_zero_iff]; omega
    refine ⟨by positivity, ?_, ?_⟩
    · apply div_le_one_of_le₀
      · exact_mod_cast lev_le_max s1 s2
      · positivity
    · rw [div_eq_zero_iff, Nat.cast_eq_zero, Nat.cast_eq_zero, lev_eq_zero]
      simp [hmax]

/-- C03d: the normalised distance is symmetric. -/
theorem normalized_symm (s1 s2 : List α) : normalized s1 s2 = normalized s2 s1 := by
  unfold normalized
  rw [levenshtein_symm, max_comm]

example : normalized "ab".toList "abcd".toList = .ok (1/2) := by decide +kernel

end Verif.Props.Levenshtein
