import Verif.Lemmas.Lcs

/-! Properties C04, C05 (lib/daeso/string/lcs.py). -/
namespace Verif.Props.Lcs
open Verif Verif.Spec Verif.Lcs

variable {α : Type} [DecidableEq α]

/-- C04: with any loop budget above `len(a) + len(b)` the call terminates without exception and returns
a longest common subsequence.  (So the `while` loops stop on their own: the result does not depend on
the budget.) -/
theorem lcs_correct (a b : List α) (fuel : Nat) (hf : a.length + b.length < fuel) :
    ∃ c, lcs fuel a b = .ok c ∧ IsLcs a b c := by
  obtain ⟨c, h1, h2, _⟩ := lcs_ok a b fuel hf
  exact ⟨c, h1, h2⟩

example : lcs 11 "abcbd".toList "bdcb".toList = .ok "bcb".toList := by decide

/-- C05a: the length of the result does not depend on the order of the arguments. -/
theorem lcs_length_symm (a b c d : List α) (fuel : Nat) (hf : a.length + b.length < fuel)
    (h1 : lcs fuel a b = .ok c) (h2 : lcs fuel b a = .ok d) : c.length = d.length := by
  obtain ⟨c', e1, p1⟩ := lcs_correct a b fuel hf
  obtain ⟨d', e2, p2⟩ := lcs_correct b a fuel (by omega)
  rw [e1] at h1; rw [e2] at h2
  cases h1; cases h2
  exact Nat.le_antisymm (p2.2 c ⟨p1.1.2, p1.1.1⟩) (p1.2 d ⟨p2.1.2, p2.1.1⟩)

example : lcs 9 [1, 2, 3] [3, 1, 2] = .ok [1, 2] ∧ lcs 9 [3, 1, 2] [1, 2, 3] = .ok [1, 2] := by decide

theorem isLcs_length_le {a b c : List α} (h : IsLcs a b c) :
    c.length ≤ a.length ∧ c.length ≤ b.length := ⟨h.1.1.length_le, h.1.2.length_le⟩

/-- C05b: `normalized_lcs` never raises, is in [0,1], symmetric, 0 if an input is empty, and for
non-empty inputs it is 1 exactly when they are equal. -/
theorem normalized_lcs_props (a b : List α) (fuel : Nat) (hf : a.length + b.length < fuel) :
    ∃ q, normalized fuel a b = .ok q ∧ 0 ≤ q ∧ q ≤ 1 ∧
      normalized fuel b a = .ok q ∧
      (a = [] ∨ b = [] → q = 0) ∧
      (a ≠ [] → b ≠ [] → (q = 1 ↔ a = b)) := by
  obtain ⟨c, h1, h2⟩ := lcs_correct a b fuel hf
  obtain ⟨d, h3, h4⟩ := lcs_correct b a fuel (by omega)
  have hcd := lcs_length_symm a b c d fuel hf h1 h3
  obtain ⟨hca, hcb⟩ := isLcs_length_le h2
  unfold normalized
  simp only [h1, h3, bind, Except.bind, Nat.mul_comm b.length a.length, ← hcd]
  by_cases h0 : a.length * b.length = 0
  · rw [if_pos h0]
    refine ⟨0, rfl, le_refl _, zero_le_one, rfl, fun _ => rfl, ?_⟩
    intro ha hb
    rw [Nat.mul_eq_zero, List.length_eq_zero_iff, List.length_eq_zero_iff] at h0
    rcases h0 with h0 | h0 <;> contradiction
  · rw [if_neg h0]
    have hpos : (0 : ℝ) < Real.sqrt ((a.length * b.length : Nat) : ℝ) := by
      apply Real.sqrt_pos.2; exact_mod_cast Nat.pos_of_ne_zero h0
    have hsq : c.length * c.length ≤ a.length * b.length := Nat.mul_le_mul hca hcb
    refine ⟨_, rfl, by positivity, ?_, rfl, ?_, ?_⟩
    · rw [div_le_one hpos]
      apply Real.le_sqrt_of_sq_le
      rw [sq]; exact_mod_cast hsq
    · intro h; exfalso; apply h0; rcases h with rfl | rfl <;> simp
    · intro ha hb
      rw [div_eq_one_iff_eq (ne_of_gt hpos)]
      constructor
      · intro he
        have h5 : (c.length : ℝ) * c.length = ((a.length * b.length : Nat) : ℝ) := by
          rw [he]; exact Real.mul_self_sqrt (Nat.cast_nonneg _)
        have h6 : c.length * c.length = a.length * b.length := by exact_mod_cast h5
        have h7 : c.length = a.length := by
          by_contra hne
          have : c.length < a.length := by omega
          have hb' : 0 < b.length := List.length_pos_iff.2 hb
          nlinarith
        have h8 : c.length = b.length := by
          by_contra hne
          have : c.length < b.length := by omega
          have ha' : 0 < a.length := List.length_pos_iff.2 ha
          nlinarith
        rw [← h2.1.1.eq_of_length h7, ← h2.1.2.eq_of_length h8]
      · rintro rfl
        have h5 : c.length = a.length :=
          Nat.le_antisymm hca (h2.2 a ⟨List.Sublist.refl _, List.Sublist.refl _⟩)
        rw [h5, Nat.cast_mul, Real.sqrt_mul_self (Nat.cast_nonneg _)]

end Verif.Props.Lcs
