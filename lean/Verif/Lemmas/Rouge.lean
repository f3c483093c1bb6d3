import Verif.Spec.Scores
import Verif.Model.Rouge
import Verif.Lemmas.Lcs
import Verif.Lemmas.Similar
import Mathlib.Data.List.Perm.Subperm
import Mathlib.Data.List.Count

namespace Verif.Rouge
open Verif Verif.NGram
set_option linter.unusedSectionVars false

variable {α : Type} [DecidableEq α]

theorem fMeasure_ok (beta p r : ℚ) (hp : 0 ≤ p) (hp1 : p ≤ 1) (hr : 0 ≤ r) (hr1 : r ≤ 1) :
    ∃ q, fMeasure beta p r = .ok q ∧ 0 ≤ q ∧ q ≤ 1 := by
  rw [fMeasure, Py.catch_div]
  refine ⟨_, rfl, ?_⟩
  have hb : 0 ≤ beta ^ 2 := sq_nonneg _
  have hden : 0 ≤ beta ^ 2 * p + r := by positivity
  split
  · simp
  · rename_i h
    have hpos : 0 < beta ^ 2 * p + r := lt_of_le_of_ne hden (Ne.symm h)
    refine ⟨by positivity, ?_⟩
    rw [div_le_one hpos]
    have h1 : p * r ≤ p := mul_le_of_le_one_right hp hr1
    have h2 : p * r ≤ r := mul_le_of_le_one_left hr hp1
    nlinarith

theorem fMeasure_value (beta p r : ℚ) : fMeasure beta p r = .ok (Spec.fOf beta p r) := by
  rw [fMeasure, Py.catch_div, Spec.fOf]
  split
  · rename_i h; rw [h, div_zero]
  · rw [show (1 : ℚ) + beta ^ 2 = beta ^ 2 + 1 by ring]

theorem fMeasure_comm (p r : ℚ) : fMeasure 1 p r = fMeasure 1 r p := by
  unfold fMeasure
  congr 2 <;> ring

theorem fMeasure_one (beta : ℚ) : fMeasure beta 1 1 = .ok 1 := by
  rw [fMeasure, Py.catch_div]
  have : beta ^ 2 * 1 + 1 ≠ 0 := by positivity
  rw [if_neg this]
  congr 1
  rw [div_eq_one_iff_eq this]; ring

theorem fMeasure_zero (beta : ℚ) : fMeasure beta 0 0 = .ok 0 := by
  rw [fMeasure, Py.catch_div]; simp

theorem div_nat (c n : Nat) (hn : n ≠ 0) : Py.div (c : ℚ) (n : ℚ) = .ok ((c : ℚ) / n) := by
  have : (n : ℚ) ≠ 0 := by exact_mod_cast hn
  simp [Py.div, this]

theorem div_nat_zero (c : Nat) : Py.div (c : ℚ) ((0 : Nat) : ℚ) = .error .zeroDivision := by
  simp [Py.div]

theorem refNgrams_eq (pad : α) (refs : List (List α)) (n : Nat) :
    refs.foldl (fun acc rt => acc ++ nGramSlices rt n 0 pad) [] =
      refs.flatMap (fun rt => nGramSlices rt n 0 pad) := by
  suffices H : ∀ acc, refs.foldl (fun acc rt => acc ++ nGramSlices rt n 0 pad) acc =
      acc ++ refs.flatMap (fun rt => nGramSlices rt n 0 pad) by simpa using H []
  induction refs with
  | nil => simp
  | cons r refs ih => intro acc; simp [ih]

theorem countMatch_le {cand refs : List (List α)} (h : ∀ g, cand.count g ≤ refs.count g) :
    countMatch cand refs ≤ refs.length := by
  refine le_trans (List.length_filter_le _ _) ?_
  have e : (List.instBEq : BEq (List α)) = instBEqOfDecidableEq := by
    apply lawful_beq_subsingleton
  rw [e] at h
  have : cand.Subperm refs := List.subperm_iff_count.2 h
  exact this.length_le

theorem skip_nil_iff (limit : Nat) (t : List α) : skipBigramSlices limit t = [] ↔ t.length < 2 := by
  match t with
  | [] => simp [skipBigramSlices]
  | [a] => simp [skipBigramSlices, slice]
  | a :: b :: l =>
    simp only [skipBigramSlices, slice, List.drop_succ_cons, List.drop_zero]
    have : 2 + limit - 1 = limit + 1 := by omega
    simp [this]

end Verif.Rouge
