import Verif.Lemmas.Median

/-! Property C13 (lib/daeso/string/median.py). -/
namespace Verif.Props.Median
open Verif Verif.Median

variable {α : Type}

/-- Sum of the distances from `x` to all members of `l`. -/
def sumDist (dist : α → α → ℚ) (l : List α) (x : α) : ℚ := (l.map (dist x)).sum

theorem tot_eq_sumDist (strings : List α) (dist : α → α → ℚ) (h0 : ∀ x, dist x x = 0) (k : Nat)
    (hk : k < strings.length) :
    tot strings dist strings.length k = sumDist dist strings strings[k] := by
  unfold tot sumDist
  have h1 : ∑ j ∈ (Finset.range strings.length).erase k, dd strings dist k j =
      ∑ j ∈ Finset.range strings.length, dd strings dist k j := by
    apply Finset.sum_erase
    simp [dd, hk, h0]
  rw [h1]
  have h2 : ∀ (l : List α) (n : Nat), l = strings.take n → n ≤ strings.length →
      ∑ j ∈ Finset.range n, dd strings dist k j = (l.map (dist strings[k])).sum := by
    intro l n
    induction n generalizing l with
    | zero => rintro rfl _; simp
    | succ n ih =>
      rintro rfl hn
      rw [Finset.sum_range_succ, ih _ rfl (by omega), List.take_succ_eq_append_getElem (by omega)]
      simp [dd, hk, show n < strings.length by omega]
  exact h2 strings strings.length (by simp) (le_refl _)

/-- C13a: for a symmetric distance with zero self-distance, on a non-empty list the result is the first
member whose summed distance to all members is minimal. -/
theorem median_minimal (strings : List α) (dist : α → α → ℚ) (hs : ∀ x y, dist x y = dist y x)
    (h0 : ∀ x, dist x x = 0) (hne : strings ≠ []) :
    ∃ pre m suf, strings = pre ++ m :: suf ∧ median strings dist = .ok m ∧
      (∀ x ∈ strings, sumDist dist strings m ≤ sumDist dist strings x) ∧
      (∀ x ∈ pre, sumDist dist strings m < sumDist dist strings x) := by
  obtain ⟨sod, h1, h2, h3⟩ := sods_ok strings dist hs
  have hsne : sod ≠ [] := by
    intro h; rw [h] at h2; exact hne (List.length_eq_zero_iff.1 h2.symm)
  obtain ⟨i, g1, hi, g2, g3⟩ := argmin_ok sod hsne
  have hi' : i < strings.length := by omega
  have key : ∀ k (hk : k < strings.length), sod[k]'(by omega) = sumDist dist strings strings[k] := by
    intro k hk
    have := h3 k hk
    rw [List.getElem?_eq_getElem (by omega)] at this
    rw [← tot_eq_sumDist strings dist h0 k hk]
    exact Option.some.inj this
  refine ⟨strings.take i, strings[i], strings.drop (i + 1), ?_, ?_, ?_, ?_⟩
  · rw [← List.drop_eq_getElem_cons hi', List.take_append_drop]
  · unfold median
    simp only [h1, g1, bind, Except.bind, Py.get_ok hi']
  · intro x hx
    obtain ⟨k, hk, rfl⟩ := List.getElem_of_mem hx
    rw [← key i hi', ← key k hk]
    exact g2 k (by omega)
  · intro x hx
    obtain ⟨k, hk, rfl⟩ := List.getElem_of_mem hx
    have hk' : k < i := by simp at hk; omega
    rw [List.getElem_take, ← key i hi', ← key k (by omega)]
    exact g3 k hk'

example : median [(1 : ℚ), 10, 3] (fun x y => |x - y|) = .ok 3 ∧ ([1, 10, 3] : List ℚ) ≠ [] ∧
    (∀ x y : ℚ, |x - y| = |y - x|) ∧ (∀ x : ℚ, |x - x| = 0) := by
  refine ⟨by decide +kernel, by simp, abs_sub_comm, by simp⟩

/-- C13b: the call fails exactly on the empty list, with IndexError. -/
theorem median_empty (dist : α → α → ℚ) : median ([] : List α) dist = .error .indexError := rfl

end Verif.Props.Median
