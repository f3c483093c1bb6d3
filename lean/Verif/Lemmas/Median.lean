import Verif.Model.Median
import Verif.Lemmas.Base
import Mathlib.Algebra.BigOperators.Group.Finset.Basic
import Mathlib.Algebra.BigOperators.Intervals

namespace Verif.Median
open Verif
set_option linter.unusedSectionVars false

variable {α : Type}

/-- Distance between the members at positions `i` and `j` as the loop computes it (0 out of range). -/
def dd (strings : List α) (dist : α → α → ℚ) (i j : Nat) : ℚ :=
  match strings[i]?, strings[j]? with
  | some x, some y => dist x y
  | _, _ => 0

/-- Sum of the distances of `k` to all positions below `n` other than `k`. -/
def tot (strings : List α) (dist : α → α → ℚ) (n k : Nat) : ℚ :=
  ∑ j ∈ (Finset.range n).erase k, dd strings dist k j

theorem tot_succ_ne (strings : List α) (dist : α → α → ℚ) (n k : Nat) (h : k ≠ n) :
    tot strings dist (n + 1) k = tot strings dist n k + dd strings dist k n := by
  unfold tot
  rw [Finset.range_add_one, Finset.erase_insert_of_ne (Ne.symm h), Finset.sum_insert (by simp), add_comm]

theorem tot_self_succ (strings : List α) (dist : α → α → ℚ) (n : Nat) :
    tot strings dist (n + 1) n = ∑ j ∈ Finset.range n, dd strings dist n j := by
  unfold tot
  rw [Finset.range_add_one, Finset.erase_insert (by simp)]

theorem sods_ok (strings : List α) (dist : α → α → ℚ) (hs : ∀ x y, dist x y = dist y x) :
    ∃ sod, sods strings dist = .ok sod ∧ sod.length = strings.length ∧
      ∀ k, k < strings.length → sod[k]? = some (tot strings dist strings.length k) := by
  have dsymm : ∀ i j, dd strings dist i j = dd strings dist j i := by
    intro i j
    unfold dd
    cases strings[i]? <;> cases strings[j]? <;> simp [hs]
  unfold sods
  obtain ⟨sod, h1, h2, h3⟩ := Py.forRange_inv
    (f := fun i sod => Py.forRange 0 i sod fun j sod => addDist strings dist i j sod)
    (fun i sod => sod.length = strings.length ∧ ∀ k, k < strings.length →
      sod[k]? = some (if k < i then tot strings dist i k else 0))
    (a := 0) (b := strings.length) (s := List.replicate strings.length 0) (by omega)
    (by
      refine ⟨by simp, fun k hk => ?_⟩
      simp [hk])
    (by
      intro i sod _ hi ⟨hl, hv⟩
      obtain ⟨sod', g1, g2, g3⟩ := Py.forRange_inv
        (f := fun j sod => addDist strings dist i j sod)
        (fun j sod => sod.length = strings.length ∧ ∀ k, k < strings.length →
          sod[k]? = some (if k < j then tot strings dist (i + 1) k
            else if k < i then tot strings dist i k
            else if k = i then ∑ l ∈ Finset.range j, dd strings dist i l else 0))
        (a := 0) (b := i) (s := sod) (by omega)
        (by
          refine ⟨hl, fun k hk => ?_⟩
          rw [hv k hk]; simp)
        (by
          intro j s _ hj ⟨hl', hv'⟩
          have hjl : j < strings.length := by omega
          have e1 := Py.get_ok hi
          have e2 := Py.get_ok hjl
          have hdd : dd strings dist i j = dist strings[i] strings[j] := by
            simp [dd, hi, hjl]
          have e3 := Py.get_eq_ok_iff.2 (hv' i hi)
          have e4 := hv' j hjl
          rw [if_neg (by omega), if_pos hj] at e4
          rw [if_neg (by omega), if_neg (by omega), if_pos rfl] at e3
          refine ⟨(s.set i (∑ l ∈ Finset.range (j + 1), dd strings dist i l)).set j
            (tot strings dist (i + 1) j), ?_, by simp [hl'], ?_⟩
          · unfold addDist
            have e5 : Py.get (s.set i (∑ l ∈ Finset.range j, dd strings dist i l + dist strings[i] strings[j])) j
                = .ok (tot strings dist i j) := by
              apply Py.get_eq_ok_iff.2
              rw [List.getElem?_set_ne (by omega), e4]
            simp only [e1, e2, e3, bind, Except.bind]
            rw [Py.set_ok (by omega)]
            simp only [e5]
            rw [Py.set_ok (by simp; omega), tot_succ_ne _ _ _ _ (by omega), dsymm j i, hdd,
              Finset.sum_range_succ, hdd]
          · intro k hk
            by_cases hkj : k = j
            · subst hkj
              rw [List.getElem?_set_self (by simp; omega)]
              simp
            · rw [List.getElem?_set_ne (Ne.symm hkj)]
              by_cases hki : k = i
              · subst hki
                rw [List.getElem?_set_self (by omega)]
                rw [if_neg (by omega), if_neg (by omega), if_pos rfl]
              · rw [List.getElem?_set_ne (Ne.symm hki), hv' k hk]
                by_cases hlt : k < j
                · rw [if_pos hlt, if_pos (by omega)]
                · rw [if_neg hlt, if_neg (by omega : ¬ k < j + 1), if_neg hki, if_neg hki])
      refine ⟨sod', g1, g2, fun k hk => ?_⟩
      rw [g3 k hk]
      by_cases hlt : k < i
      · rw [if_pos hlt, if_pos (by omega)]
      · by_cases he : k = i
        · subst he
          rw [if_neg hlt, if_neg hlt, if_pos rfl, if_pos (by omega), tot_self_succ]
        · rw [if_neg hlt, if_neg hlt, if_neg he, if_neg (by omega)])
  refine ⟨sod, h1, h2, fun k hk => ?_⟩
  rw [h3 k hk, if_pos hk]

theorem argmin_ok (sod : List ℚ) (h : sod ≠ []) :
    ∃ i, argmin sod = .ok i ∧ ∃ hi : i < sod.length,
      (∀ k (hk : k < sod.length), sod[i] ≤ sod[k]) ∧ (∀ k (hk : k < i), sod[i] < sod[k]) := by
  have hpos : 0 < sod.length := List.length_pos_iff.2 h
  unfold argmin
  simp only [Py.get_ok hpos, bind, Except.bind]
  obtain ⟨r, h1, h2⟩ := Py.forRange_inv
    (f := argminStep sod)
    (fun j s => ∃ hi : s.1 < sod.length, s.1 < j ∧ s.2 = sod[s.1] ∧
      (∀ k (hk : k < sod.length), k < j → sod[s.1] ≤ sod[k]) ∧ (∀ k (hk : k < s.1), sod[s.1] < sod[k]))
    (a := 1) (b := sod.length) (s := (0, sod[0])) (by omega)
    (by
      refine ⟨hpos, by simp, rfl, ?_, ?_⟩
      · intro k hk hk1
        have : k = 0 := by omega
        subst this; exact le_refl _
      · intro k hk; simp at hk)
    (by
      rintro j ⟨i, m⟩ hj1 hj ⟨hi, hij, hm, hmin, hfirst⟩
      simp only at hi hij hm hmin hfirst
      simp only [argminStep, Py.get_ok hj, bind, Except.bind]
      by_cases hlt : sod[j] < m
      · refine ⟨(j, sod[j]), by simp [hlt], hj, by simp, rfl, ?_, ?_⟩
        · intro k hk hkj
          by_cases he : k = j
          · subst he; exact le_refl _
          · exact le_of_lt (lt_of_lt_of_le (hm ▸ hlt) (hmin k hk (by omega)))
        · intro k hk
          exact lt_of_lt_of_le (hm ▸ hlt) (hmin k (by simp at hk; omega) hk)
      · refine ⟨(i, m), by simp [hlt], hi, by simp; omega, hm, ?_, hfirst⟩
        intro k hk hkj
        by_cases he : k = j
        · subst he; simp only; rw [← hm]; exact not_lt.1 hlt
        · exact hmin k hk (by omega))
  obtain ⟨hi, _, _, hmin, hfirst⟩ := h2
  refine ⟨r.1, ?_, hi, fun k hk => hmin k hk hk, hfirst⟩
  rw [h1]

end Verif.Median
