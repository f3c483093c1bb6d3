import Verif.Lemmas.MunkresRun

/-! Property C20 (lib/daeso/thirdparty/munkres.py). -/
namespace Verif.Props.Munkres
open Verif Verif.Munkres Verif.Spec.Assignment

/-- C20: for every non-empty rectangular matrix of costs, `compute` terminates without an error and
returns a complete one-to-one assignment (as many pairs as the smaller side has lines) whose total cost
is minimal among all complete assignments. -/
theorem munkres_optimal (M : List (List ℚ)) (c : Nat) (hM : M ≠ []) (hrect : ∀ row ∈ M, row.length = c) :
    ∃ l, IsAssignment M.length c l ∧
      (∀ l', IsAssignment M.length c l' → cost M l ≤ cost M l') ∧
      ∃ N, ∀ fuel, N ≤ fuel → compute fuel M = .ok l := by
  obtain ⟨row0, rest, rfl⟩ := List.exists_cons_of_ne_nil hM
  have hrow0 : row0.length = c := hrect row0 (by simp)
  set M := row0 :: rest with hMdef
  set n := max c M.length with hn
  set P := entry M with hPdef
  have h0 : 0 < n := by simp [hn, hMdef]
  have hlen : (padMatrix M).length = n := pad_length M c hM hrect
  have hent : entry (padMatrix M) = P := by funext i j; exact pad_entry M i j
  have hout : ∀ i j, M.length ≤ i ∨ c ≤ j → P i j = 0 := fun i j h => entry_out M c i j hrect h
  obtain ⟨D, hD, hint⟩ := exists_den P n
  have hb1 : Base P n D (step1 (initSt (padMatrix M))) :=
    step1_ok (s := initSt (padMatrix M)) hlen hent h0 hint
  obtain ⟨hb2, hs2, hc2⟩ := step2_ok hb1 (fun _ _ => rfl)
  obtain ⟨a, ha, hbf, hsf, hf⟩ := Py.whileLoop_inv (MainInv P n D) (meas D)
    (fun a => Base P n D a.1 ∧ Stars n a.1 ∧ (starRows a.1).card = n)
    (main_step h0 hD) (meas D (step2 (step1 (initSt (padMatrix M))), 3) + 1)
    (step2 (step1 (initSt (padMatrix M))), 3) ⟨hb2, hs2, .inl ⟨rfl, hc2⟩⟩ (Nat.lt_succ_self _)
  obtain ⟨u, v, huv⟩ := hbf.pot
  have hcost := final_cost hn hout hbf hsf hf u v huv
  refine ⟨(cells M.length c).filter fun p => a.1.mark p.1 p.2 = 1, final_assignment hn hbf.hn hsf hf, ?_,
    meas D (step2 (step1 (initSt (padMatrix M))), 3) + 3, ?_⟩
  · intro l' hl'
    have := weak_duality hn hout u v (fun i j hi hj => by
      have h1 := hbf.nonneg i j hi hj
      have h2 := huv i j hi hj
      linarith) hl'
    rw [← hcost] at this
    exact this
  · intro fuel hfuel
    obtain ⟨f, rfl⟩ : ∃ f, fuel = f + 2 := ⟨fuel - 2, by omega⟩
    have hrun := whileLoop_mono _ f _ _ (by omega) ha
    have : Py.whileLoop (fun a : St × Nat => .ok (decide (1 ≤ a.2 ∧ a.2 ≤ 6))) runStep (f + 2)
        (initSt (padMatrix M), 1) = .ok a := by
      rw [Py.whileLoop]
      simp only [le_refl, Nat.one_le_ofNat, and_self, decide_true, runStep]
      rw [Py.whileLoop]
      simp only [Nat.one_le_ofNat, Nat.reduceLeDiff, and_self, decide_true, runStep]
      exact hrun
    rw [hMdef] at this
    simp only [hMdef, compute, this, hrow0]

/-- C20: the empty matrix is rejected. -/
theorem munkres_empty (fuel : Nat) : compute fuel [] = .error .indexError := rfl

/-- C20: `make_cost_matrix` inverts entrywise and keeps the shape. -/
theorem make_cost_matrix_entries {α β : Type} (m : List (List α)) (f : α → β) :
    (makeCostMatrix m f).length = m.length ∧
    ∀ i j : Nat, ((makeCostMatrix m f)[i]?.bind (·[j]?)) = (m[i]?.bind (·[j]?)).map f := by
  refine ⟨by simp [makeCostMatrix], ?_⟩
  intro i j
  simp only [makeCostMatrix, List.getElem?_map]
  cases m[i]? <;> simp

/-- Non-vacuity: a run on the example of the module's documentation and on a rectangular matrix. -/
example : compute 20 [[5, 9, 1], [10, 3, 2], [8, 7, 4]] = .ok [(0, 0), (1, 1), (2, 2)] ∧
    compute 20 [[5, 9, 1, 3], [10, 3, 2, 1/2]] = .ok [(0, 2), (1, 3)] := by
  decide +kernel

example : IsAssignment 3 3 [(0, 2), (1, 1), (2, 0)] ∧
    cost [[5, 9, 1], [10, 3, 2], [8, 7, 4]] [(0, 2), (1, 1), (2, 0)] = 12 := by
  refine ⟨⟨by decide, by decide, by decide, rfl⟩, by norm_num [cost]⟩

end Verif.Props.Munkres
