import Verif.Lemmas.NeedlemanWunsch

/-! Properties C14, C15 (lib/daeso/string/needleman_wunsch.py). -/
namespace Verif.Props.NW
open Verif Verif.Spec Verif.NW Verif.Align

variable {α : Type}

/-- C14 + C15 (gap costs constant on each of the two sequences; for other gap costs optimality
fails, see `nw_nonuniform_not_optimal`): the call terminates without exception; it returns an alignment
of the two sequences (strictly increasing index pairs in range) whose score is the value in the last
cell of the returned matrix, and no alignment scores higher. -/
theorem needleman_wunsch_optimal (s t : List α) (sim : α → α → ℚ) (gap : α → ℚ) (c1 c2 : ℚ)
    (h1 : ∀ x ∈ s, gap x = c1) (h2 : ∀ y ∈ t, gap y = c2) (fuel : Nat)
    (hf : s.length + t.length < fuel) :
    ∃ (m : Matrix) (A : List (Nat × Nat)) (v : ℚ) (d : Dir),
      needlemanWunsch fuel s t sim gap =
        .ok (m, A.map fun p => ((p.1 : Int), (p.2 : Int))) ∧
      m (s.length, t.length) = some (v, d) ∧
      IsAlignment s t A 0 s.length 0 t.length ∧
      alignScore sim gap s t A 0 s.length 0 t.length = v ∧
      ∀ A', IsAlignment s t A' 0 s.length 0 t.length →
        alignScore sim gap s t A' 0 s.length 0 t.length ≤ v := by
  obtain ⟨m, A, e1, e2, e3, e4⟩ := trace_ok s t sim gap c1 c2 h1 h2 fuel hf
  refine ⟨m, A, (F s t sim gap s.length t.length).1, (F s t sim gap s.length t.length).2, e1,
    e2 _ _ (le_refl _) (le_refl _), e3, e4, ?_⟩
  intro A' hA'
  exact F_upper s t sim gap c1 c2 h1 h2 _ _ (le_refl _) (le_refl _) A' hA'.inc hA'.within

/-- C15: for every gap cost, the call terminates without exception and returns an alignment of the two sequences. -/
theorem needleman_wunsch_valid (s t : List α) (sim : α → α → ℚ) (gap : α → ℚ) (fuel : Nat)
    (hf : s.length + t.length < fuel) :
    ∃ (m : Matrix) (A : List (Nat × Nat)),
      needlemanWunsch fuel s t sim gap = .ok (m, A.map fun p => ((p.1 : Int), (p.2 : Int))) ∧
      (∀ i ≤ s.length, ∀ j ≤ t.length, (m (i, j)).isSome) ∧
      IsAlignment s t A 0 s.length 0 t.length := by
  obtain ⟨m, A, e1, e2, e3⟩ := trace_valid s t sim gap fuel hf
  exact ⟨m, A, e1, fun i hi j hj => by rw [e2 i j hi hj]; rfl, e3⟩

/-- C14: every entry of the returned matrix is the optimal score of the corresponding prefixes. -/
theorem needleman_wunsch_matrix (s t : List α) (sim : α → α → ℚ) (gap : α → ℚ) (c1 c2 : ℚ)
    (h1 : ∀ x ∈ s, gap x = c1) (h2 : ∀ y ∈ t, gap y = c2) (fuel : Nat)
    (hf : s.length + t.length < fuel) (m : Matrix) (al : List (Int × Int))
    (h : needlemanWunsch fuel s t sim gap = .ok (m, al)) (i j : Nat) (hi : i ≤ s.length)
    (hj : j ≤ t.length) :
    ∃ v d, m (i, j) = some (v, d) ∧
      (∃ A, IsAlignment s t A 0 i 0 j ∧ alignScore sim gap s t A 0 i 0 j = v) ∧
      ∀ A', IsAlignment s t A' 0 i 0 j → alignScore sim gap s t A' 0 i 0 j ≤ v := by
  obtain ⟨m', A, e1, e2, _, _⟩ := trace_ok s t sim gap c1 c2 h1 h2 fuel hf
  rw [e1] at h
  simp only [Except.ok.injEq, Prod.mk.injEq] at h
  obtain ⟨rfl, _⟩ := h
  exact ⟨_, _, e2 i j hi hj, F_attained s t sim gap c1 c2 h1 h2 i j hi hj, fun A' hA' =>
    F_upper s t sim gap c1 c2 h1 h2 i j hi hj A' hA'.inc hA'.within⟩

/-- Non-vacuity: a run with gaps on both sides. -/
example : (needlemanWunsch 10 "abcd".toList "bxd".toList (fun x y => if x = y then 2 else -1)
    (fun _ => -1)).map (fun r => (r.1 (4, 3), r.2)) =
    .ok (some (2, .D), [(1, 0), (2, 1), (3, 2)]) := by decide +kernel

/-- C14 is violated for element-dependent gap costs: aligning `[false, true]` with the empty sequence
costs -1 + -5 = -6, but the matrix says -10. -/
theorem nw_nonuniform_not_optimal :
    (needlemanWunsch 5 [false, true] [] (fun _ _ => 0) (fun b => if b then -5 else -1)).map
      (fun r => (r.1 (2, 0), r.2)) = .ok (some (-10, .U), []) ∧
    IsAlignment [false, true] [] [] 0 2 0 0 ∧
    alignScore (fun _ _ => 0) (fun b => if b then -5 else -1) [false, true] [] [] 0 2 0 0 = -6 := by
  refine ⟨by decide +kernel, ⟨by simp [Increasing], by simp [Within], by simp, by simp, by simp, by simp⟩,
    by decide +kernel⟩

end Verif.Props.NW
