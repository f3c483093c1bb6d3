import Verif.Lemmas.MunkresFloatRun

/-! Property C79 (lib/daeso/thirdparty/munkres.py with floats). -/
namespace Verif.Props.MunkresFloat
open Verif Verif.Munkres Verif.Spec.Assignment Verif.Spec.Rounding

/-- The number of steps that suffices for an r×c matrix. -/
def steps (r c : Nat) : Nat := max c r * (2 * max c r + 4) + 2 * max c r + 6

private theorem start {M : List (List ℚ)} {c : Nat} (hM : M ≠ []) (hrect : ∀ row ∈ M, row.length = c) :
    (initSt (padMatrix M)).n = max c M.length ∧ (initSt (padMatrix M)).C = entry M ∧ 0 < max c M.length ∧
    ∃ row0 rest, M = row0 :: rest ∧ row0.length = c := by
  obtain ⟨row0, rest, rfl⟩ := List.exists_cons_of_ne_nil hM
  refine ⟨pad_length _ c hM hrect, ?_, by simp, row0, rest, rfl, hrect row0 (by simp)⟩
  funext i j; exact pad_entry _ i j

private theorem finish {fl : ℚ → ℚ} {M : List (List ℚ)} {c fuel : Nat} {a : St × Nat} (hM : M ≠ [])
    (hrect : ∀ row ∈ M, row.length = c)
    (h : Py.whileLoop (fun a : St × Nat => .ok (decide (1 ≤ a.2 ∧ a.2 ≤ 6))) (runStepFl fl) fuel
      (initSt (padMatrix M), 1) = .ok a) :
    computeFl fl fuel M = .ok ((cells M.length c).filter fun p => a.1.mark p.1 p.2 = 1) := by
  obtain ⟨_, _, _, row0, rest, rfl, h0⟩ := start hM hrect
  simp only [computeFl, h, h0]

/-- C79: with any rounding of the sums and differences – one that keeps the order and zero and leaves rounded numbers
alone – `compute` stops, after a number of steps bounded by the size of the matrix alone, and returns a complete
one-to-one assignment, provided that the costs do not differ by more than `sys.maxint`. -/
theorem complete {fl : ℚ → ℚ} (hfl : Rounding fl) (M : List (List ℚ)) (c : Nat) (hM : M ≠ [])
    (hrect : ∀ row ∈ M, row.length = c) (lo hi : ℚ) (hlo : lo ≤ 0) (hhi : 0 ≤ hi)
    (hcost : ∀ row ∈ M, ∀ x ∈ row, lo ≤ x ∧ x ≤ hi) (hw : fl (hi - lo) = hi - lo) (hmax : hi - lo ≤ maxint) :
    ∃ l, IsAssignment M.length c l ∧ ∀ fuel, steps M.length c ≤ fuel → computeFl fl fuel M = .ok l := by
  obtain ⟨hn, hC, h0, _⟩ := start hM hrect
  have hall : ∀ i j, lo ≤ (initSt (padMatrix M)).C i j ∧ (initSt (padMatrix M)).C i j ≤ hi := by
    rw [hC]; exact fun i j => entry_all (p := fun x => lo ≤ x ∧ x ≤ hi) ⟨hlo, hhi⟩ hcost i j
  obtain ⟨hb, _⟩ := step1Fl_ok hfl h0 hn hall hw
  obtain ⟨a, ⟨h1, h2, h3, _⟩, hrun⟩ := run_float (Q := fun _ => True) hfl hmax ⟨fun _ _ _ _ _ _ _ => trivial, fun _ _ _ _ _ _ => trivial⟩
    hb (fun _ _ => rfl) trivial
  exact ⟨_, final_assignment rfl h1.hn h2 h3, fun fuel hf => finish hM hrect (hrun fuel hf)⟩

/-- C79: with floats. -/
theorem complete_double (M : List (List ℚ)) (c : Nat) (hM : M ≠ []) (hrect : ∀ row ∈ M, row.length = c)
    (hcost : ∀ row ∈ M, ∀ x ∈ row, |x| ≤ 2 ^ 61) :
    ∃ l, IsAssignment M.length c l ∧ ∀ fuel, steps M.length c ≤ fuel → computeFl double fuel M = .ok l := by
  refine complete Verif.Rounding.double_rounding M c hM hrect (-2 ^ 61) (2 ^ 61) (by norm_num) (by norm_num)
    (fun row hr x hx => abs_le.1 (hcost row hr x hx)) (by decide +kernel) (by decide +kernel)

/-- C79: the assignment is one of minimal cost if the costs are whole numbers and the rounding is exact on whole numbers
up to twice the largest difference of two costs (and 0). -/
theorem optimal {fl : ℚ → ℚ} (hfl : Rounding fl) (M : List (List ℚ)) (c : Nat) (hM : M ≠ [])
    (hrect : ∀ row ∈ M, row.length = c) (lo hi : ℤ) (hlo : lo ≤ 0) (hhi : 0 ≤ hi)
    (hcost : ∀ row ∈ M, ∀ x ∈ row, ∃ z : ℤ, x = z ∧ lo ≤ z ∧ z ≤ hi)
    (hex : ∀ z : ℤ, 0 ≤ z → z ≤ 2 * (hi - lo) → fl z = z) (hmax : hi - lo ≤ (maxint : ℚ)) :
    ∃ l, IsAssignment M.length c l ∧ (∀ l', IsAssignment M.length c l' → cost M l ≤ cost M l') ∧
      ∀ fuel, steps M.length c ≤ fuel → computeFl fl fuel M = .ok l := by
  obtain ⟨hn, hC, h0, _⟩ := start hM hrect
  have hallz : ∀ i j, ∃ z : ℤ, (initSt (padMatrix M)).C i j = z ∧ lo ≤ z ∧ z ≤ hi := by
    rw [hC]
    exact fun i j => entry_all (p := fun x => ∃ z : ℤ, x = z ∧ lo ≤ z ∧ z ≤ hi) ⟨0, by simp, hlo, hhi⟩ hcost i j
  have hall : ∀ i j, (lo : ℚ) ≤ (initSt (padMatrix M)).C i j ∧ (initSt (padMatrix M)).C i j ≤ hi := by
    intro i j
    obtain ⟨z, h1, h2, h3⟩ := hallz i j
    rw [h1]
    exact ⟨by exact_mod_cast h2, by exact_mod_cast h3⟩
  have hex' : ∀ z : ℤ, 0 ≤ z → (z : ℚ) ≤ 2 * ((hi : ℚ) - lo) → fl z = z := by
    intro z h1 h2
    exact hex z h1 (by exact_mod_cast h2)
  have hw : fl ((hi : ℚ) - lo) = hi - lo := by
    have := hex (hi - lo) (by omega) (by omega)
    push_cast at this
    exact this
  obtain ⟨hb, _⟩ := step1Fl_ok hfl h0 hn hall hw
  have hwhole := step1Fl_whole (fl := fl) h0 hn hall (fun i j => (hallz i j).imp fun z h => h.1) hex'
  obtain ⟨a, ⟨h1, h2, h3, hbf, _⟩, hrun⟩ := run_float hfl hmax (whole_kept hmax hex') hb (fun _ _ => rfl) hwhole
  refine ⟨_, final_assignment rfl h1.hn h2 h3, ?_, fun fuel hf => finish hM hrect (hrun fuel hf)⟩
  rw [hC] at hbf
  have hout : ∀ i j, M.length ≤ i ∨ c ≤ j → entry M i j = 0 := fun i j h => entry_out M c i j hrect h
  obtain ⟨u, v, huv⟩ := hbf.pot
  have hcost' := final_cost rfl hout hbf h2 h3 u v huv
  intro l' hl'
  have := weak_duality rfl hout u v (fun i j hi hj => by
    have e1 := hbf.nonneg i j hi hj
    have e2 := huv i j hi hj
    linarith) hl'
  rw [← hcost'] at this
  exact this

/-- C79: with floats whose values are whole numbers of at most 2⁵¹. -/
theorem optimal_double (M : List (List ℚ)) (c : Nat) (hM : M ≠ []) (hrect : ∀ row ∈ M, row.length = c)
    (hcost : ∀ row ∈ M, ∀ x ∈ row, ∃ z : ℤ, x = z ∧ |z| ≤ 2 ^ 51) :
    ∃ l, IsAssignment M.length c l ∧ (∀ l', IsAssignment M.length c l' → cost M l ≤ cost M l') ∧
      ∀ fuel, steps M.length c ≤ fuel → computeFl double fuel M = .ok l := by
  refine optimal Verif.Rounding.double_rounding M c hM hrect (-2 ^ 51) (2 ^ 51) (by norm_num) (by norm_num)
    (fun row hr x hx => ?_) (fun z h1 h2 => ?_) (by norm_num [maxint])
  · obtain ⟨z, h1, h2⟩ := hcost row hr x hx
    exact ⟨z, h1, abs_le.1 h2⟩
  · exact Verif.Rounding.double_int z (by rw [abs_of_nonneg h1]; norm_num at h2 ⊢; exact h2)

/-- C79 (and C20): without rounding, the number of steps is bounded by the size of the matrix as well, as long as the
costs do not differ by more than `sys.maxint`. -/
theorem exact_steps (M : List (List ℚ)) (c : Nat) (hM : M ≠ [])
    (hrect : ∀ row ∈ M, row.length = c) (lo hi : ℚ) (hlo : lo ≤ 0) (hhi : 0 ≤ hi)
    (hcost : ∀ row ∈ M, ∀ x ∈ row, lo ≤ x ∧ x ≤ hi) (hmax : hi - lo ≤ maxint) :
    ∃ l, IsAssignment M.length c l ∧ ∀ fuel, steps M.length c ≤ fuel → compute fuel M = .ok l := by
  obtain ⟨l, h1, h2⟩ := complete (fl := id) ⟨monotone_id, rfl, fun _ => rfl⟩ M c hM hrect lo hi hlo hhi hcost rfl hmax
  exact ⟨l, h1, fun fuel hf => by rw [← computeFl_id]; exact h2 fuel hf⟩

/-- The state in which `compute` is caught. -/
private def Stuck (x : ℚ) (a : St × Nat) : Prop :=
  a.1.n = 2 ∧ a.1.C 0 0 = 0 ∧ a.1.C 0 1 = x ∧ a.1.C 1 0 = 0 ∧ a.1.C 1 1 = x ∧
  a.1.rowC 0 = false ∧ a.1.rowC 1 = false ∧ a.1.colC 0 = true ∧ a.1.colC 1 = false ∧ (a.2 = 4 ∨ a.2 = 6)

private theorem stuck_step {fl : ℚ → ℚ} {x : ℚ} (hx : maxint < x) (hfix : fl (x - fl maxint) = x)
    (a : St × Nat) (h : Stuck x a) : ∃ a', runStepFl fl a = .ok a' ∧ Stuck x a' := by
  obtain ⟨s, k⟩ := a
  obtain ⟨h1, h2, h3, h4, h5, h6, h7, h8, h9, hk⟩ := h
  dsimp only at h1 h2 h3 h4 h5 h6 h7 h8 h9 hk
  have hx0 : x ≠ 0 := by
    have : (0 : ℚ) < maxint := by decide +kernel
    have := this.trans hx
    exact this.ne'
  have hr : List.range 2 = [0, 1] := rfl
  rcases hk with rfl | rfl
  · have hz : findAZero s = none := by
      simp [findAZero, h1, hr, h2, h3, h4, h5, h6, h7, h8, h9, hx0]
    refine ⟨(s, 6), ?_, h1, h2, h3, h4, h5, h6, h7, h8, h9, .inr rfl⟩
    simp [runStepFl, runStep, step4, h1, step4Loop, hz]
  · have hm : findSmallest s = maxint := by
      have hnl : ¬ x < maxint := not_lt.2 hx.le
      simp [findSmallest, h1, cells, hr, h3, h5, h6, h7, h8, h9, hnl]
    refine ⟨(step6Fl fl s, 4), rfl, h1, ?_, ?_, ?_, ?_, h6, h7, h8, h9, .inl rfl⟩
    · simp [step6Fl, h2, h6, h8]
    · simp [step6Fl, h3, h6, h9, hm, hfix]
    · simp [step6Fl, h4, h7, h8]
    · simp [step6Fl, h5, h7, h9, hm, hfix]

/-- C79: the limit on the costs is needed: a cost above `sys.maxint` that does not change when `sys.maxint` is subtracted
from it makes `compute` run forever. -/
theorem forever {fl : ℚ → ℚ} (h0 : fl 0 = 0) {x : ℚ} (hx : maxint < x) (hfx : fl x = x)
    (hfix : fl (x - fl maxint) = x) (fuel : Nat) : computeFl fl fuel [[0, x], [0, x]] = .error .fuel := by
  have hx0 : 0 < x := lt_trans (by decide +kernel) hx
  have hloop : ∀ (fuel : Nat) (a : St × Nat), Stuck x a →
      Py.whileLoop (fun a : St × Nat => .ok (decide (1 ≤ a.2 ∧ a.2 ≤ 6))) (runStepFl fl) fuel a = .error .fuel := by
    intro fuel
    induction fuel with
    | zero => intro a _; rfl
    | succ f ih =>
      intro a ha
      obtain ⟨a', h1, h2⟩ := stuck_step hx hfix a ha
      have hk : (1 ≤ a.2 ∧ a.2 ≤ 6) := by
        obtain ⟨-, -, -, -, -, -, -, -, -, h | h⟩ := ha <;> omega
      rw [Py.whileLoop]
      simp only [hk, and_self, decide_true, h1]
      exact ih a' h2
  have hr : List.range 2 = [0, 1] := rfl
  have hcl : cells 2 2 = [(0, 0), (0, 1), (1, 0), (1, 1)] := rfl
  set s0 := initSt (padMatrix [[0, x], [0, x]]) with hs0
  have hn : s0.n = 2 := rfl
  have c00 : s0.C 0 0 = 0 := rfl
  have c01 : s0.C 0 1 = x := rfl
  have c10 : s0.C 1 0 = 0 := rfl
  have c11 : s0.C 1 1 = x := rfl
  have r0 : rowMin s0 0 = 0 := by simp [rowMin, hn, hr, c00, c01, hx0.le]
  have r1 : rowMin s0 1 = 0 := by simp [rowMin, hn, hr, c10, c11, hx0.le]
  set s1 := step1Fl fl s0 with hs1
  have d00 : s1.C 0 0 = 0 := by simp [hs1, step1Fl, c00, r0, h0]
  have d01 : s1.C 0 1 = x := by simp [hs1, step1Fl, c01, r0, hfx]
  have d10 : s1.C 1 0 = 0 := by simp [hs1, step1Fl, c10, r1, h0]
  have d11 : s1.C 1 1 = x := by simp [hs1, step1Fl, c11, r1, hfx]
  have m1 : ∀ i j, s1.mark i j = 0 := fun _ _ => rfl
  have rc1 : ∀ i, s1.rowC i = false := fun _ => rfl
  have cc1 : ∀ i, s1.colC i = false := fun _ => rfl
  have n1 : s1.n = 2 := rfl
  have hs2 : step2 s1 = clearCovers { s1 with mark := upd2 s1.mark 0 0 1, colC := upd s1.colC 0 true, rowC := upd s1.rowC 0 true } := by
    have hx' : x ≠ 0 := hx0.ne'
    simp [step2, n1, hcl, step2Body, d00, d01, d10, d11, rc1, cc1, upd, hx']
  set s2 := step2 s1 with hs2'
  have hs3 : Stuck x (step3 s2) := by
    rw [hs2]
    simp [Stuck, step3, clearCovers, n1, hcl, step3Body, upd2, upd, m1, d00, d01, d10, d11]
  have hrun : Py.whileLoop (fun a : St × Nat => .ok (decide (1 ≤ a.2 ∧ a.2 ≤ 6))) (runStepFl fl) fuel (s0, 1)
      = .error .fuel := by
    rcases fuel with _ | _ | _ | f
    · rfl
    · rfl
    · rfl
    · rw [Py.whileLoop]
      simp only [le_refl, Nat.one_le_ofNat, and_self, decide_true, runStepFl]
      rw [Py.whileLoop]
      simp only [Nat.one_le_ofNat, Nat.reduceLeDiff, and_self, decide_true, runStepFl, runStep]
      rw [Py.whileLoop]
      simp only [Nat.one_le_ofNat, Nat.reduceLeDiff, and_self, decide_true, runStepFl, runStep]
      exact hloop f _ hs3
  simp only [computeFl]
  rw [hrun]

/-- C79: such a float. -/
theorem forever_double (fuel : Nat) : computeFl double fuel [[0, 2 ^ 120], [0, 2 ^ 120]] = .error .fuel :=
  forever Verif.Rounding.double_zero (by decide +kernel) (by decide +kernel) (by decide +kernel) fuel

/-- C79: the limit of `optimal_double` is needed too: with larger floats the assignment need not have minimal cost. -/
theorem not_optimal_double :
    computeFl double 60 [[2 ^ 54, 0], [2 ^ 54, 1]] = .ok [(0, 0), (1, 1)] ∧
    IsAssignment 2 2 [(0, 1), (1, 0)] ∧
    cost [[2 ^ 54, 0], [2 ^ 54, 1]] [(0, 1), (1, 0)] < cost [[2 ^ 54, 0], [2 ^ 54, 1]] [(0, 0), (1, 1)] := by
  refine ⟨by decide +kernel, ⟨by decide, by decide, by decide, rfl⟩, by decide +kernel⟩

/-- Non-vacuity: floats that are not exact (0.1, 0.2, 0.3), and whole numbers. -/
example : computeFl double 60 [[double (1/10), double (2/10)], [double (3/10), double (1/10)]] = .ok [(0, 0), (1, 1)] ∧
    double (1/10) ≠ 1/10 ∧ |double (3/10)| ≤ 2 ^ 61 ∧
    computeFl double 60 [[5, 9, 1, 3], [10, 3, 2, 0]] = .ok [(0, 2), (1, 3)] := by
  decide +kernel

example : Rounding double ∧ Rounding (fun x => ((⌊x⌋ : ℤ) : ℚ)) :=
  ⟨Verif.Rounding.double_rounding, ⟨fun _ _ h => by exact_mod_cast Int.floor_mono h, by simp, by simp⟩⟩

end Verif.Props.MunkresFloat
