import Verif.Lemmas.MunkresFloat
import Verif.Lemmas.Rounding

set_option linter.unusedSectionVars false
namespace Verif.Munkres
open Verif Verif.Spec.Assignment Verif.Spec.Rounding

/-- What holds of the costs on the way: kept when the costs and the lines with a star are kept, and by step 6. -/
structure Kept (fl : ℚ → ℚ) (n : Nat) (B : ℚ) (Q : St → Prop) : Prop where
  grow : ∀ s s' : St, Q s → s.n = n → s'.n = n → s'.C = s.C → Grow s s' → Q s'
  step6 : ∀ s : St, Q s → FBase fl n B s → Stars n s → Cov n s → (starRows s).card < n → Q (step6Fl fl s)

/-- The whole run: the number of steps is bounded by the size of the matrix. -/
theorem run_float {fl : ℚ → ℚ} (hfl : Rounding fl) {n : Nat} {B : ℚ} (hB : B ≤ maxint) {Q : St → Prop}
    (hQ : Kept fl n B Q) {s0 : St} (hb : FBase fl n B (step1Fl fl s0)) (hm : ∀ i j, s0.mark i j = 0)
    (hq : Q (step1Fl fl s0)) :
    ∃ a : St × Nat, (FBase fl n B a.1 ∧ Stars n a.1 ∧ (starRows a.1).card = n ∧ Q a.1) ∧
      ∀ fuel, n * (2 * n + 4) + 2 * n + 6 ≤ fuel →
        Py.whileLoop (fun a : St × Nat => .ok (decide (1 ≤ a.2 ∧ a.2 ≤ 6))) (runStepFl fl) fuel (s0, 1) = .ok a := by
  obtain ⟨D, hbase⟩ := hb.base
  obtain ⟨hb2, hs2, hc2⟩ := step2_ok hbase (s := step1Fl fl s0) hm
  have hC2 : (step2 (step1Fl fl s0)).C = (step1Fl fl s0).C := by
    have : ∀ (l : List (Nat × Nat)) (s : St), (l.foldl step2Body s).C = s.C := by
      intro l
      induction l with
      | nil => intro s; rfl
      | cons p l ih =>
        intro s
        rw [List.foldl_cons, ih]
        unfold step2Body
        split <;> rfl
    exact this _ _
  have hg2 : Grow (step1Fl fl s0) (step2 (step1Fl fl s0)) := by
    constructor
    · rintro i ⟨j, hj⟩
      have := hm i j
      change s0.mark i j = 1 at hj
      omega
    · rintro j ⟨i, hi⟩
      have := hm i j
      change s0.mark i j = 1 at hi
      omega
  have hf2 := hb.grow hb2.hn hC2 hg2
  have hq2 := hQ.grow _ _ hq hb.hn hb2.hn hC2 hg2
  set a0 : St × Nat := (step2 (step1Fl fl s0), 3) with ha0
  obtain ⟨a, ha, hfin⟩ := Py.whileLoop_inv (cond := fun a : St × Nat => .ok (decide (1 ≤ a.2 ∧ a.2 ≤ 6)))
    (body := runStepFl fl) (fun a => MainInvF fl n B a ∧ Q a.1) measF
    (fun a => FBase fl n B a.1 ∧ Stars n a.1 ∧ (starRows a.1).card = n ∧ Q a.1)
    (by
      rintro a ⟨hi, hqa⟩
      rcases main_stepF hfl hB a hi with ⟨h1, h2, h3, h4⟩ | ⟨h1, a', h2, h3, h4, h5⟩
      · exact .inl ⟨h1, h2, h3, h4, hqa⟩
      · refine .inr ⟨h1, a', h2, ⟨h3, ?_⟩, h4⟩
        rcases h5 with ⟨e1, e2, e3⟩ | ⟨e1, e2, e3⟩
        · exact hQ.grow _ _ hqa hi.1.hn e1 e2 e3
        · rw [e1]
          exact hQ.step6 _ hqa hi.1 hi.2.1 e2 e3)
    (measF a0 + 1) a0 ⟨⟨hf2, hs2, .inl ⟨rfl, hc2⟩⟩, hq2⟩ (Nat.lt_succ_self _)
  refine ⟨a, hfin, ?_⟩
  intro fuel hfuel
  have hle := measF_le a0 n hb2.hn
  obtain ⟨f, rfl⟩ : ∃ f, fuel = f + 2 := ⟨fuel - 2, by omega⟩
  have hrun := whileLoop_mono _ f _ _ (by omega) ha
  rw [Py.whileLoop]
  simp only [le_refl, Nat.one_le_ofNat, and_self, decide_true, runStepFl]
  rw [Py.whileLoop]
  simp only [Nat.one_le_ofNat, Nat.reduceLeDiff, and_self, decide_true, runStepFl, runStep]
  exact hrun

/-- The costs after step 1. -/
theorem step1Fl_ok {fl : ℚ → ℚ} (hfl : Rounding fl) {n : Nat} (h0 : 0 < n) {s : St} (hn : s.n = n) {lo hi : ℚ}
    (hb : ∀ i j, lo ≤ s.C i j ∧ s.C i j ≤ hi) (hw : fl (hi - lo) = hi - lo) :
    FBase fl n (hi - lo) (step1Fl fl s) ∧ ∀ i j, i < n → j < n → (step1Fl fl s).C i j ≤ hi - lo := by
  have hmin := fun i => foldl_min (s.C i) (List.range s.n) (s.C i 0)
  have hle : ∀ i j, j < n → rowMin s i ≤ s.C i j := fun i j hj => (hmin i).2.1 j (List.mem_range.2 (hn ▸ hj))
  have hlo : ∀ i, lo ≤ rowMin s i := by
    intro i
    rcases (hmin i).2.2 with h | ⟨j, _, h⟩
    · change lo ≤ List.foldl _ _ _; rw [h]; exact (hb i 0).1
    · change lo ≤ List.foldl _ _ _; rw [h]; exact (hb i j).1
  have hup : ∀ i j, (step1Fl fl s).C i j ≤ hi - lo := by
    intro i j
    change fl (s.C i j - rowMin s i) ≤ _
    rw [← hw]
    exact hfl.mono (by have := (hb i j).2; have := hlo i; linarith)
  refine ⟨⟨hn, ?_, ?_, fun i j _ _ _ _ => hup i j⟩, fun i j _ _ => hup i j⟩
  · intro i j hi' hj
    change 0 ≤ fl (s.C i j - rowMin s i)
    rw [← hfl.zero]
    exact hfl.mono (by have := hle i j hj; linarith)
  · intro i j _ _
    exact hfl.idem _

/-! ### Costs for which the rounding is exact -/

/-- Entries are whole and not too large; T is how much has been subtracted so far. -/
def Whole (P : Nat → Nat → ℚ) (n : Nat) (B : ℚ) (s : St) : Prop :=
  Base P n 1 s ∧ ∃ T : ℚ, 0 ≤ T ∧
    (∀ i j, i < n → j < n → (∀ j', s.mark i j' ≠ 1) → (∀ i', s.mark i' j ≠ 1) → s.C i j ≤ B - T) ∧
    (∀ i j, i < n → j < n → s.C i j ≤ B + T)

theorem whole_kept {fl : ℚ → ℚ} {P : Nat → Nat → ℚ} {n : Nat} {B : ℚ} (hB : B ≤ maxint)
    (hex : ∀ z : ℤ, 0 ≤ z → (z : ℚ) ≤ 2 * B → fl z = z) : Kept fl n B (Whole P n B) := by
  constructor
  · rintro s s' ⟨hb, T, hT, h1, h2⟩ hn hn' hC hg
    refine ⟨⟨hn', by rw [hC]; exact hb.pot, by rw [hC]; exact hb.nonneg, by rw [hC]; exact hb.int⟩, T, hT, ?_,
      by rw [hC]; exact h2⟩
    intro i j hi hj a b
    rw [hC]
    refine h1 i j hi hj (fun j' hj' => ?_) (fun i' hi' => ?_)
    · obtain ⟨j'', h⟩ := hg.row i ⟨j', hj'⟩; exact a _ h
    · obtain ⟨i'', h⟩ := hg.col j ⟨i', hi'⟩; exact b _ h
  · rintro s ⟨hb, T, hT, h1, h2⟩ hf hs hc hlt
    have hn := hb.hn
    obtain ⟨⟨p, q, hp, hq, p1, p2, hm⟩, hle⟩ := smallest_entry hB hn hs hf.free hc hlt
    obtain ⟨i0, j0, hi0, hj0, f1, f2⟩ := exists_free hn hs hlt
    obtain ⟨u1, u2⟩ := free_uncovered hc f1 f2
    have hmT : findSmallest s + T ≤ B := by
      have e1 := hle i0 j0 hi0 hj0 u1 u2
      have e2 := h1 i0 j0 hi0 hj0 f1 f2
      linarith
    have hrep : fl (findSmallest s) = findSmallest s := by rw [hm]; exact hf.rep p q hp hq
    have hpos : 0 ≤ findSmallest s := by rw [hm]; exact hb.nonneg p q hp hq
    obtain ⟨zm, hzm⟩ : ∃ z : ℤ, findSmallest s = z := by
      obtain ⟨z, hz⟩ := hb.int p q hp hq
      exact ⟨z, by rw [hm]; simpa using hz⟩
    set m := findSmallest s with hmdef
    have hC : ∀ i j, i < n → j < n → (step6Fl fl s).C i j =
        s.C i j + (if s.rowC i = true then m else 0) - (if s.colC j = false then m else 0) := by
      intro i j hi hj
      obtain ⟨z, hz⟩ := hb.int i j hi hj
      have hz : s.C i j = z := by simpa using hz
      have hz0 := hb.nonneg i j hi hj
      have hz1 := h2 i j hi hj
      have hsum : fl (s.C i j + m) = s.C i j + m := by
        rw [hz, hzm]
        have := hex (z + zm) (by
          rw [hz] at hz0; rw [hzm] at hpos
          have a : 0 ≤ z := by exact_mod_cast hz0
          have b : 0 ≤ zm := by exact_mod_cast hpos
          omega) (by
          push_cast
          rw [← hz, ← hzm]; linarith)
        push_cast at this
        exact this
      simp only [step6Fl, ← hmdef, hrep, hsum]
      by_cases hr : s.rowC i = true <;> by_cases hcc : s.colC j = false
      · simp only [hr, hcc, if_true]
        rw [show s.C i j + m - m = s.C i j by ring]
        exact hf.rep i j hi hj
      · simp [hr, hcc]
      · simp only [hcc, if_true, if_neg hr, add_zero]
        have hd := hle i j hi hj (by simpa using hr) hcc
        rw [hz, hzm] at hd ⊢
        have hd' : zm ≤ z := by exact_mod_cast hd
        have := hex (z - zm) (by omega) (by
          push_cast
          rw [← hz, ← hzm]; linarith)
        push_cast at this
        exact this
      · simp [hr, hcc]
    refine ⟨⟨hn, ?_, ?_, ?_⟩, T + m, by linarith, ?_, ?_⟩
    · obtain ⟨u, v, huv⟩ := hb.pot
      refine ⟨fun i => u i - (if s.rowC i = true then m else 0), fun j => v j + (if s.colC j = false then m else 0), ?_⟩
      intro i j hi hj
      rw [hC i j hi hj, huv i j hi hj]; ring
    · intro i j hi hj
      rw [hC i j hi hj]
      have h3 := hb.nonneg i j hi hj
      by_cases hr : s.rowC i = true
      · rw [if_pos hr]; split_ifs <;> linarith
      · rw [if_neg hr]
        split_ifs with hcc
        · have := hle i j hi hj (by simpa using hr) hcc; linarith
        · linarith
    · intro i j hi hj
      obtain ⟨z, hz⟩ := hb.int i j hi hj
      have hz : s.C i j = z := by simpa using hz
      refine ⟨z + (if s.rowC i = true then zm else 0) - (if s.colC j = false then zm else 0), ?_⟩
      rw [hC i j hi hj, hz, hzm]
      push_cast
      split_ifs <;> ring
    · intro i j hi hj a b
      obtain ⟨v1, v2⟩ := free_uncovered hc a b
      rw [hC i j hi hj, if_neg (by simp [v1]), if_pos v2]
      have := h1 i j hi hj a b
      linarith
    · intro i j hi hj
      rw [hC i j hi hj]
      have := h2 i j hi hj
      split_ifs <;> linarith

theorem step1Fl_whole {fl : ℚ → ℚ} {n : Nat} (h0 : 0 < n) {s : St} (hn : s.n = n) {lo hi : ℚ}
    (hb : ∀ i j, lo ≤ s.C i j ∧ s.C i j ≤ hi) (hint : ∀ i j, ∃ z : ℤ, s.C i j = z)
    (hex : ∀ z : ℤ, 0 ≤ z → (z : ℚ) ≤ 2 * (hi - lo) → fl z = z) :
    Whole s.C n (hi - lo) (step1Fl fl s) := by
  have hint1 : ∀ i j, i < n → j < n → ∃ z : ℤ, ((1 : ℕ) : ℚ) * s.C i j = z := by
    intro i j _ _
    obtain ⟨z, hz⟩ := hint i j
    exact ⟨z, by rw [hz]; simp⟩
  have hb1 := step1_ok (P := s.C) (D := 1) hn rfl h0 hint1
  have hmin := fun i => foldl_min (s.C i) (List.range s.n) (s.C i 0)
  have hlo : ∀ i, lo ≤ rowMin s i := by
    intro i
    rcases (hmin i).2.2 with h | ⟨j, _, h⟩
    · change lo ≤ List.foldl _ _ _; rw [h]; exact (hb i 0).1
    · change lo ≤ List.foldl _ _ _; rw [h]; exact (hb i j).1
  have hup : ∀ i j, (step1 s).C i j ≤ hi - lo := by
    intro i j
    change s.C i j - rowMin s i ≤ _
    have := (hb i j).2; have := hlo i; linarith
  have hC : ∀ i j, i < n → j < n → (step1Fl fl s).C i j = (step1 s).C i j := by
    intro i j hi' hj
    obtain ⟨z, hz⟩ := hb1.int i j hi' hj
    have hz : (step1 s).C i j = z := by simpa using hz
    have h1 := hb1.nonneg i j hi' hj
    have h2 := hup i j
    change fl ((step1 s).C i j) = _
    rw [hz] at h1 h2 ⊢
    have h1' : 0 ≤ z := by exact_mod_cast h1
    exact hex z h1' (by linarith)
  refine ⟨⟨hn, ?_, ?_, ?_⟩, 0, le_refl _, ?_, ?_⟩
  · obtain ⟨u, v, huv⟩ := hb1.pot
    exact ⟨u, v, fun i j hi hj => by rw [hC i j hi hj, huv i j hi hj]⟩
  · intro i j hi hj; rw [hC i j hi hj]; exact hb1.nonneg i j hi hj
  · intro i j hi hj; rw [hC i j hi hj]; exact hb1.int i j hi hj
  · intro i j hi hj _ _; rw [hC i j hi hj]; have := hup i j; linarith
  · intro i j hi hj; rw [hC i j hi hj]; have := hup i j; linarith

/-- A property of all costs of a matrix holds of all entries, if it holds of 0. -/
theorem entry_all {M : List (List ℚ)} {p : ℚ → Prop} (h0 : p 0) (h : ∀ row ∈ M, ∀ x ∈ row, p x) (i j : Nat) :
    p (entry M i j) := by
  unfold entry
  by_cases hi : i < M.length
  · rw [List.getD_eq_getElem _ _ hi]
    by_cases hj : j < M[i].length
    · rw [List.getD_eq_getElem _ _ hj]
      exact h _ (List.getElem_mem _) _ (List.getElem_mem _)
    · rw [List.getD_eq_default _ _ (by omega)]; exact h0
  · rw [List.getD_eq_default M [] (by omega)]
    simpa using h0

/-- Rounding that does nothing. -/
theorem runStepFl_id (a : St × Nat) : runStepFl id a = runStep a := by
  obtain ⟨s, k⟩ := a
  unfold runStepFl
  dsimp only
  split
  · rfl
  · rfl
  · rfl

theorem computeFl_id (fuel : Nat) (M : List (List ℚ)) : computeFl id fuel M = compute fuel M := by
  unfold computeFl compute
  have : runStepFl id = runStep := funext runStepFl_id
  rw [this]
  rfl

end Verif.Munkres
