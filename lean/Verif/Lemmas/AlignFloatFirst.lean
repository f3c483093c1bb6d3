import Verif.Lemmas.AlignFloatNear
import Verif.Lemmas.AlignFloatRun
import Verif.Lemmas.Rounding

/-! The first alignment of waterman_eggert with rounded scores. -/
set_option linter.unusedSectionVars false
namespace Verif.SW
open Verif Verif.Spec Verif.Align

variable {α : Type}

section
variable (fl : ℚ → ℚ) (s t : List α) (sim : α → α → ℚ) (gap : α → ℚ)

theorem we_firstFl (limit fuel tfuel : Nat) (htf : s.length + t.length < tfuel)
    (res : List (List (Int × Int))) (h : watermanEggertFl fl fuel tfuel s t sim gap limit = .ok res) :
    (res = [] ∧ ∀ b d, b ≤ s.length → d ≤ t.length → (Fr fl s t sim gap b d).1 ≤ 0) ∨
    (∃ (m : Matrix) (i j : Nat) (al : List (Int × Int)) (rest : List (List (Int × Int))),
      Holds s.length t.length (Fr fl s t sim gap) m ∧ i ≤ s.length ∧ j ≤ t.length ∧
      traceAlignment tfuel m (i, j) = .ok al ∧ res = al :: rest ∧ 0 < (Fr fl s t sim gap i j).1 ∧
      ∀ b d, b ≤ s.length → d ≤ t.length → (Fr fl s t sim gap b d).1 ≤ (Fr fl s t sim gap i j).1) := by
  obtain ⟨m, e1, hm⟩ := matrixFl_ok fl s t sim gap
  have hg := Fr_good fl s t sim gap m hm
  simp only [watermanEggertFl, e1, bind, Except.bind] at h
  split at h
  · simp at h
  rename_i st hst
  simp at h
  rcases fuel with _ | fuel
  · simp [Py.whileLoop] at hst
  have hc : weCond limit { t := m, all := [], stop := false } = .ok true := by
    simp [weCond]; omega
  simp only [Py.whileLoop, hc] at hst
  obtain ⟨h1, h2, h3⟩ := findBestScore_spec s.length t.length m
  by_cases hz : (findBestScore s.length t.length m).1 = 0
  · left
    simp only [weBodyW, hz, if_true] at hst
    rcases fuel with _ | fuel
    · simp [Py.whileLoop] at hst
    · simp [Py.whileLoop, weCond] at hst
      subst hst
      refine ⟨h.symm, ?_⟩
      intro b d hb hd
      have := h1 b d hb hd _ (hm b d hb hd)
      linarith
  · right
    obtain ⟨i, j, cell, hi, hj, hcell, he⟩ := h3 hz
    obtain ⟨a, c, A, t1, ha, hc', hI, hW, -, -⟩ := trace_general s.length t.length m hg i j hi hj
      (fun _ _ _ => True) trivial (by intros; trivial) (by intros; trivial) (by intros; trivial) tfuel (by omega)
    have hW' : Within A 0 s.length 0 t.length := by
      intro p hp; have := hW p hp; omega
    obtain ⟨m', e2, hg'⟩ := recalculate_goodW s t _ (maxScoreFl_good fl s t sim gap) A hW' m hg
    have hcF : cell = Fr fl s t sim gap i j := by
      have := hm i j hi hj
      rw [hcell] at this; simpa using this
    have hz' : cell.1 ≠ 0 := by rw [he] at hz; exact hz
    simp only [weBodyW, he, hz', if_false, t1, bind, Except.bind, e2] at hst
    obtain ⟨⟨rest, hrest⟩, _⟩ := Py.whileLoop_partial
      (cond := weCond limit) (body := weBodyW (maxScoreFl fl s t sim gap) tfuel s.length t.length)
      (fun st : WEState => GoodM s.length t.length st.t ∧ ∃ rest, st.all = emb A :: rest)
      (by
        rintro st st' ⟨hgs, rest, hr⟩ _ hb
        unfold weBodyW at hb
        obtain ⟨_, _, h3⟩ := findBestScore_spec s.length t.length st.t
        by_cases hz : (findBestScore s.length t.length st.t).1 = 0
        · simp only [hz, if_true] at hb
          simp at hb; subst hb; exact ⟨hgs, rest, hr⟩
        · obtain ⟨i, j, c, hi, hj, hc, he⟩ := h3 hz
          simp only [hz, if_false] at hb
          obtain ⟨a, c', B, e1, ha, hc', hI, hW, -, -⟩ := trace_general s.length t.length st.t hgs
            i j hi hj (fun _ _ _ => True) trivial (by intros; trivial) (by intros; trivial)
            (by intros; trivial) tfuel (by omega)
          have hW' : Within B 0 s.length 0 t.length := by intro p hp; have := hW p hp; omega
          obtain ⟨m', e2, hg'⟩ := recalculate_goodW s t _ (maxScoreFl_good fl s t sim gap) B hW' st.t hgs
          simp only [he, e1, e2, bind, Except.bind] at hb
          simp at hb; subst hb
          exact ⟨hg', rest ++ [emb B], by simp [hr]⟩)
      fuel _ st ⟨hg', [], by simp⟩ hst |>.imp And.right id
    refine ⟨m, i, j, emb A, rest, hm, hi, hj, t1, by rw [← h, hrest], ?_, ?_⟩
    · rw [← hcF]
      have : (findBestScore s.length t.length m).1 = cell.1 := by rw [he]
      rw [this] at h2 hz
      exact lt_of_le_of_ne h2 (Ne.symm hz)
    · intro b d hb hd
      have q2 := h1 b d hb hd _ (hm b d hb hd)
      rw [he] at q2
      rw [← hcF]
      exact q2

end
end Verif.SW

namespace Verif.Align

/-- The rounding of floats is near, up to the largest score. -/
theorem double_Near (K : ℚ) (hK : 0 ≤ K) (N : Nat) (hN : N ≤ 2 ^ 51) :
    Near Spec.Rounding.double (K * N / 2 ^ 52) ((K + K * N / 2 ^ 52) * N) := by
  intro x hx
  refine (Rounding.double_near x).trans ?_
  have hN' : (N : ℚ) ≤ 2 ^ 51 := by exact_mod_cast hN
  have h0 : (0 : ℚ) ≤ N := Nat.cast_nonneg N
  have h1 : K * N / 2 ^ 52 ≤ K / 2 := by
    rw [div_le_iff₀ (by norm_num)]
    have : K / 2 * 2 ^ 52 = K * 2 ^ 51 := by ring
    rw [this]; exact mul_le_mul_of_nonneg_left hN' hK
  have h2 : |x| ≤ 2 * K * N := by
    refine hx.trans (mul_le_mul_of_nonneg_right ?_ h0)
    linarith
  have h3 : |x| / 2 ^ 53 ≤ 2 * K * N / 2 ^ 53 := div_le_div_of_nonneg_right h2 (by norm_num)
  refine h3.trans (le_of_eq ?_)
  ring

end Verif.Align
