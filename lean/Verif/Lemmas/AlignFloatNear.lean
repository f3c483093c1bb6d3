import Verif.Lemmas.AlignFloatRun

set_option linter.unusedSectionVars false

namespace Verif.Align
open Verif Verif.Spec

/-- The error of rounding numbers of at most R is at most ε. -/
def Near (fl : ℚ → ℚ) (ε R : ℚ) : Prop := ∀ x, |x| ≤ R → |fl x - x| ≤ ε

theorem abs_max_sub_le {a b c d δ : ℚ} (h1 : |a - c| ≤ δ) (h2 : |b - d| ≤ δ) : |max a b - max c d| ≤ δ := by
  rw [abs_le] at *
  constructor
  · have : max c d ≤ max a b + δ := max_le (by linarith [le_max_left a b]) (by linarith [le_max_right a b])
    linarith
  · have : max a b ≤ max c d + δ := max_le (by linarith [le_max_left c d]) (by linarith [le_max_right c d])
    linarith

theorem abs_max_le {a b δ : ℚ} (h1 : |a| ≤ δ) (h2 : |b| ≤ δ) : |max a b| ≤ δ := by
  rcases max_choice a b with h | h <;> rw [h] <;> assumption

/-- One sum: x' is the rounded score and x the exact score before it. -/
theorem near_sum {fl : ℚ → ℚ} {ε K : ℚ} {N k : Nat} (hfl : Near fl ε ((K + ε) * N)) (hε : 0 ≤ ε) (hK : 0 ≤ K) {x x' w : ℚ}
    (hk : k + 1 ≤ N) (h1 : |x'| ≤ (K + ε) * k) (h2 : |x' - x| ≤ ε * k) (hw : |w| ≤ K) :
    |fl (x' + w)| ≤ (K + ε) * (k + 1) ∧ |fl (x' + w) - (x + w)| ≤ ε * (k + 1) ∧ |fl (x' + w) - (x' + w)| ≤ ε := by
  have hk' : ((k : ℚ) + 1) ≤ N := by exact_mod_cast hk
  have h3 : |x' + w| ≤ (K + ε) * k + K := (abs_add_le _ _).trans (by linarith)
  have h4 : (K + ε) * k + K ≤ (K + ε) * N := by nlinarith
  have h5 := hfl _ (h3.trans h4)
  refine ⟨?_, ?_, h5⟩
  · have : |fl (x' + w)| ≤ |fl (x' + w) - (x' + w)| + |x' + w| := by
      have := abs_add_le (fl (x' + w) - (x' + w)) (x' + w)
      simpa using this
    nlinarith
  · have : |fl (x' + w) - (x + w)| ≤ |fl (x' + w) - (x' + w)| + |x' - x| := by
      have := abs_add_le (fl (x' + w) - (x' + w)) (x' - x)
      rw [show fl (x' + w) - (x' + w) + (x' - x) = fl (x' + w) - (x + w) by ring] at this
      exact this
    nlinarith

theorem near_mono {a b : ℚ} {k l : Nat} {x : ℚ} (hx : 0 ≤ x) (hkl : k ≤ l) (h : a ≤ x * (k + 1)) (hb : b = (l : ℚ) + 1) :
    a ≤ x * b := by
  have : (k : ℚ) ≤ l := by exact_mod_cast hkl
  rw [hb]; nlinarith

end Verif.Align

namespace Verif.SW
open Verif Verif.Spec Verif.Align

variable {α : Type}

section
variable (fl : ℚ → ℚ) (s t : List α) (sim : α → α → ℚ) (gap : α → ℚ) (ε K : ℚ)
  (hfl : Near fl ε ((K + ε) * (s.length + t.length : Nat))) (hε : 0 ≤ ε) (hK : 0 ≤ K)
  (hsim : ∀ x ∈ s, ∀ y ∈ t, |sim x y| ≤ K) (hs : ∀ x ∈ s, |gap x| ≤ K) (ht : ∀ y ∈ t, |gap y| ≤ K)
include hfl hε hK hsim hs ht

theorem Fr_near (i j : Nat) (hi : i ≤ s.length) (hj : j ≤ t.length) :
    |(Fr fl s t sim gap i j).1| ≤ (K + ε) * (i + j : Nat) ∧
    |(Fr fl s t sim gap i j).1 - (F s t sim gap i j).1| ≤ ε * (i + j : Nat) := by
  have p1 : ∀ n : Nat, 0 ≤ (K + ε) * n := fun n => mul_nonneg (by linarith) (Nat.cast_nonneg n)
  have p2 : ∀ n : Nat, 0 ≤ ε * n := fun n => mul_nonneg hε (Nat.cast_nonneg n)
  match i, j with
  | 0, 0 => simp [Fr_00, F_00]
  | i + 1, 0 => simp only [Fr_i0, F_i0, abs_zero, sub_self]; exact ⟨p1 _, p2 _⟩
  | 0, j + 1 => simp only [Fr_0j, F_0j, abs_zero, sub_self]; exact ⟨p1 _, p2 _⟩
  | i + 1, j + 1 =>
    have hi' : i < s.length := by omega
    have hj' : j < t.length := by omega
    obtain ⟨u1, u2⟩ := Fr_near i (j + 1) (by omega) hj
    obtain ⟨d1, d2⟩ := Fr_near i j (by omega) (by omega)
    obtain ⟨l1, l2⟩ := Fr_near (i + 1) j hi (by omega)
    obtain ⟨u3, u4, -⟩ := near_sum hfl hε hK (by omega) u1 u2 (hs _ (List.getElem_mem hi'))
    obtain ⟨d3, d4, -⟩ := near_sum hfl hε hK (by omega) d1 d2 (hsim _ (List.getElem_mem hi') _ (List.getElem_mem hj'))
    obtain ⟨l3, l4, -⟩ := near_sum hfl hε hK (by omega) l1 l2 (ht _ (List.getElem_mem hj'))
    rw [Fr_succ_fst fl s t sim gap i j hi' hj', F_succ_fst s t sim gap i j hi' hj']
    have hb : ((i + 1 + (j + 1) : Nat) : ℚ) = ((i + (j + 1) : Nat) : ℚ) + 1 := by push_cast; ring
    have q1 : (0 : ℚ) ≤ K + ε := by linarith
    refine ⟨abs_max_le (abs_max_le (abs_max_le ?_ ?_) ?_) ?_, abs_max_sub_le (abs_max_sub_le (abs_max_sub_le ?_ ?_) ?_) ?_⟩
    · exact near_mono q1 (by omega) u3 hb
    · exact near_mono q1 (by omega) d3 hb
    · exact near_mono q1 (by omega) l3 hb
    · rw [abs_zero]; exact p1 _
    · exact near_mono hε (by omega) u4 hb
    · exact near_mono hε (by omega) d4 hb
    · exact near_mono hε (by omega) l4 hb
    · rw [sub_self, abs_zero]; exact p2 _
termination_by i + j

/-- The traceback of the freshly computed matrix gives a local alignment whose score is near that of its start. -/
theorem trace_near (m : Matrix) (hm : Holds s.length t.length (Fr fl s t sim gap) m) (b d : Nat) (hb : b ≤ s.length)
    (hd : d ≤ t.length) (fuel : Nat) (hf : b + d < fuel) :
    ∃ (a c : Nat) (A : List (Nat × Nat)), traceAlignment fuel m (b, d) = .ok (emb A) ∧
      IsAlignment s t A a b c d ∧ |alignScore sim gap s t A a b c d - (Fr fl s t sim gap b d).1| ≤ ε * (b + d : Nat) := by
  have herr : ∀ (i j : Nat) (w : ℚ), i ≤ s.length → j ≤ t.length → i + j + 1 ≤ s.length + t.length → |w| ≤ K →
      |fl ((Fr fl s t sim gap i j).1 + w) - ((Fr fl s t sim gap i j).1 + w)| ≤ ε := by
    intro i j w hi hj hij hw
    obtain ⟨h1, h2⟩ := Fr_near fl s t sim gap ε K hfl hε hK hsim hs ht i j hi hj
    exact (near_sum hfl hε hK (by omega) h1 h2 hw).2.2
  obtain ⟨a, c, A, e1, ha, hc, hI, hW, ⟨hR1, hR2, hR3⟩, e, he, he0⟩ := trace_general s.length t.length m
    (Fr_good fl s t sim gap m hm) b d hb hd
    (fun i j A => i ≤ b ∧ j ≤ d ∧
      |(Fr fl s t sim gap i j).1 + alignScore sim gap s t A i b j d - (Fr fl s t sim gap b d).1| ≤
        ε * (((b : ℚ) - i) + (d - j)))
    (by simp [alignScore])
    (by
      rintro i j A c hi hj hc hdir hpos hW ⟨hR1, hR2, hR3⟩
      rw [hm _ _ (by omega) (by omega)] at hc; cases hc
      have hs' := Fr_step fl s t sim gap (i + 1) j (by omega) (by omega) hpos
      simp only [hdir] at hs'
      obtain ⟨k, hk', hk, he⟩ := hs'
      have : i = k := by omega
      subst this
      refine ⟨by omega, hR2, ?_⟩
      rw [score_up_front sim gap s t A i b j d hW (by omega) hb]
      have := herr i j (gap s[i]) (by omega) hj (by omega) (hs _ (List.getElem_mem hk))
      rw [he] at hR3
      rw [abs_le] at *
      push_cast at hR3
      constructor <;> linarith)
    (by
      rintro i j A c hi hj hc hdir hpos hW ⟨hR1, hR2, hR3⟩
      rw [hm _ _ (by omega) (by omega)] at hc; cases hc
      have hs' := Fr_step fl s t sim gap i (j + 1) (by omega) (by omega) hpos
      simp only [hdir] at hs'
      obtain ⟨k, hk', hk, he⟩ := hs'
      have : j = k := by omega
      subst this
      refine ⟨hR1, by omega, ?_⟩
      rw [score_left_front sim gap s t A i b j d hW (by omega) hd]
      have := herr i j (gap t[j]) (by omega) (by omega) (by omega) (ht _ (List.getElem_mem hk))
      rw [he] at hR3
      rw [abs_le] at *
      push_cast at hR3
      constructor <;> linarith)
    (by
      rintro i j A c hi hj hc hdir hpos hW ⟨hR1, hR2, hR3⟩
      rw [hm _ _ (by omega) (by omega)] at hc; cases hc
      have hs' := Fr_step fl s t sim gap (i + 1) (j + 1) (by omega) (by omega) hpos
      simp only [hdir] at hs'
      obtain ⟨k, l, hk', hl', hk, hl, he⟩ := hs'
      have : i = k := by omega
      subst this
      have : j = l := by omega
      subst this
      refine ⟨by omega, by omega, ?_⟩
      rw [score_diag_front sim gap s t A i b j d hW (by omega) (by omega) hb hd]
      have := herr i j (sim s[i] t[j]) (by omega) (by omega) (by omega) (hsim _ (List.getElem_mem hk) _ (List.getElem_mem hl))
      rw [he] at hR3
      rw [abs_le] at *
      push_cast at hR3
      constructor <;> linarith)
    fuel hf
  refine ⟨a, c, A, e1, ⟨hI, hW, ha, hb, hc, hd⟩, ?_⟩
  rw [hm a c (by omega) (by omega)] at he; cases he
  have h0 := Fr_nonneg fl s t sim gap a c (by omega) (by omega)
  have h0 : (Fr fl s t sim gap a c).1 = 0 := le_antisymm he0 h0
  rw [h0, zero_add] at hR3
  refine hR3.trans (mul_le_mul_of_nonneg_left ?_ hε)
  push_cast
  have : (0 : ℚ) ≤ a := Nat.cast_nonneg a
  have : (0 : ℚ) ≤ c := Nat.cast_nonneg c
  linarith

end
end Verif.SW

namespace Verif.NW
open Verif Verif.Spec Verif.Align

variable {α : Type}

theorem Fr_succ_fst (fl : ℚ → ℚ) (s t : List α) (sim : α → α → ℚ) (gap : α → ℚ) (i j : Nat) (hi : i < s.length)
    (hj : j < t.length) :
    (Fr fl s t sim gap (i + 1) (j + 1)).1 =
      max (max (fl ((Fr fl s t sim gap i (j + 1)).1 + gap s[i])) (fl ((Fr fl s t sim gap i j).1 + sim s[i] t[j])))
        (fl ((Fr fl s t sim gap (i + 1) j).1 + gap t[j])) := by
  rw [Fr_ij _ _ _ _ _ _ _ hi hj, cmax_fst, cmax_fst]

section
variable (fl : ℚ → ℚ) (s t : List α) (sim : α → α → ℚ) (gap : α → ℚ) (ε K : ℚ)
  (hfl : Near fl ε ((K + ε) * (s.length + t.length : Nat))) (hε : 0 ≤ ε) (hK : 0 ≤ K)
  (hsim : ∀ x ∈ s, ∀ y ∈ t, |sim x y| ≤ K) (hs : ∀ x ∈ s, |gap x| ≤ K) (ht : ∀ y ∈ t, |gap y| ≤ K)
include hfl hε hK hsim hs ht

omit hsim hs ht in
theorem border_near (g : ℚ) (hg : |g| ≤ K) (i : Nat) (hi : i ≤ s.length + t.length) :
    |fl (g * i) - g * i| ≤ ε := by
  apply hfl
  rw [abs_mul, Nat.abs_cast]
  have h1 : (i : ℚ) ≤ (s.length + t.length : Nat) := by exact_mod_cast hi
  have h2 : (0 : ℚ) ≤ i := Nat.cast_nonneg i
  calc |g| * i ≤ K * i := mul_le_mul_of_nonneg_right hg h2
    _ ≤ (K + ε) * i := mul_le_mul_of_nonneg_right (by linarith) h2
    _ ≤ _ := mul_le_mul_of_nonneg_left h1 (by linarith)

omit hsim hs ht in
theorem border_near2 (g : ℚ) (hg : |g| ≤ K) (i : Nat) (hi : i + 1 ≤ s.length + t.length) :
    |fl (g * (i + 1 : Nat))| ≤ (K + ε) * (i + 1 : Nat) ∧ |fl (g * (i + 1 : Nat)) - g * (i + 1 : Nat)| ≤ ε * (i + 1 : Nat) := by
  have h := border_near fl s t ε K hfl hε hK g hg (i + 1) hi
  have h1 : (1 : ℚ) ≤ (i + 1 : Nat) := by push_cast; have : (0 : ℚ) ≤ i := Nat.cast_nonneg i; linarith
  have h2 : |g * (i + 1 : Nat)| ≤ K * (i + 1 : Nat) := by
    rw [abs_mul, Nat.abs_cast]
    exact mul_le_mul_of_nonneg_right hg (Nat.cast_nonneg _)
  have h3 : ε ≤ ε * (i + 1 : Nat) := le_mul_of_one_le_right hε h1
  refine ⟨?_, h.trans h3⟩
  have := abs_add_le (fl (g * (i + 1 : Nat)) - g * (i + 1 : Nat)) (g * (i + 1 : Nat))
  rw [sub_add_cancel] at this
  rw [add_mul]
  linarith

theorem Fr_near (i j : Nat) (hi : i ≤ s.length) (hj : j ≤ t.length) :
    |(Fr fl s t sim gap i j).1| ≤ (K + ε) * (i + j : Nat) ∧
    |(Fr fl s t sim gap i j).1 - (F s t sim gap i j).1| ≤ ε * (i + j : Nat) := by
  match i, j with
  | 0, 0 => simp [Fr_00, F_00]
  | i + 1, 0 =>
    rw [Fr_i0 _ _ _ _ _ _ (by omega), F_i0 _ _ _ _ _ (by omega)]
    exact border_near2 fl s t ε K hfl hε hK _ (hs _ (List.getElem_mem _)) i (by omega)
  | 0, j + 1 =>
    rw [Fr_0j _ _ _ _ _ _ (by omega), F_0j _ _ _ _ _ (by omega), Nat.zero_add]
    exact border_near2 fl s t ε K hfl hε hK _ (ht _ (List.getElem_mem _)) j (by omega)
  | i + 1, j + 1 =>
    have hi' : i < s.length := by omega
    have hj' : j < t.length := by omega
    obtain ⟨u1, u2⟩ := Fr_near i (j + 1) (by omega) hj
    obtain ⟨d1, d2⟩ := Fr_near i j (by omega) (by omega)
    obtain ⟨l1, l2⟩ := Fr_near (i + 1) j hi (by omega)
    obtain ⟨u3, u4, -⟩ := near_sum hfl hε hK (by omega) u1 u2 (hs _ (List.getElem_mem hi'))
    obtain ⟨d3, d4, -⟩ := near_sum hfl hε hK (by omega) d1 d2 (hsim _ (List.getElem_mem hi') _ (List.getElem_mem hj'))
    obtain ⟨l3, l4, -⟩ := near_sum hfl hε hK (by omega) l1 l2 (ht _ (List.getElem_mem hj'))
    rw [Fr_succ_fst fl s t sim gap i j hi' hj', F_succ_fst s t sim gap i j hi' hj']
    have hb : ((i + 1 + (j + 1) : Nat) : ℚ) = ((i + (j + 1) : Nat) : ℚ) + 1 := by push_cast; ring
    have q1 : (0 : ℚ) ≤ K + ε := by linarith
    refine ⟨abs_max_le (abs_max_le ?_ ?_) ?_, abs_max_sub_le (abs_max_sub_le ?_ ?_) ?_⟩
    · exact near_mono q1 (by omega) u3 hb
    · exact near_mono q1 (by omega) d3 hb
    · exact near_mono q1 (by omega) l3 hb
    · exact near_mono hε (by omega) u4 hb
    · exact near_mono hε (by omega) d4 hb
    · exact near_mono hε (by omega) l4 hb
termination_by i + j

/-- What the step of a cell says about its score. -/
theorem Fr_step (c1 c2 : ℚ) (h1 : ∀ x ∈ s, gap x = c1) (h2 : ∀ y ∈ t, gap y = c2) (i j : Nat)
    (hi : i ≤ s.length) (hj : j ≤ t.length) (hpos : 0 < i + j) :
    match (Fr fl s t sim gap i j).2 with
    | .U => ∃ k, i = k + 1 ∧ ∃ hk : k < s.length,
        |(Fr fl s t sim gap i j).1 - ((Fr fl s t sim gap k j).1 + gap s[k])| ≤ 2 * ε
    | .L => ∃ l, j = l + 1 ∧ ∃ hl : l < t.length,
        |(Fr fl s t sim gap i j).1 - ((Fr fl s t sim gap i l).1 + gap t[l])| ≤ 2 * ε
    | .D => ∃ k l, i = k + 1 ∧ j = l + 1 ∧ ∃ (hk : k < s.length) (hl : l < t.length),
        |(Fr fl s t sim gap i j).1 - ((Fr fl s t sim gap k l).1 + sim s[k] t[l])| ≤ 2 * ε
    | .T => False := by
  have herr : ∀ (i j : Nat) (w : ℚ), i ≤ s.length → j ≤ t.length → i + j + 1 ≤ s.length + t.length → |w| ≤ K →
      |fl ((Fr fl s t sim gap i j).1 + w) - ((Fr fl s t sim gap i j).1 + w)| ≤ 2 * ε := by
    intro i j w hi hj hij hw
    obtain ⟨h1, h2⟩ := Fr_near fl s t sim gap ε K hfl hε hK hsim hs ht i j hi hj
    exact (near_sum hfl hε hK (by omega) h1 h2 hw).2.2.trans (by linarith)
  match i, j with
  | 0, 0 => omega
  | i + 1, 0 =>
    have hi' : i < s.length := by omega
    have e1 : gap s[i] = c1 := h1 _ (List.getElem_mem hi')
    have hc : |c1| ≤ K := by rw [← e1]; exact hs _ (List.getElem_mem hi')
    rw [Fr_i0 _ _ _ _ _ _ hi']
    refine ⟨i, rfl, hi', ?_⟩
    have a1 := border_near fl s t ε K hfl hε hK c1 hc (i + 1) (by omega)
    rw [e1]
    have a2 : |(Fr fl s t sim gap i 0).1 - c1 * i| ≤ ε := by
      cases i with
      | zero => simp [Fr_00, hε]
      | succ i =>
        rw [Fr_i0 _ _ _ _ _ _ (by omega), h1 _ (List.getElem_mem _)]
        exact border_near fl s t ε K hfl hε hK c1 hc (i + 1) (by omega)
    rw [abs_le] at *
    push_cast at a1 ⊢
    constructor <;> linarith
  | 0, j + 1 =>
    have hj' : j < t.length := by omega
    have e1 : gap t[j] = c2 := h2 _ (List.getElem_mem hj')
    have hc : |c2| ≤ K := by rw [← e1]; exact ht _ (List.getElem_mem hj')
    rw [Fr_0j _ _ _ _ _ _ hj']
    refine ⟨j, rfl, hj', ?_⟩
    have a1 := border_near fl s t ε K hfl hε hK c2 hc (j + 1) (by omega)
    rw [e1]
    have a2 : |(Fr fl s t sim gap 0 j).1 - c2 * j| ≤ ε := by
      cases j with
      | zero => simp [Fr_00, hε]
      | succ j =>
        rw [Fr_0j _ _ _ _ _ _ (by omega), h2 _ (List.getElem_mem _)]
        exact border_near fl s t ε K hfl hε hK c2 hc (j + 1) (by omega)
    rw [abs_le] at *
    push_cast at a1 ⊢
    constructor <;> linarith
  | i + 1, j + 1 =>
    have hi' : i < s.length := by omega
    have hj' : j < t.length := by omega
    have hF := Fr_ij fl s t sim gap i j hi' hj'
    rcases cmax_cases (cmax (fl ((Fr fl s t sim gap i (j + 1)).1 + gap s[i]), .U)
        (fl ((Fr fl s t sim gap i j).1 + sim s[i] t[j]), .D)) (fl ((Fr fl s t sim gap (i + 1) j).1 + gap t[j]), .L)
      with e | e
    · rcases cmax_cases (fl ((Fr fl s t sim gap i (j + 1)).1 + gap s[i]), Dir.U)
        (fl ((Fr fl s t sim gap i j).1 + sim s[i] t[j]), .D) with e' | e'
      · rw [hF, e, e']
        exact ⟨i, rfl, hi', herr i (j + 1) _ (by omega) hj (by omega) (hs _ (List.getElem_mem hi'))⟩
      · rw [hF, e, e']
        exact ⟨i, j, rfl, rfl, hi', hj', herr i j _ (by omega) (by omega) (by omega)
          (hsim _ (List.getElem_mem hi') _ (List.getElem_mem hj'))⟩
    · rw [hF, e]
      exact ⟨j, rfl, hj', herr (i + 1) j _ hi (by omega) (by omega) (ht _ (List.getElem_mem hj'))⟩

/-- Traceback invariant. -/
def TNear (st : Trace) : Prop :=
  ∃ (i j : Nat) (A : List (Nat × Nat)), st = { i := i, j := j, alignment := emb A } ∧
    i ≤ s.length ∧ j ≤ t.length ∧ Increasing A ∧ Within A i s.length j t.length ∧
    |(Fr fl s t sim gap i j).1 + alignScore sim gap s t A i s.length j t.length -
      (Fr fl s t sim gap s.length t.length).1| ≤ 2 * ε * (((s.length : ℚ) - i) + (t.length - j))

theorem trace_near (c1 c2 : ℚ)
    (h1 : ∀ x ∈ s, gap x = c1) (h2 : ∀ y ∈ t, gap y = c2) (fuel : Nat)
    (hf : s.length + t.length < fuel) :
    ∃ m A, needlemanWunschFl fl fuel s t sim gap = .ok (m, emb A) ∧
      Holds s.length t.length (Fr fl s t sim gap) m ∧ IsAlignment s t A 0 s.length 0 t.length ∧
      |alignScore sim gap s t A 0 s.length 0 t.length - (Fr fl s t sim gap s.length t.length).1| ≤
        2 * ε * (s.length + t.length : Nat) := by
  obtain ⟨m0, m, e1, e2, hm⟩ := matrixFl_ok fl s t sim gap
  unfold needlemanWunschFl
  simp only [e1, e2, bind, Except.bind]
  obtain ⟨st, g1, g2⟩ := Py.whileLoop_inv
    (cond := fun st : Trace => .ok (decide (st.i + st.j > 0))) (body := traceStep m)
    (TNear fl s t sim gap ε) (fun st => (st.i + st.j).toNat)
    (fun st => TNear fl s t sim gap ε st ∧ st.i = 0 ∧ st.j = 0)
    (by
      rintro _ ⟨i, j, A, rfl, hi, hj, hA, hW, hS⟩
      by_cases hz : i + j = 0
      · left
        have : i = 0 := by omega
        have : j = 0 := by omega
        subst i; subst j
        exact ⟨by simp, ⟨0, 0, A, rfl, hi, hj, hA, hW, hS⟩, by simp, by simp⟩
      · right
        refine ⟨by simp; omega, ?_⟩
        have hget := Py.Dict.get_eq (hm i j hi hj)
        have hstep := Fr_step fl s t sim gap ε K hfl hε hK hsim hs ht c1 c2 h1 h2 i j hi hj (by omega)
        simp only [traceStep, hget, bind, Except.bind]
        cases hd : (Fr fl s t sim gap i j).2 with
        | T => simp only [hd] at hstep
        | U =>
          simp only [hd] at hstep
          obtain ⟨k, rfl, hk, he⟩ := hstep
          have c : ((k + 1 : Nat) : Int) - 1 = (k : Int) := by omega
          refine ⟨_, rfl, ⟨k, j, A, by simp [c], by omega, hj, hA, ?_, ?_⟩, by simp; omega⟩
          · intro p hp; have := hW p hp; omega
          · rw [score_up_front sim gap s t A k s.length j t.length hW (by omega) (le_refl _)]
            rw [abs_le] at *
            push_cast at hS
            constructor <;> linarith
        | L =>
          simp only [hd] at hstep
          obtain ⟨l, rfl, hl, he⟩ := hstep
          have c : ((l + 1 : Nat) : Int) - 1 = (l : Int) := by omega
          refine ⟨_, rfl, ⟨i, l, A, by simp [c], hi, by omega, hA, ?_, ?_⟩, by simp; omega⟩
          · intro p hp; have := hW p hp; omega
          · rw [score_left_front sim gap s t A i s.length l t.length hW (by omega) (le_refl _)]
            rw [abs_le] at *
            push_cast at hS
            constructor <;> linarith
        | D =>
          simp only [hd] at hstep
          obtain ⟨k, l, rfl, rfl, hk, hl, he⟩ := hstep
          have c : ((k + 1 : Nat) : Int) - 1 = (k : Int) := by omega
          have c' : ((l + 1 : Nat) : Int) - 1 = (l : Int) := by omega
          refine ⟨_, rfl, ⟨k, l, (k, l) :: A, by simp [c, c', emb], by omega, by omega, ?_, ?_, ?_⟩,
            by simp; omega⟩
          · unfold Increasing at *
            rw [List.pairwise_cons]
            exact ⟨fun q hq => by have := hW q hq; omega, hA⟩
          · intro p hp
            rcases List.mem_cons.1 hp with rfl | hp
            · simp; omega
            · have := hW p hp; omega
          · rw [score_diag_front sim gap s t A k s.length l t.length hW (by omega) (by omega)
              (le_refl _) (le_refl _)]
            rw [abs_le] at *
            push_cast at hS
            constructor <;> linarith)
    fuel { i := s.length, j := t.length, alignment := [] }
    ⟨s.length, t.length, [], by simp [emb], le_refl _, le_refl _, by simp [Increasing],
      by intro p hp; simp at hp, by simp [alignScore]⟩
    (by simp; omega)
  obtain ⟨⟨i, j, A, rfl, hi, hj, hA, hW, hS⟩, hi0, hj0⟩ := g2
  simp only at hi0 hj0
  have : i = 0 := by omega
  have : j = 0 := by omega
  subst i; subst j
  refine ⟨m, A, by rw [g1], hm, ⟨hA, hW, Nat.zero_le _, le_refl _, Nat.zero_le _, le_refl _⟩, ?_⟩
  simpa [Fr_00] using hS

end
end Verif.NW
