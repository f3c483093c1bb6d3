import Verif.Lemmas.AlignFloatExact
import Verif.Lemmas.AlignFloatFirst

/-! Property C80 (lib/daeso/string/needleman_wunsch.py, smith_waterman.py, waterman_eggert.py: scores that are floats). -/
namespace Verif.Props.AlignFloat
open Verif Verif.Spec Verif.Spec.Rounding Verif.NW Verif.SW Verif.Align

variable {α : Type}

/-! ### However scores are rounded -/

/-- C80.  However sums are rounded, `needleman_wunsch` ends without exception and returns an alignment of the two
sequences. -/
theorem nw_valid (fl : ℚ → ℚ) (s t : List α) (sim : α → α → ℚ) (gap : α → ℚ) (fuel : Nat)
    (hf : s.length + t.length < fuel) :
    ∃ (m : Matrix) (A : List (Nat × Nat)),
      needlemanWunschFl fl fuel s t sim gap = .ok (m, A.map fun p => ((p.1 : Int), (p.2 : Int))) ∧
      (∀ i ≤ s.length, ∀ j ≤ t.length, (m (i, j)).isSome) ∧
      IsAlignment s t A 0 s.length 0 t.length := by
  obtain ⟨m, A, e1, e2, e3⟩ := traceFl_valid fl s t sim gap fuel hf
  exact ⟨m, A, e1, fun i hi j hj => by rw [e2 i j hi hj]; rfl, e3⟩

/-- C80.  However sums are rounded, `smith_waterman` ends; its only exception is IndexError; otherwise it returns a
local alignment, which ends at the highest score of its matrix. -/
theorem sw_valid (fl : ℚ → ℚ) (s t : List α) (sim : α → α → ℚ) (gap : α → ℚ) (fuel : Nat)
    (hf : s.length + t.length < fuel) :
    smithWatermanFl fl fuel s t sim gap = .error .indexError ∨
    ∃ (m : Matrix) (A : List (Nat × Nat)) (a b c d : Nat),
      smithWatermanFl fl fuel s t sim gap = .ok (m, A.map fun p => ((p.1 : Int), (p.2 : Int))) ∧
      IsAlignment s t A a b c d ∧
      ∃ v e, m (b, d) = some (v, e) ∧ 0 < v ∧
        ∀ i j : Nat, i ≤ s.length → j ≤ t.length → ∃ v' e', m (i, j) = some (v', e') ∧ 0 ≤ v' ∧ v' ≤ v := by
  obtain ⟨m, e1, hm⟩ := SW.matrixFl_ok fl s t sim gap
  unfold smithWatermanFl
  simp only [e1, bind, Except.bind]
  rcases bestPair_spec s.length t.length m with ⟨h1, h2⟩ | ⟨i, j, c, h1, hi, hj, hc, hpos, hmax⟩
  · left; rw [h1]
  · right
    obtain ⟨a, c', A, t1, ha, hc', hI, hW, -, -⟩ := trace_general s.length t.length m (Fr_good fl s t sim gap m hm) i j hi hj
      (fun _ _ _ => True) trivial (by intros; trivial) (by intros; trivial) (by intros; trivial) fuel (by omega)
    refine ⟨m, A, a, i, c', j, by rw [h1]; simp only [t1]; rfl, ⟨hI, hW, ha, hi, hc', hj⟩, c.1, c.2, hc, hpos, ?_⟩
    intro i' j' hi' hj'
    exact ⟨_, _, hm i' j' hi' hj', SW.Fr_nonneg fl s t sim gap i' j' hi' hj', hmax i' j' hi' hj' _ (hm i' j' hi' hj')⟩

/-- C80.  However sums are rounded, `waterman_eggert` with a limit ends without exception and returns at most that many
alignments, each increasing and in range. -/
theorem we_limit (fl : ℚ → ℚ) (s t : List α) (sim : α → α → ℚ) (gap : α → ℚ) (limit : Nat)
    (hl : 0 < limit) (fuel tfuel : Nat) (hf : limit + 1 < fuel) (htf : s.length + t.length < tfuel) :
    ∃ L : List (List (Nat × Nat)),
      watermanEggertFl fl fuel tfuel s t sim gap limit =
        .ok (L.map fun A => A.map fun p => ((p.1 : Int), (p.2 : Int))) ∧
      L.length ≤ limit ∧ ∀ A ∈ L, Increasing A ∧ Within A 0 s.length 0 t.length :=
  we_limit_okFl fl s t sim gap limit hl fuel tfuel hf htf

/-- C80.  However sums are rounded, and whatever the limit (0 is "no limit"): if `waterman_eggert` ends, every alignment is
increasing and in range, and two alignments found one after the other have no pair in common. -/
theorem we_valid (fl : ℚ → ℚ) (s t : List α) (sim : α → α → ℚ) (gap : α → ℚ) (limit : Nat)
    (fuel tfuel : Nat) (htf : s.length + t.length < tfuel) (res : List (List (Int × Int)))
    (h : watermanEggertFl fl fuel tfuel s t sim gap limit = .ok res) :
    ∃ L : List (List (Nat × Nat)), res = L.map (fun A => A.map fun p => ((p.1 : Int), (p.2 : Int))) ∧
      (∀ A ∈ L, Increasing A ∧ Within A 0 s.length 0 t.length) ∧
      ∀ k A B, L[k]? = some A → L[k + 1]? = some B → ∀ p ∈ A, p ∉ B := by
  obtain ⟨L, h1, h2⟩ := we_consecutiveFl fl s t sim gap limit fuel tfuel htf res h
  obtain ⟨L', h1', h2'⟩ := we_partial_okFl fl s t sim gap limit fuel tfuel htf res h
  have hLL : L' = L := by
    have hinj : Function.Injective emb := by
      refine List.map_injective_iff.2 ?_
      rintro ⟨a, b⟩ ⟨c, d⟩ hp
      simp only [Prod.mk.injEq, Int.natCast_inj] at hp
      exact Prod.ext hp.1 hp.2
    exact List.map_injective_iff.2 hinj (h1'.symm.trans h1)
  subst hLL
  refine ⟨L', h1, h2', ?_⟩
  intro k A B hA hB
  have hk : k + 1 < L'.length := by
    by_contra hc; rw [List.getElem?_eq_none (by omega)] at hB; simp at hB
  rw [List.getElem?_eq_getElem (by omega)] at hA hB
  simp at hA hB
  rw [← hA, ← hB]
  exact List.isChain_iff_getElem.1 h2 k hk

/-! ### How far from the best alignment -/

section
variable (fl : ℚ → ℚ) (s t : List α) (sim : α → α → ℚ) (gap : α → ℚ) (ε K : ℚ)
  (hfl : ∀ x, |x| ≤ (K + ε) * (s.length + t.length : Nat) → |fl x - x| ≤ ε) (hε : 0 ≤ ε) (hK : 0 ≤ K)
  (hsim : ∀ x ∈ s, ∀ y ∈ t, |sim x y| ≤ K) (hs : ∀ x ∈ s, |gap x| ≤ K) (ht : ∀ y ∈ t, |gap y| ≤ K)
include hfl hε hK hsim hs ht

/-- C80 (gap costs constant on each sequence).  When scores are at most `K` and a sum is rounded with an error of at most
`ε`, then for sequences with together `N` elements the alignment of `needleman_wunsch` misses the best score by at most
`3·N·ε`, and every entry of the matrix is within `ε·(i+j)` of the best score of the prefixes. -/
theorem nw_near (c1 c2 : ℚ) (h1 : ∀ x ∈ s, gap x = c1) (h2 : ∀ y ∈ t, gap y = c2) (fuel : Nat)
    (hf : s.length + t.length < fuel) :
    ∃ (m : Matrix) (A : List (Nat × Nat)),
      needlemanWunschFl fl fuel s t sim gap = .ok (m, A.map fun p => ((p.1 : Int), (p.2 : Int))) ∧
      IsAlignment s t A 0 s.length 0 t.length ∧
      (∀ A', IsAlignment s t A' 0 s.length 0 t.length →
        alignScore sim gap s t A' 0 s.length 0 t.length ≤
          alignScore sim gap s t A 0 s.length 0 t.length + 3 * (s.length + t.length : Nat) * ε) ∧
      ∀ i j : Nat, i ≤ s.length → j ≤ t.length → ∃ v d, m (i, j) = some (v, d) ∧
        (∃ A, IsAlignment s t A 0 i 0 j ∧ v ≤ alignScore sim gap s t A 0 i 0 j + ε * (i + j : Nat)) ∧
        ∀ A', IsAlignment s t A' 0 i 0 j → alignScore sim gap s t A' 0 i 0 j ≤ v + ε * (i + j : Nat) := by
  obtain ⟨m, A, e1, e2, e3, e4⟩ := NW.trace_near fl s t sim gap ε K hfl hε hK hsim hs ht c1 c2 h1 h2 fuel hf
  refine ⟨m, A, e1, e3, ?_, ?_⟩
  · intro A' hA'
    have q1 := NW.F_upper s t sim gap c1 c2 h1 h2 _ _ (le_refl _) (le_refl _) A' hA'.inc hA'.within
    have q2 := (NW.Fr_near fl s t sim gap ε K hfl hε hK hsim hs ht s.length t.length (le_refl _) (le_refl _)).2
    rw [abs_le] at q2 e4
    linarith
  · intro i j hi hj
    have q2 := (NW.Fr_near fl s t sim gap ε K hfl hε hK hsim hs ht i j hi hj).2
    rw [abs_le] at q2
    obtain ⟨A0, hA0, hA0s⟩ := F_attained s t sim gap c1 c2 h1 h2 i j hi hj
    refine ⟨(NW.Fr fl s t sim gap i j).1, (NW.Fr fl s t sim gap i j).2, e2 i j hi hj, ⟨A0, hA0, by rw [hA0s]; linarith⟩, ?_⟩
    intro A' hA'
    have q1 := NW.F_upper s t sim gap c1 c2 h1 h2 i j hi hj A' hA'.inc hA'.within
    linarith

/-- C80 (gap costs not positive).  Either `smith_waterman` raises IndexError, and no local alignment has a score above
`N·ε`, or its local alignment misses the best score by at most `2·N·ε`. -/
theorem sw_near (hg : ∀ x, gap x ≤ 0) (fuel : Nat) (hf : s.length + t.length < fuel) :
    (smithWatermanFl fl fuel s t sim gap = .error .indexError ∧
      ∀ A a b c d, IsAlignment s t A a b c d →
        alignScore sim gap s t A a b c d ≤ (s.length + t.length : Nat) * ε) ∨
    (∃ (m : Matrix) (A : List (Nat × Nat)) (a b c d : Nat),
      smithWatermanFl fl fuel s t sim gap = .ok (m, A.map fun p => ((p.1 : Int), (p.2 : Int))) ∧
      IsAlignment s t A a b c d ∧ -((s.length + t.length : Nat) * ε) < alignScore sim gap s t A a b c d ∧
      ∀ A' a' b' c' d', IsAlignment s t A' a' b' c' d' →
        alignScore sim gap s t A' a' b' c' d' ≤
          alignScore sim gap s t A a b c d + 2 * (s.length + t.length : Nat) * ε) := by
  obtain ⟨m, e1, hm⟩ := SW.matrixFl_ok fl s t sim gap
  have hup : ∀ (A : List (Nat × Nat)) (a b c d : Nat), IsAlignment s t A a b c d →
      alignScore sim gap s t A a b c d ≤ (SW.Fr fl s t sim gap b d).1 + (s.length + t.length : Nat) * ε := by
    intro A a b c d hA
    have q1 := SW.F_upper s t sim gap hg b d A a c hA
    have q2 := (SW.Fr_near fl s t sim gap ε K hfl hε hK hsim hs ht b d hA.hbs hA.hdt).2
    rw [abs_le] at q2
    have : ε * (b + d : Nat) ≤ ε * (s.length + t.length : Nat) :=
      mul_le_mul_of_nonneg_left (by exact_mod_cast Nat.add_le_add hA.hbs hA.hdt) hε
    linarith
  unfold smithWatermanFl
  simp only [e1, bind, Except.bind]
  rcases bestPair_spec s.length t.length m with ⟨h1, h2⟩ | ⟨i, j, c, h1, hi, hj, hc, hpos, hmax⟩
  · left
    refine ⟨by rw [h1], ?_⟩
    intro A a b c d hA
    have := hup A a b c d hA
    have := h2 b d hA.hbs hA.hdt _ (hm b d hA.hbs hA.hdt)
    linarith
  · right
    obtain ⟨a, c', A, t1, t2, t3⟩ := SW.trace_near fl s t sim gap ε K hfl hε hK hsim hs ht m hm i j hi hj fuel (by omega)
    rw [hm i j hi hj] at hc; cases hc
    have : ε * (i + j : Nat) ≤ ε * (s.length + t.length : Nat) :=
      mul_le_mul_of_nonneg_left (by exact_mod_cast Nat.add_le_add hi hj) hε
    rw [abs_le] at t3
    refine ⟨m, A, a, i, c', j, by rw [h1]; simp only [t1]; rfl, t2, by linarith, ?_⟩
    intro A' a' b' c' d' hA'
    have q1 := hup A' a' b' c' d' hA'
    have q2 := hmax b' d' hA'.hbs hA'.hdt _ (hm b' d' hA'.hbs hA'.hdt)
    linarith

/-- C80 (gap costs not positive).  When `waterman_eggert` ends: if it returns no alignment, no local alignment has a score
above `N·ε`; otherwise the first misses the best score by at most `2·N·ε`. -/
theorem we_near (hg : ∀ x, gap x ≤ 0) (limit fuel tfuel : Nat) (htf : s.length + t.length < tfuel)
    (res : List (List (Int × Int))) (h : watermanEggertFl fl fuel tfuel s t sim gap limit = .ok res) :
    (res = [] ∧ ∀ A a b c d, IsAlignment s t A a b c d →
      alignScore sim gap s t A a b c d ≤ (s.length + t.length : Nat) * ε) ∨
    (∃ (A : List (Nat × Nat)) (a b c d : Nat) (rest : List (List (Int × Int))),
      res = (A.map fun p => ((p.1 : Int), (p.2 : Int))) :: rest ∧
      IsAlignment s t A a b c d ∧ -((s.length + t.length : Nat) * ε) < alignScore sim gap s t A a b c d ∧
      ∀ A' a' b' c' d', IsAlignment s t A' a' b' c' d' →
        alignScore sim gap s t A' a' b' c' d' ≤
          alignScore sim gap s t A a b c d + 2 * (s.length + t.length : Nat) * ε) := by
  have hup : ∀ (A : List (Nat × Nat)) (a b c d : Nat), IsAlignment s t A a b c d →
      alignScore sim gap s t A a b c d ≤ (SW.Fr fl s t sim gap b d).1 + (s.length + t.length : Nat) * ε := by
    intro A a b c d hA
    have q1 := SW.F_upper s t sim gap hg b d A a c hA
    have q2 := (SW.Fr_near fl s t sim gap ε K hfl hε hK hsim hs ht b d hA.hbs hA.hdt).2
    rw [abs_le] at q2
    have : ε * (b + d : Nat) ≤ ε * (s.length + t.length : Nat) :=
      mul_le_mul_of_nonneg_left (by exact_mod_cast Nat.add_le_add hA.hbs hA.hdt) hε
    linarith
  rcases we_firstFl fl s t sim gap limit fuel tfuel htf res h with ⟨h1, h2⟩ | ⟨m, i, j, al, rest, hm, hi, hj, htr, hres, hpos, hmax⟩
  · left
    refine ⟨h1, ?_⟩
    intro A a b c d hA
    have := hup A a b c d hA
    have := h2 b d hA.hbs hA.hdt
    linarith
  · right
    obtain ⟨a, c', A, t1, t2, t3⟩ := SW.trace_near fl s t sim gap ε K hfl hε hK hsim hs ht m hm i j hi hj tfuel (by omega)
    rw [t1] at htr
    cases htr
    have : ε * (i + j : Nat) ≤ ε * (s.length + t.length : Nat) :=
      mul_le_mul_of_nonneg_left (by exact_mod_cast Nat.add_le_add hi hj) hε
    rw [abs_le] at t3
    refine ⟨A, a, i, c', j, rest, hres, t2, by linarith, ?_⟩
    intro A' a' b' c' d' hA'
    have q1 := hup A' a' b' c' d' hA'
    have q2 := hmax b' d' hA'.hbs hA'.hdt
    linarith

end

/-! ### Floats -/

section
variable (s t : List α) (sim : α → α → ℚ) (gap : α → ℚ) (K : ℚ) (hN : s.length + t.length ≤ 2 ^ 51) (hK : 0 ≤ K)
  (hsim : ∀ x ∈ s, ∀ y ∈ t, |sim x y| ≤ K) (hs : ∀ x ∈ s, |gap x| ≤ K) (ht : ∀ y ∈ t, |gap y| ≤ K)
include hN hK hsim hs ht

/-- C80.  With floats, whose scores are at most `K`, the alignment of `needleman_wunsch` of sequences with together `N`
elements misses the best score by at most `3·N²·K/2⁵²` (gap costs constant on each sequence). -/
theorem nw_double (c1 c2 : ℚ) (h1 : ∀ x ∈ s, gap x = c1) (h2 : ∀ y ∈ t, gap y = c2) (fuel : Nat)
    (hf : s.length + t.length < fuel) :
    ∃ (m : Matrix) (A : List (Nat × Nat)),
      needlemanWunschFl double fuel s t sim gap = .ok (m, A.map fun p => ((p.1 : Int), (p.2 : Int))) ∧
      IsAlignment s t A 0 s.length 0 t.length ∧
      ∀ A', IsAlignment s t A' 0 s.length 0 t.length →
        alignScore sim gap s t A' 0 s.length 0 t.length ≤
          alignScore sim gap s t A 0 s.length 0 t.length + 3 * (s.length + t.length : Nat) ^ 2 * K / 2 ^ 52 := by
  obtain ⟨m, A, e1, e2, e3, -⟩ := nw_near double s t sim gap _ K (double_Near K hK _ hN) (by positivity) hK hsim hs ht
    c1 c2 h1 h2 fuel hf
  refine ⟨m, A, e1, e2, fun A' hA' => (e3 A' hA').trans (le_of_eq ?_)⟩
  push_cast; ring

/-- C80.  With floats and gap costs that are not positive, `smith_waterman` misses the best local score by at most
`2·N²·K/2⁵²`, and raises IndexError only when no local alignment has a score above `N²·K/2⁵²`. -/
theorem sw_double (hg : ∀ x, gap x ≤ 0) (fuel : Nat) (hf : s.length + t.length < fuel) :
    (smithWatermanFl double fuel s t sim gap = .error .indexError ∧
      ∀ A a b c d, IsAlignment s t A a b c d →
        alignScore sim gap s t A a b c d ≤ (s.length + t.length : Nat) ^ 2 * K / 2 ^ 52) ∨
    (∃ (m : Matrix) (A : List (Nat × Nat)) (a b c d : Nat),
      smithWatermanFl double fuel s t sim gap = .ok (m, A.map fun p => ((p.1 : Int), (p.2 : Int))) ∧
      IsAlignment s t A a b c d ∧
      ∀ A' a' b' c' d', IsAlignment s t A' a' b' c' d' →
        alignScore sim gap s t A' a' b' c' d' ≤
          alignScore sim gap s t A a b c d + 2 * (s.length + t.length : Nat) ^ 2 * K / 2 ^ 52) := by
  rcases sw_near double s t sim gap _ K (double_Near K hK _ hN) (by positivity) hK hsim hs ht hg fuel hf with
    ⟨h1, h2⟩ | ⟨m, A, a, b, c, d, h1, h2, -, h3⟩
  · left
    refine ⟨h1, fun A a b c d hA => (h2 A a b c d hA).trans (le_of_eq ?_)⟩
    push_cast; ring
  · right
    refine ⟨m, A, a, b, c, d, h1, h2, fun A' a' b' c' d' hA' => (h3 A' a' b' c' d' hA').trans (le_of_eq ?_)⟩
    push_cast; ring

end

/-! ### Integers -/

section
variable (fl : ℚ → ℚ) (s t : List α) (sim : α → α → ℚ) (gap : α → ℚ) (K : Nat)
  (hsim : ∀ x ∈ s, ∀ y ∈ t, ∃ z : ℤ, sim x y = z ∧ |z| ≤ K)
  (hs : ∀ x ∈ s, ∃ z : ℤ, gap x = z ∧ |z| ≤ K) (ht : ∀ y ∈ t, ∃ z : ℤ, gap y = z ∧ |z| ≤ K)
include hsim hs ht

/-- C80.  When all scores are integers of size at most `K`, and integers up to `K·N` are not rounded (`N` is the number of
elements of the two sequences), the three functions return what they return with exact arithmetic. -/
theorem integers (hfl : ∀ z : ℤ, |z| ≤ (K : ℤ) * (s.length + t.length : Nat) → fl z = z) (fuel tfuel limit : Nat) :
    needlemanWunschFl fl fuel s t sim gap = needlemanWunsch fuel s t sim gap ∧
    smithWatermanFl fl fuel s t sim gap = smithWaterman fuel s t sim gap ∧
    watermanEggertFl fl fuel tfuel s t sim gap limit = watermanEggert fuel tfuel s t sim gap limit :=
  ⟨nw_same fl s t sim gap K hfl hsim hs ht fuel, sw_same fl s t sim gap K hfl hsim hs ht fuel,
    we_same fl s t sim gap K hfl hsim hs ht fuel tfuel limit⟩

/-- C80.  For floats: when `K·N` is at most 2⁵³. -/
theorem integers_double (hN : K * (s.length + t.length) ≤ 2 ^ 53) (fuel tfuel limit : Nat) :
    needlemanWunschFl double fuel s t sim gap = needlemanWunsch fuel s t sim gap ∧
    smithWatermanFl double fuel s t sim gap = smithWaterman fuel s t sim gap ∧
    watermanEggertFl double fuel tfuel s t sim gap limit = watermanEggert fuel tfuel s t sim gap limit := by
  refine integers double s t sim gap K hsim hs ht (fun z hz => Verif.Rounding.double_int z (hz.trans ?_)) fuel tfuel limit
  exact_mod_cast hN

end

/-- Sequences and scores of an example: a very large score before small ones. -/
def simBig (x y : Nat) : ℚ :=
  if x = 0 ∧ y = 0 then 2 ^ 53 else if x = y then 1 else if x = 1 ∧ y = 2 then 3 / 2 else 0

/-- C80: with floats the best alignment may be missed: `needleman_wunsch` and `smith_waterman` return an alignment whose
score is 2⁵³ + 3/2, but one with the score 2⁵³ + 2 exists (and is found with exact arithmetic). -/
theorem not_best_double :
    (needlemanWunschFl double 7 [0, 1, 2] [0, 1, 2] simBig (fun _ => 0)).map (fun r => (r.1 (3, 3), r.2)) =
      .ok (some (2 ^ 53 + 2, .U), [(0, 0), (1, 2)]) ∧
    (smithWatermanFl double 7 [0, 1, 2] [0, 1, 2] simBig (fun _ => 0)).map (fun r => r.2) = .ok [(0, 0), (1, 2)] ∧
    alignScore simBig (fun _ => 0) [0, 1, 2] [0, 1, 2] [(0, 0), (1, 2)] 0 3 0 3 = 2 ^ 53 + 3 / 2 ∧
    alignScore simBig (fun _ => 0) [0, 1, 2] [0, 1, 2] [(0, 0), (1, 1), (2, 2)] 0 3 0 3 = 2 ^ 53 + 2 ∧
    (needlemanWunsch 7 [0, 1, 2] [0, 1, 2] simBig (fun _ => 0)).map (fun r => r.2) = .ok [(0, 0), (1, 1), (2, 2)] := by
  refine ⟨?_, ?_, ?_, ?_, ?_⟩ <;> decide +kernel

/-- Non-vacuity: scores with a tenth, which is rounded at every step. -/
example : (needlemanWunschFl double 10 "abcd".toList "bxd".toList (fun x y => if x = y then double (1/5) else double (-1/10))
    (fun _ => double (-1/10))).map (fun r => r.2) = .ok [(1, 0), (2, 1), (3, 2)] ∧
    (∀ x, |x| ≤ ((1/4 : ℚ) + 1/4 * (7 : Nat) / 2 ^ 52) * (7 : Nat) → |double x - x| ≤ 1/4 * (7 : Nat) / 2 ^ 52) :=
  ⟨by decide +kernel, double_Near (1/4) (by norm_num) 7 (by norm_num)⟩

/-- Non-vacuity: waterman_eggert with floats returns two alignments. -/
example : watermanEggertFl double 9 20 "abxab".toList "ab".toList
    (fun x y => if x = y then double (1/5) else double (-1/5)) (fun _ => double (-1/10)) 2 =
      .ok [[(0, 0), (1, 1)], [(3, 0), (4, 1)]] := by decide +kernel

end Verif.Props.AlignFloat
