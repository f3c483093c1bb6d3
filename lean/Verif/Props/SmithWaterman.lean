import Verif.Lemmas.WatermanEggert

/-! Properties C16, C17 (lib/daeso/string/smith_waterman.py, waterman_eggert.py). -/
namespace Verif.Props.SW
open Verif Verif.Spec Verif.SW Verif.Align

variable {α : Type}

/-- C16: with gap costs that are not positive, either `smith_waterman` raises IndexError and no local
alignment has a positive score, or it returns a local alignment with a positive score that no local
alignment exceeds. -/
theorem smith_waterman_optimal (s t : List α) (sim : α → α → ℚ) (gap : α → ℚ) (hg : ∀ x, gap x ≤ 0)
    (fuel : Nat) (hf : s.length + t.length < fuel) :
    (smithWaterman fuel s t sim gap = .error .indexError ∧
      ∀ A a b c d, IsAlignment s t A a b c d → alignScore sim gap s t A a b c d ≤ 0) ∨
    (∃ (m : Matrix) (A : List (Nat × Nat)) (a b c d : Nat),
      smithWaterman fuel s t sim gap = .ok (m, A.map fun p => ((p.1 : Int), (p.2 : Int))) ∧
      IsAlignment s t A a b c d ∧ 0 < alignScore sim gap s t A a b c d ∧
      ∀ A' a' b' c' d', IsAlignment s t A' a' b' c' d' →
        alignScore sim gap s t A' a' b' c' d' ≤ alignScore sim gap s t A a b c d) := by
  obtain ⟨m, e1, hm⟩ := matrix_ok s t sim gap
  unfold smithWaterman
  simp only [e1, bind, Except.bind]
  rcases bestPair_spec s.length t.length m with ⟨h1, h2⟩ | ⟨i, j, c, h1, hi, hj, hc, hpos, hmax⟩
  · left
    refine ⟨by rw [h1], ?_⟩
    intro A a b c d hA
    exact le_trans (F_upper s t sim gap hg b d A a c hA)
      (h2 b d hA.hbs hA.hdt _ (hm b d hA.hbs hA.hdt))
  · right
    obtain ⟨a, c', A, t1, t2, t3⟩ := trace_fresh s t sim gap m hm i j hi hj fuel (by omega)
    rw [hm i j hi hj] at hc; cases hc
    refine ⟨m, A, a, i, c', j, by rw [h1]; simp only [t1]; rfl, t2, by rw [t3]; exact hpos, ?_⟩
    intro A' a' b' c' d' hA'
    rw [t3]
    exact le_trans (F_upper s t sim gap hg b' d' A' a' c' hA')
      (hmax b' d' hA'.hbs hA'.hdt _ (hm b' d' hA'.hbs hA'.hdt))

/-- C16: every entry `(i, j)` of the matrix is the score of the best local alignment that ends at
`(i, j)` (the empty one scoring 0 included). -/
theorem smith_waterman_matrix (s t : List α) (sim : α → α → ℚ) (gap : α → ℚ) (hg : ∀ x, gap x ≤ 0)
    (fuel : Nat) (m : Matrix) (al : List (Int × Int))
    (h : smithWaterman fuel s t sim gap = .ok (m, al)) (i j : Nat) (hi : i ≤ s.length)
    (hj : j ≤ t.length) :
    ∃ v d, m (i, j) = some (v, d) ∧
      (∃ A a c, IsAlignment s t A a i c j ∧ alignScore sim gap s t A a i c j = v) ∧
      ∀ A' a' c', IsAlignment s t A' a' i c' j → alignScore sim gap s t A' a' i c' j ≤ v := by
  obtain ⟨m', e1, hm⟩ := matrix_ok s t sim gap
  unfold smithWaterman at h
  simp only [e1, bind, Except.bind] at h
  split at h
  · simp at h
  split at h
  · simp at h
  simp at h
  obtain ⟨rfl, _⟩ := h
  obtain ⟨a, c', A, t1, t2, t3⟩ := trace_fresh s t sim gap m' hm i j hi hj (i + j + 1) (by omega)
  exact ⟨_, _, hm i j hi hj, ⟨A, a, c', t2, t3⟩, fun A' a' c' hA' => F_upper s t sim gap hg i j A' a' c' hA'⟩

/-- C16 (any gap costs, also positive ones): the call never runs for ever and its only exception is the
IndexError; a returned alignment has the highest score found in the matrix. -/
theorem smith_waterman_total (s t : List α) (sim : α → α → ℚ) (gap : α → ℚ)
    (fuel : Nat) (hf : s.length + t.length < fuel) :
    smithWaterman fuel s t sim gap = .error .indexError ∨
    ∃ (m : Matrix) (A : List (Nat × Nat)) (a b c d : Nat),
      smithWaterman fuel s t sim gap = .ok (m, A.map fun p => ((p.1 : Int), (p.2 : Int))) ∧
      IsAlignment s t A a b c d ∧
      ∀ i j : Nat, i ≤ s.length → j ≤ t.length → ∃ v st, m (i, j) = some (v, st) ∧
        v ≤ alignScore sim gap s t A a b c d := by
  obtain ⟨m, e1, hm⟩ := matrix_ok s t sim gap
  unfold smithWaterman
  simp only [e1, bind, Except.bind]
  rcases bestPair_spec s.length t.length m with ⟨h1, h2⟩ | ⟨i, j, c, h1, hi, hj, hc, hpos, hmax⟩
  · left; rw [h1]
  · right
    obtain ⟨a, c', A, t1, t2, t3⟩ := trace_fresh s t sim gap m hm i j hi hj fuel (by omega)
    rw [hm i j hi hj] at hc; cases hc
    refine ⟨m, A, a, i, c', j, by rw [h1]; simp only [t1]; rfl, t2, ?_⟩
    intro i' j' hi' hj'
    exact ⟨_, _, hm i' j' hi' hj', by rw [t3]; exact hmax i' j' hi' hj' _ (hm i' j' hi' hj')⟩

/-- Non-vacuity: a local alignment with a gap inside larger sequences, and one call that raises. -/
example : (smithWaterman 20 "xxabcdyy".toList "abdzz".toList (fun x y => if x = y then 2 else -1)
      (fun _ => -1)).map (fun r => r.2) = .ok [(2, 0), (3, 1), (5, 2)] ∧
    (smithWaterman 20 "abc".toList "xyz".toList (fun x y => if x = y then 2 else -1)
      (fun _ => -1)).map (fun r => r.2) = .error .indexError := by
  constructor <;> decide +kernel

/-- C16: the hypothesis on the gap costs is needed: with positive gap costs, deleting all elements is
a better local alignment than any the matrix (with its zero borders) knows. -/
theorem sw_positive_gap_not_optimal :
    (smithWaterman 20 [0, 0] [1] (fun _ _ => -1) (fun _ => 1)).map
      (fun r => (r.1 (2, 1), r.1 (2, 0), r.2)) = .ok (some (2, .U), some (0, .U), []) ∧
    alignScore (fun _ _ => -1) (fun _ => 1) [0, 0] [1] [] 0 2 0 1 = 3 := by
  constructor <;> decide +kernel

/-! ### Waterman–Eggert -/

/-- C17: with a limit, the call ends without exception and returns at most that many alignments, each a
list of in-range index pairs that strictly increases in both sequences. -/
theorem waterman_eggert_limit (s t : List α) (sim : α → α → ℚ) (gap : α → ℚ) (limit : Nat)
    (hl : 0 < limit) (fuel tfuel : Nat) (hf : limit + 1 < fuel) (htf : s.length + t.length < tfuel) :
    ∃ L : List (List (Nat × Nat)),
      watermanEggert fuel tfuel s t sim gap limit =
        .ok (L.map fun A => A.map fun p => ((p.1 : Int), (p.2 : Int))) ∧
      L.length ≤ limit ∧ ∀ A ∈ L, Increasing A ∧ Within A 0 s.length 0 t.length :=
  we_limit_ok s t sim gap limit hl fuel tfuel hf htf

/-- C17: whatever the limit (0 is "no limit"), if the call ends, every alignment is increasing and in
range. -/
theorem waterman_eggert_valid (s t : List α) (sim : α → α → ℚ) (gap : α → ℚ) (limit : Nat)
    (fuel tfuel : Nat) (htf : s.length + t.length < tfuel) (res : List (List (Int × Int)))
    (h : watermanEggert fuel tfuel s t sim gap limit = .ok res) :
    ∃ L : List (List (Nat × Nat)), res = L.map (fun A => A.map fun p => ((p.1 : Int), (p.2 : Int))) ∧
      ∀ A ∈ L, Increasing A ∧ Within A 0 s.length 0 t.length :=
  we_partial_ok s t sim gap limit fuel tfuel htf res h

/-- C17: the first alignment is an optimal local alignment; there is none iff no local alignment has a
positive score. -/
theorem waterman_eggert_first_optimal (s t : List α) (sim : α → α → ℚ) (gap : α → ℚ)
    (hg : ∀ x, gap x ≤ 0) (limit : Nat) (fuel tfuel : Nat) (htf : s.length + t.length < tfuel)
    (res : List (List (Int × Int))) (h : watermanEggert fuel tfuel s t sim gap limit = .ok res) :
    (res = [] ∧ ∀ A a b c d, IsAlignment s t A a b c d → alignScore sim gap s t A a b c d ≤ 0) ∨
    (∃ (A : List (Nat × Nat)) (a b c d : Nat) (rest : List (List (Int × Int))),
      res = (A.map fun p => ((p.1 : Int), (p.2 : Int))) :: rest ∧
      IsAlignment s t A a b c d ∧ 0 < alignScore sim gap s t A a b c d ∧
      ∀ A' a' b' c' d', IsAlignment s t A' a' b' c' d' →
        alignScore sim gap s t A' a' b' c' d' ≤ alignScore sim gap s t A a b c d) :=
  we_first s t sim gap hg limit fuel tfuel htf res h

/-- C17: a smaller limit returns a prefix of what a larger limit (or no limit) returns. -/
theorem waterman_eggert_prefix (s t : List α) (sim : α → α → ℚ) (gap : α → ℚ) (limit limit' : Nat)
    (hl : 0 < limit) (hl' : limit' = 0 ∨ limit ≤ limit') (fuel tfuel : Nat)
    (res : List (List (Int × Int))) (h : watermanEggert fuel tfuel s t sim gap limit' = .ok res) :
    watermanEggert fuel tfuel s t sim gap limit = .ok (res.take limit) := by
  obtain ⟨m, e1, hm⟩ := matrix_ok s t sim gap
  simp only [watermanEggert, e1, bind, Except.bind] at h ⊢
  split at h
  · simp at h
  rename_i st hst
  simp at h
  obtain ⟨st2, g1, g2, _⟩ := we_loop_take s t sim gap tfuel limit limit' hl hl' fuel _ st (by simp) hst
  rw [g1]
  simp [g2, h]

/-- C17 (not for all alignments, see `waterman_eggert_intersecting`): two alignments found one after the other have no pair in common. -/
theorem waterman_eggert_consecutive_disjoint (s t : List α) (sim : α → α → ℚ) (gap : α → ℚ)
    (limit fuel tfuel : Nat) (htf : s.length + t.length < tfuel) (res : List (List (Int × Int)))
    (h : watermanEggert fuel tfuel s t sim gap limit = .ok res) :
    ∃ L : List (List (Nat × Nat)), res = L.map (fun A => A.map fun p => ((p.1 : Int), (p.2 : Int))) ∧
      ∀ k A B, L[k]? = some A → L[k + 1]? = some B → ∀ p ∈ A, p ∉ B := by
  obtain ⟨L, h1, h2⟩ := we_consecutive s t sim gap limit fuel tfuel htf res h
  refine ⟨L, h1, ?_⟩
  intro k A B hA hB
  have hk : k + 1 < L.length := by
    by_contra hc; rw [List.getElem?_eq_none (by omega)] at hB; simp at hB
  rw [List.getElem?_eq_getElem (by omega)] at hA hB
  simp at hA hB
  rw [← hA, ← hB]
  exact List.isChain_iff_getElem.1 h2 k hk

/-- Sequences, similarity and gap cost of the first counterexample. -/
def sim1 (a b : Nat) : ℚ := if a = b then 3 else -2

/-- C17.  The list of matrices has one for each alignment: the first is the matrix of Smith-Waterman; each alignment
starts from the highest score of its matrix, which is positive, and pairs only elements whose scores in it are positive and
come from a diagonal step; in the next matrix the scores of these pairs are zero.  The copies do not change later. -/
theorem waterman_eggert_scores (s t : List α) (sim : α → α → ℚ) (gap : α → ℚ) (limit fuel tfuel : Nat)
    (htf : s.length + t.length < tfuel) (S : List Matrix) (res : List (List (Int × Int)))
    (h : watermanEggertBoth fuel tfuel s t sim gap limit = .ok (S, res)) :
    S.length = res.length ∧ (∀ m, S.head? = some m → makeMatrix s t sim gap = .ok m) ∧
    (∀ k M A, S[k]? = some M → res[k]? = some A →
      (∃ (b d : Nat) (v : ℚ) (e : Dir), 0 < b ∧ b ≤ s.length ∧ 0 < d ∧ d ≤ t.length ∧ M (b, d) = some (v, e) ∧ 0 < v ∧
        (∀ i ≤ s.length, ∀ j ≤ t.length, ∃ v' e', M ((i : Nat), (j : Nat)) = some (v', e') ∧ 0 ≤ v' ∧ v' ≤ v) ∧
        ∀ p ∈ A, (0 : Int) ≤ p.1 ∧ p.1 < (b : Int) ∧ (0 : Int) ≤ p.2 ∧ p.2 < (d : Int) ∧
          ∃ v' : ℚ, M (p.1 + 1, p.2 + 1) = some (v', .D) ∧ 0 < v') ∧
      ∀ M', S[k + 1]? = some M' → ∀ p ∈ A, M' (p.1 + 1, p.2 + 1) = some (0, .T)) := by
  obtain ⟨-, m0, hm0, Z, rfl, rfl, hZ, hh, hch⟩ := we_both s t sim gap limit fuel tfuel htf S res h
  refine ⟨by simp, ?_, ?_⟩
  · intro m hm
    cases Z with
    | nil => simp at hm
    | cons z Z => simp at hm; rw [hm0, ← hm, hh z (by simp)]
  · intro k M A hM hA
    simp only [List.getElem?_map, Option.map_eq_some_iff] at hM hA
    obtain ⟨z, hz, rfl⟩ := hM
    obtain ⟨z', hz', rfl⟩ := hA
    rw [hz] at hz'
    obtain rfl := Option.some.inj hz'
    obtain ⟨hfull, -, b, d, c, hb0, hb, hd0, hd, hc, hpos, hmax, hp⟩ := hZ z (List.mem_of_getElem? hz)
    refine ⟨⟨b, d, c.1, c.2, hb0, hb, hd0, hd, hc, hpos, ?_, ?_⟩, ?_⟩
    · intro i hi j hj
      obtain ⟨e, he, he0⟩ := hfull i j hi hj
      exact ⟨e.1, e.2, he, he0, hmax i j hi hj e he⟩
    · intro p hp'
      simp only [emb, List.mem_map] at hp'
      obtain ⟨q, hq, rfl⟩ := hp'
      obtain ⟨h1, h2, e, he, hD, h0⟩ := hp q hq
      refine ⟨by simp, by dsimp only; exact_mod_cast h1, by simp, by dsimp only; exact_mod_cast h2, e.1, ?_, h0⟩
      rw [← hD]
      simpa using he
    · intro M' hM' p hp'
      simp only [List.getElem?_map, Option.map_eq_some_iff] at hM'
      obtain ⟨y, hy, rfl⟩ := hM'
      simp only [emb, List.mem_map] at hp'
      obtain ⟨q, hq, rfl⟩ := hp'
      have := List.isChain_iff_getElem.1 hch k (by
        rw [List.getElem?_eq_some_iff] at hy; exact hy.1)
      rw [List.getElem?_eq_some_iff] at hz hy
      obtain ⟨_, rfl⟩ := hz
      obtain ⟨_, rfl⟩ := hy
      simpa using this q hq

/-- C17 is violated, termination: without a limit this call never ends, although the similarity scores
and the (negative) gap cost are of the usual kind. -/
theorem waterman_eggert_diverges (fuel : Nat) :
    watermanEggert fuel 9 [1, 0, 0, 0] [1, 0, 0, 1] sim1 (fun _ => -1) 0 = .error .fuel := by
  have key : (match makeMatrix [1, 0, 0, 0] [1, 0, 0, 1] sim1 (fun _ => -1) with
      | .ok m => stuckAfter [1, 0, 0, 0] [1, 0, 0, 1] sim1 (fun _ => -1) 9 3 ⟨m, [], false, []⟩
      | .error _ => false) = true := by decide +kernel
  obtain ⟨m, e1, _⟩ := matrix_ok [1, 0, 0, 0] [1, 0, 0, 1] sim1 (fun _ => -1)
  simp only [e1] at key
  simp only [watermanEggert, e1, bind, Except.bind,
    stuckAfter_diverges _ _ _ _ 9 3 _ key fuel]

/-- C17 is violated, non-intersection: this call ends, and returns the same alignment twice. -/
theorem waterman_eggert_intersecting :
    watermanEggert 20 13 [1, 2, 3, 3, 2, 1] [3, 2, 1, 1, 2, 3] (fun a b : Nat => if a = b then 5 else 0)
      (fun _ => -5) 0 = .ok [[(0, 3), (1, 4), (2, 5)], [(3, 0), (4, 1), (5, 2)],
      [(0, 2), (1, 3), (2, 4), (3, 5)], [(0, 3), (1, 4), (2, 5)], [(1, 1), (2, 2), (3, 3), (4, 4)],
      [(2, 0), (3, 1), (4, 2), (5, 3)], [(3, 0), (4, 1), (5, 2)], [(3, 5)], [(5, 3)]] := by
  decide +kernel

/-- C17 is violated, positive scores: after the best alignment comes the alignment of two unlike elements, with a negative
score, and an empty alignment may be returned. -/
theorem waterman_eggert_not_positive :
    watermanEggert 20 9 [2, 1] [2, 0] (fun a b : Nat => if a = b then 2 else -1) (fun _ => -1) 0 =
      .ok [[(0, 0)], [(1, 1)]] ∧
    alignScore (fun a b : Nat => if a = b then 2 else -1) (fun _ => -1) [2, 1] [2, 0] [(1, 1)] 1 2 1 2 = -1 ∧
    watermanEggert 20 9 [0, 1, 2] [1, 0] sim1 (fun _ => -1) 4 = .ok [[(0, 1)], [(1, 0)], [], []] := by
  refine ⟨by decide +kernel, by decide +kernel, by decide +kernel⟩

end Verif.Props.SW
