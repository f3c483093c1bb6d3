import Verif.Spec.Alignment
import Verif.Model.Align
import Verif.Lemmas.Base

namespace Verif.Align
open Verif Verif.Spec
set_option linter.unusedSectionVars false

variable {α : Type}

/-! ### Scores of alignments -/

@[simp] theorem gapSum_self (gap : α → ℚ) (s : List α) (used : List Nat) (a : Nat) :
    gapSum gap s used a a = 0 := by simp [gapSum]

theorem gapSum_succ (gap : α → ℚ) (s : List α) (used : List Nat) (a b : Nat) (hab : a ≤ b)
    (hb : b < s.length) :
    gapSum gap s used a (b + 1) = gapSum gap s used a b + if b ∈ used then 0 else gap s[b] := by
  unfold gapSum
  have e : b + 1 - a = (b - a) + 1 := by omega
  rw [e, List.range'_1_concat, List.filter_append, List.map_append, List.sum_append]
  have : a + (b - a) = b := by omega
  rw [this]
  congr 1
  by_cases h : b ∈ used <;> simp [h, hb]

theorem gapSum_front (gap : α → ℚ) (s : List α) (used : List Nat) (a b : Nat) (hab : a < b)
    (hb : b ≤ s.length) :
    gapSum gap s used a b =
      (if a ∈ used then 0 else gap (s[a]'(by omega))) + gapSum gap s used (a + 1) b := by
  unfold gapSum
  have e : b - a = (b - (a + 1)) + 1 := by omega
  rw [e, List.range'_succ, List.filter_cons]
  have ha : a < s.length := by omega
  by_cases h : a ∈ used <;> simp [h, ha]

theorem gapSum_congr (gap : α → ℚ) (s : List α) (used used' : List Nat) (a b : Nat)
    (h : ∀ i, a ≤ i → i < b → (i ∈ used ↔ i ∈ used')) :
    gapSum gap s used a b = gapSum gap s used' a b := by
  unfold gapSum
  congr 2
  apply List.filter_congr
  intro i hi
  rw [List.mem_range'_1] at hi
  have := h i (by omega) (by omega)
  simp [this]

theorem gapSum_const (gap : α → ℚ) (s : List α) (c : ℚ) (hc : ∀ x ∈ s, gap x = c) (b : Nat)
    (hb : b ≤ s.length) : gapSum gap s [] 0 b = c * b := by
  induction b with
  | zero => simp
  | succ b ih =>
    rw [gapSum_succ _ _ _ _ _ (by omega) (by omega), ih (by omega)]
    simp [hc]
    ring

theorem gapSum_nonpos (gap : α → ℚ) (s : List α) (used : List Nat) (hc : ∀ x, gap x ≤ 0) (a b : Nat)
    (hab : a ≤ b) (hb : b ≤ s.length) : gapSum gap s used a b ≤ 0 := by
  induction b with
  | zero => simp at hab; subst hab; simp
  | succ b ih =>
    by_cases h : a = b + 1
    · subst h; simp
    · rw [gapSum_succ _ _ _ _ _ (by omega) (by omega)]
      have h1 := ih (by omega) (by omega)
      have h2 := hc (s[b]'(by omega))
      split <;> linarith

variable (sim : α → α → ℚ) (gap : α → ℚ) (s t : List α)

theorem not_mem_fst {A : List (Nat × Nat)} {a b c d : Nat} (h : Within A a b c d) {i : Nat}
    (hi : i < a ∨ b ≤ i) : i ∉ A.map Prod.fst := by
  intro hm
  obtain ⟨p, hp, rfl⟩ := List.mem_map.1 hm
  have := h p hp
  omega

theorem not_mem_snd {A : List (Nat × Nat)} {a b c d : Nat} (h : Within A a b c d) {i : Nat}
    (hi : i < c ∨ d ≤ i) : i ∉ A.map Prod.snd := by
  intro hm
  obtain ⟨p, hp, rfl⟩ := List.mem_map.1 hm
  have := h p hp
  omega

theorem score_up (A : List (Nat × Nat)) (a b c d : Nat) (h : Within A a b c d) (hab : a ≤ b)
    (hb : b < s.length) :
    alignScore sim gap s t A a (b + 1) c d = alignScore sim gap s t A a b c d + gap s[b] := by
  unfold alignScore
  rw [gapSum_succ _ _ _ _ _ hab hb, if_neg (not_mem_fst h (by omega))]
  ring

theorem score_left (A : List (Nat × Nat)) (a b c d : Nat) (h : Within A a b c d) (hcd : c ≤ d)
    (hd : d < t.length) :
    alignScore sim gap s t A a b c (d + 1) = alignScore sim gap s t A a b c d + gap t[d] := by
  unfold alignScore
  rw [gapSum_succ _ _ _ _ _ hcd hd, if_neg (not_mem_snd h (by omega))]
  ring

theorem score_diag (A : List (Nat × Nat)) (a b c d : Nat) (h : Within A a b c d) (hab : a ≤ b)
    (hcd : c ≤ d) (hb : b < s.length) (hd : d < t.length) :
    alignScore sim gap s t (A ++ [(b, d)]) a (b + 1) c (d + 1) =
      alignScore sim gap s t A a b c d + sim s[b] t[d] := by
  unfold alignScore
  rw [gapSum_succ _ _ _ _ _ hab hb, gapSum_succ _ _ _ _ _ hcd hd, if_pos (by simp), if_pos (by simp)]
  rw [gapSum_congr gap s ((A ++ [(b, d)]).map Prod.fst) (A.map Prod.fst) a b (by
    intro i h1 h2
    simp only [List.map_append, List.mem_append, List.map_cons, List.map_nil, List.mem_singleton]
    constructor
    · rintro (h | h)
      · exact h
      · omega
    · exact Or.inl)]
  rw [gapSum_congr gap t ((A ++ [(b, d)]).map Prod.snd) (A.map Prod.snd) c d (by
    intro i h1 h2
    simp only [List.map_append, List.mem_append, List.map_cons, List.map_nil, List.mem_singleton]
    constructor
    · rintro (h | h)
      · exact h
      · omega
    · exact Or.inl)]
  have : pairSim sim s t (b, d) = sim s[b] t[d] := by simp [pairSim, hb, hd]
  simp [this]
  ring

theorem score_up_front (A : List (Nat × Nat)) (a b c d : Nat) (h : Within A (a + 1) b c d)
    (hab : a < b) (hb : b ≤ s.length) :
    alignScore sim gap s t A a b c d =
      gap (s[a]'(by omega)) + alignScore sim gap s t A (a + 1) b c d := by
  unfold alignScore
  rw [gapSum_front _ _ _ _ _ hab hb, if_neg (not_mem_fst h (by omega))]
  ring

theorem score_left_front (A : List (Nat × Nat)) (a b c d : Nat) (h : Within A a b (c + 1) d)
    (hcd : c < d) (hd : d ≤ t.length) :
    alignScore sim gap s t A a b c d =
      gap (t[c]'(by omega)) + alignScore sim gap s t A a b (c + 1) d := by
  unfold alignScore
  rw [gapSum_front _ _ _ _ _ hcd hd, if_neg (not_mem_snd h (by omega))]
  ring

theorem score_diag_front (A : List (Nat × Nat)) (a b c d : Nat) (_h : Within A (a + 1) b (c + 1) d)
    (hab : a < b) (hcd : c < d) (hb : b ≤ s.length) (hd : d ≤ t.length) :
    alignScore sim gap s t ((a, c) :: A) a b c d =
      sim (s[a]'(by omega)) (t[c]'(by omega)) + alignScore sim gap s t A (a + 1) b (c + 1) d := by
  unfold alignScore
  rw [gapSum_front _ _ _ _ _ hab hb, gapSum_front _ _ _ _ _ hcd hd, if_pos (by simp),
    if_pos (by simp)]
  rw [gapSum_congr gap s (((a, c) :: A).map Prod.fst) (A.map Prod.fst) (a + 1) b (by
    intro i h1 h2
    simp only [List.map_cons, List.mem_cons]
    constructor
    · rintro (h | h)
      · omega
      · exact h
    · exact Or.inr)]
  rw [gapSum_congr gap t (((a, c) :: A).map Prod.snd) (A.map Prod.snd) (c + 1) d (by
    intro i h1 h2
    simp only [List.map_cons, List.mem_cons]
    constructor
    · rintro (h | h)
      · omega
      · exact h
    · exact Or.inr)]
  have : pairSim sim s t (a, c) = sim (s[a]'(by omega)) (t[c]'(by omega)) := by
    have h1 : a < s.length := by omega
    have h2 : c < t.length := by omega
    simp [pairSim, h1, h2]
  simp [this]
  ring

/-- The three ways an alignment can end. -/
theorem align_cases {A : List (Nat × Nat)} {a b c d : Nat} (hi : Increasing A)
    (h : Within A a (b + 1) c (d + 1)) :
    (∃ A', A = A' ++ [(b, d)] ∧ Increasing A' ∧ Within A' a b c d) ∨
    Within A a b c (d + 1) ∨ Within A a (b + 1) c d := by
  rcases List.eq_nil_or_concat A with rfl | ⟨A', p, rfl⟩
  · right; left; intro p hp; simp at hp
  · simp only [List.concat_eq_append] at *
    unfold Increasing at hi
    rw [List.pairwise_append] at hi
    obtain ⟨h1, _, h3⟩ := hi
    have hp := h p (by simp)
    have hlast : ∀ q ∈ A', q.1 < p.1 ∧ q.2 < p.2 := fun q hq => h3 q hq p (by simp)
    by_cases hb : p.1 = b
    · by_cases hd : p.2 = d
      · left
        refine ⟨A', by rw [← hb, ← hd], h1, ?_⟩
        intro q hq
        have := h q (by simp [hq])
        have := hlast q hq
        omega
      · right; right
        intro q hq
        rcases List.mem_append.1 hq with hq' | hq'
        · have := h q hq; have := hlast q hq'; omega
        · simp at hq'; subst hq'; omega
    · right; left
      intro q hq
      rcases List.mem_append.1 hq with hq' | hq'
      · have := h q hq; have := hlast q hq'; omega
      · simp at hq'; subst hq'; omega

/-! ### Cells -/

theorem cmax_cases (a b : Cell) : cmax a b = a ∨ cmax a b = b := by
  unfold cmax; split <;> simp

theorem cmax_fst (a b : Cell) : (cmax a b).1 = max a.1 b.1 := by
  unfold cmax Cell.lt
  split
  · rename_i h
    simp only [Bool.or_eq_true, decide_eq_true_eq, Bool.and_eq_true, beq_iff_eq] at h
    rcases h with h | h
    · exact (max_eq_right (le_of_lt h)).symm
    · exact (max_eq_right (le_of_eq h.1)).symm
  · rename_i h
    simp only [Bool.or_eq_true, decide_eq_true_eq, not_or, not_lt] at h
    exact (max_eq_left h.1).symm

/-! ### Filling the matrix -/

/-- The matrix holds `F` on `[0,n] × [0,m]`. -/
def Holds (n m : Nat) (F : Nat → Nat → Cell) (t : Matrix) : Prop :=
  ∀ i j : Nat, i ≤ n → j ≤ m → t (i, j) = some (F i j)

theorem fillInner_ok (n m : Nat) (cell : Nat → Nat → Matrix → Py Cell) (F : Nat → Nat → Cell)
    (t : Matrix) (h0 : ∀ i : Nat, i ≤ n → t (i, 0) = some (F i 0))
    (h1 : ∀ j : Nat, j ≤ m → t (0, j) = some (F 0 j))
    (hcell : ∀ (i j : Nat) (t : Matrix), i < n → j < m → t (i, j) = some (F i j) →
      t (i, (j + 1 : Nat)) = some (F i (j + 1)) → t ((i + 1 : Nat), j) = some (F (i + 1) j) →
      cell (i + 1) (j + 1) t = .ok (F (i + 1) (j + 1))) :
    ∃ t', fillInner n m cell t = .ok t' ∧ Holds n m F t' := by
  unfold fillInner
  let P : Nat → Nat → Matrix → Prop := fun i j t =>
    ∀ i' j' : Nat, i' ≤ n → j' ≤ m → (j' = 0 ∨ i' < i ∨ (i' = i ∧ j' < j)) →
      t (i', j') = some (F i' j')
  obtain ⟨t', e1, e2⟩ := Py.forRange_inv
    (f := fun i t => Py.forRange 1 (m + 1) t fun j t => do
      let c ← cell i j t
      .ok (t.set (i, j) c))
    (fun i t => P i 1 t) (a := 1) (b := n + 1) (s := t) (by omega)
    (by
      intro i' j' hi hj hlt
      by_cases hj0 : j' = 0
      · subst hj0; exact h0 i' hi
      · have : i' = 0 := by omega
        subst this; exact h1 j' hj)
    (by
      intro i t hi1 hi2 hP
      obtain ⟨i, rfl⟩ : ∃ k, i = k + 1 := ⟨i - 1, by omega⟩
      obtain ⟨t', e1, e2⟩ := Py.forRange_inv
        (f := fun j t => do
          let c ← cell (i + 1) j t
          .ok (Py.Dict.set t (((i + 1 : Nat) : Int), (j : Int)) c))
        (fun j t => P (i + 1) j t) (a := 1) (b := m + 1) (s := t) (by omega) hP
        (by
          intro j t hj1 hj2 hP
          obtain ⟨j, rfl⟩ : ∃ k, j = k + 1 := ⟨j - 1, by omega⟩
          have c := hcell i j t (by omega) (by omega) (hP i j (by omega) (by omega) (by omega))
            (hP i (j + 1) (by omega) (by omega) (by omega))
            (hP (i + 1) j (by omega) (by omega) (by omega))
          refine ⟨Py.Dict.set t (((i + 1 : Nat) : Int), ((j + 1 : Nat) : Int)) (F (i + 1) (j + 1)),
            by simp only [c, bind, Except.bind], ?_⟩
          intro i' j' hi' hj' hlt
          by_cases he : i' = i + 1 ∧ j' = j + 1
          · obtain ⟨rfl, rfl⟩ := he; simp
          · rw [Py.Dict.set_ne]
            · exact hP i' j' hi' hj' (by omega)
            · intro e; simp only [Prod.mk.injEq, Int.natCast_inj] at e; exact he e)
      refine ⟨t', e1, ?_⟩
      intro i' j' hi' hj' hlt
      exact e2 i' j' hi' hj' (by omega))
  exact ⟨t', e1, fun i j hi hj => e2 i j hi hj (by omega)⟩

/-- Generic two-dimensional recurrence. -/
def G (b0 b1 : Nat → Cell) (step : Nat → Nat → Cell → Cell → Cell → Cell) : Nat → Nat → Cell
  | i, 0 => b0 i
  | 0, j + 1 => b1 (j + 1)
  | i + 1, j + 1 => step i j (G b0 b1 step i (j + 1)) (G b0 b1 step i j) (G b0 b1 step (i + 1) j)

/-- Embedding of index pairs. -/
def emb (A : List (Nat × Nat)) : List (Int × Int) := A.map fun p => ((p.1 : Int), (p.2 : Int))

end Verif.Align
