import Verif.Lemmas.Alignment
import Verif.Model.NeedlemanWunsch

namespace Verif.NW
open Verif Verif.Spec Verif.Align
set_option linter.unusedSectionVars false

variable {α : Type}

/-- The recurrence the loops implement, for in-range positions (auxiliary). -/
def F (s t : List α) (sim : α → α → ℚ) (gap : α → ℚ) : Nat → Nat → Cell :=
  G (fun i => if i = 0 then (0, .T) else (((s[i - 1]?.map gap).getD 0) * (i : ℚ), .U))
    (fun j => (((t[j - 1]?.map gap).getD 0) * (j : ℚ), .L))
    (fun i j up diag left => cmax (cmax (up.1 + (s[i]?.map gap).getD 0, .U)
        (diag.1 + pairSim sim s t (i, j), .D)) (left.1 + (t[j]?.map gap).getD 0, .L))

theorem F_00 (s t : List α) (sim : α → α → ℚ) (gap : α → ℚ) : F s t sim gap 0 0 = (0, .T) := by
  simp [F, G]

theorem F_i0 (s t : List α) (sim : α → α → ℚ) (gap : α → ℚ) (i : Nat) (hi : i < s.length) :
    F s t sim gap (i + 1) 0 = (gap s[i] * ((i + 1 : Nat) : ℚ), .U) := by
  simp [F, G, hi]

theorem F_0j (s t : List α) (sim : α → α → ℚ) (gap : α → ℚ) (j : Nat) (hj : j < t.length) :
    F s t sim gap 0 (j + 1) = (gap t[j] * ((j + 1 : Nat) : ℚ), .L) := by
  simp [F, G, hj]

theorem F_ij (s t : List α) (sim : α → α → ℚ) (gap : α → ℚ) (i j : Nat) (hi : i < s.length)
    (hj : j < t.length) : F s t sim gap (i + 1) (j + 1) =
      cmax (cmax ((F s t sim gap i (j + 1)).1 + gap s[i], .U)
        ((F s t sim gap i j).1 + sim s[i] t[j], .D)) ((F s t sim gap (i + 1) j).1 + gap t[j], .L) := by
  conv_lhs => unfold F G
  simp [F, pairSim, hi, hj]

theorem border_ok (s t : List α) (sim : α → α → ℚ) (gap : α → ℚ) :
    ∃ m, border s t gap = .ok m ∧ (∀ i : Nat, i ≤ s.length → m (i, 0) = some (F s t sim gap i 0)) ∧
      (∀ j : Nat, j ≤ t.length → m (0, j) = some (F s t sim gap 0 j)) := by
  unfold border
  obtain ⟨m1, e1, e2⟩ := Py.forRange_inv
    (f := fun i t => do
      let x ← Py.get s (i - 1)
      .ok (Py.Dict.set t ((i : Int), (0 : Int)) (gap x * (i : ℚ), Dir.U)))
    (fun i m => ∀ i' : Nat, i' < i → m ((i' : Int), (0 : Int)) = some (F s t sim gap i' 0))
    (a := 1) (b := s.length + 1) (s := (Py.Dict.empty.set (0, 0) (0, .T) : Matrix)) (by omega)
    (by
      intro i' hi
      have : i' = 0 := by omega
      subst this
      simp [F_00])
    (by
      intro i m hi1 hi2 hm
      obtain ⟨i, rfl⟩ : ∃ k, i = k + 1 := ⟨i - 1, by omega⟩
      have hi : i < s.length := by omega
      refine ⟨m.set (((i + 1 : Nat) : Int), 0) (gap s[i] * ((i + 1 : Nat) : ℚ), .U), ?_, ?_⟩
      · simp only [Nat.add_sub_cancel, Py.get_ok hi, bind, Except.bind]
      · intro i' hlt
        by_cases he : i' = i + 1
        · subst he; simp [F_i0, hi]
        · rw [Py.Dict.set_ne]
          · exact hm i' (by omega)
          · intro e; simp only [Prod.mk.injEq, Int.natCast_inj] at e; exact he e.1)
  simp only [bind, Except.bind] at e1 ⊢
  rw [e1]
  obtain ⟨m2, g1, g2, g3⟩ := Py.forRange_inv
    (f := fun j m => do
      let y ← Py.get t (j - 1)
      .ok (Py.Dict.set m ((0 : Int), (j : Int)) (gap y * (j : ℚ), Dir.L)))
    (fun j m => (∀ i' : Nat, i' ≤ s.length → m ((i' : Int), (0 : Int)) = some (F s t sim gap i' 0)) ∧
      (∀ j' : Nat, j' < j → m ((0 : Int), (j' : Int)) = some (F s t sim gap 0 j')))
    (a := 1) (b := t.length + 1) (s := m1) (by omega)
    (by
      refine ⟨fun i' hi => e2 i' (by omega), ?_⟩
      intro j' hj
      have : j' = 0 := by omega
      subst this
      have := e2 0 (by omega)
      simpa using this)
    (by
      intro j m hj1 hj2 ⟨hm1, hm2⟩
      obtain ⟨j, rfl⟩ : ∃ k, j = k + 1 := ⟨j - 1, by omega⟩
      have hj : j < t.length := by omega
      refine ⟨m.set (0, ((j + 1 : Nat) : Int)) (gap t[j] * ((j + 1 : Nat) : ℚ), .L), ?_, ?_, ?_⟩
      · simp only [Nat.add_sub_cancel, Py.get_ok hj, bind, Except.bind]
      · intro i' hi'
        rw [Py.Dict.set_ne]
        · exact hm1 i' hi'
        · intro e; simp only [Prod.mk.injEq] at e; omega
      · intro j' hlt
        by_cases he : j' = j + 1
        · subst he; simp [F_0j, hj]
        · rw [Py.Dict.set_ne]
          · exact hm2 j' (by omega)
          · intro e; simp only [Prod.mk.injEq, Int.natCast_inj] at e; exact he e.2)
  exact ⟨m2, g1, g2, fun j hj => g3 j (by omega)⟩

theorem matrix_ok (s t : List α) (sim : α → α → ℚ) (gap : α → ℚ) :
    ∃ m0 m, border s t gap = .ok m0 ∧
      fillInner s.length t.length (cell s t sim gap) m0 = .ok m ∧
      Holds s.length t.length (F s t sim gap) m := by
  obtain ⟨m0, e1, e2, e3⟩ := border_ok s t sim gap
  obtain ⟨m, g1, g2⟩ := fillInner_ok s.length t.length (cell s t sim gap) (F s t sim gap) m0 e2 e3
    (by
      intro i j m hi hj h1 h2 h3
      have c1 : ((i + 1 : Nat) : Int) - 1 = (i : Int) := by omega
      have c2 : ((j + 1 : Nat) : Int) - 1 = (j : Int) := by omega
      simp only [cell, Nat.add_sub_cancel, Py.get_ok hi, Py.get_ok hj, bind, Except.bind, c1, c2,
        Py.Dict.get_eq h1, Py.Dict.get_eq h2, Py.Dict.get_eq h3]
      rw [F_ij _ _ _ _ _ _ hi hj])
  exact ⟨m0, m, e1, g1, g2⟩

section
variable (s t : List α) (sim : α → α → ℚ) (gap : α → ℚ)

theorem F_succ_fst (i j : Nat) (hi : i < s.length) (hj : j < t.length) :
    (F s t sim gap (i + 1) (j + 1)).1 =
      max (max ((F s t sim gap i (j + 1)).1 + gap s[i]) ((F s t sim gap i j).1 + sim s[i] t[j]))
        ((F s t sim gap (i + 1) j).1 + gap t[j]) := by
  rw [F_ij _ _ _ _ _ _ hi hj, cmax_fst, cmax_fst]

/-- What the step of a cell says about its score. -/
theorem F_step (c1 c2 : ℚ) (h1 : ∀ x ∈ s, gap x = c1) (h2 : ∀ y ∈ t, gap y = c2) (i j : Nat)
    (hi : i ≤ s.length) (hj : j ≤ t.length) (hpos : 0 < i + j) :
    match (F s t sim gap i j).2 with
    | .U => ∃ k, i = k + 1 ∧ ∃ hk : k < s.length,
        (F s t sim gap i j).1 = (F s t sim gap k j).1 + gap s[k]
    | .L => ∃ l, j = l + 1 ∧ ∃ hl : l < t.length,
        (F s t sim gap i j).1 = (F s t sim gap i l).1 + gap t[l]
    | .D => ∃ k l, i = k + 1 ∧ j = l + 1 ∧ ∃ (hk : k < s.length) (hl : l < t.length),
        (F s t sim gap i j).1 = (F s t sim gap k l).1 + sim s[k] t[l]
    | .T => False := by
  match i, j with
  | 0, 0 => omega
  | i + 1, 0 =>
    have hi' : i < s.length := by omega
    rw [F_i0 _ _ _ _ _ hi']
    refine ⟨i, rfl, hi', ?_⟩
    cases i with
    | zero => simp [F_00]
    | succ i =>
      have hi'' : i < s.length := by omega
      simp only [F_i0 _ _ _ _ _ hi'', h1 _ (List.getElem_mem hi'), h1 _ (List.getElem_mem hi'')]
      push_cast; ring
  | 0, j + 1 =>
    have hj' : j < t.length := by omega
    rw [F_0j _ _ _ _ _ hj']
    refine ⟨j, rfl, hj', ?_⟩
    cases j with
    | zero => simp [F_00]
    | succ j =>
      have hj'' : j < t.length := by omega
      simp only [F_0j _ _ _ _ _ hj'', h2 _ (List.getElem_mem hj'), h2 _ (List.getElem_mem hj'')]
      push_cast; ring
  | i + 1, j + 1 =>
    have hi' : i < s.length := by omega
    have hj' : j < t.length := by omega
    have hF := F_ij s t sim gap i j hi' hj'
    rcases cmax_cases (cmax ((F s t sim gap i (j + 1)).1 + gap s[i], .U)
        ((F s t sim gap i j).1 + sim s[i] t[j], .D)) ((F s t sim gap (i + 1) j).1 + gap t[j], .L)
      with e | e
    · rcases cmax_cases ((F s t sim gap i (j + 1)).1 + gap s[i], Dir.U)
        ((F s t sim gap i j).1 + sim s[i] t[j], .D) with e' | e'
      · rw [hF, e, e']; exact ⟨i, rfl, hi', rfl⟩
      · rw [hF, e, e']; exact ⟨i, j, rfl, rfl, hi', hj', rfl⟩
    · rw [hF, e]; exact ⟨j, rfl, hj', rfl⟩

/-- No alignment of prefixes beats the table. -/
theorem F_upper (c1 c2 : ℚ) (h1 : ∀ x ∈ s, gap x = c1) (h2 : ∀ y ∈ t, gap y = c2) (i j : Nat)
    (hi : i ≤ s.length) (hj : j ≤ t.length) (A : List (Nat × Nat)) (hA : Increasing A)
    (hW : Within A 0 i 0 j) : alignScore sim gap s t A 0 i 0 j ≤ (F s t sim gap i j).1 := by
  match i, j with
  | 0, j =>
    have : A = [] := by
      rcases A with _ | ⟨p, A⟩
      · rfl
      · have := hW p (by simp); omega
    subst this
    have : alignScore sim gap s t [] 0 0 0 j = c2 * j := by
      simp [alignScore, gapSum_const gap t c2 h2 j hj]
    rw [this]
    cases j with
    | zero => simp [F_00]
    | succ j =>
      have hj' : j < t.length := by omega
      simp [F_0j, hj', h2]
  | i + 1, 0 =>
    have : A = [] := by
      rcases A with _ | ⟨p, A⟩
      · rfl
      · have := hW p (by simp); omega
    subst this
    have : alignScore sim gap s t [] 0 (i + 1) 0 0 = c1 * ((i + 1 : Nat) : ℚ) := by
      simp [alignScore, gapSum_const gap s c1 h1 (i + 1) hi]
    rw [this]
    have hi' : i < s.length := by omega
    simp [F_i0, hi', h1]
  | i + 1, j + 1 =>
    have hi' : i < s.length := by omega
    have hj' : j < t.length := by omega
    rw [F_succ_fst s t sim gap i j hi' hj']
    rcases align_cases hA hW with ⟨A', rfl, hA', hW'⟩ | hW' | hW'
    · rw [score_diag sim gap s t A' 0 i 0 j hW' (by omega) (by omega) hi' hj']
      have := F_upper c1 c2 h1 h2 i j (by omega) (by omega) A' hA' hW'
      apply le_max_of_le_left; apply le_max_of_le_right
      linarith
    · rw [score_up sim gap s t A 0 i 0 (j + 1) hW' (by omega) hi']
      have := F_upper c1 c2 h1 h2 i (j + 1) (by omega) hj A hA hW'
      apply le_max_of_le_left; apply le_max_of_le_left
      linarith
    · rw [score_left sim gap s t A 0 (i + 1) 0 j hW' (by omega) hj']
      have := F_upper c1 c2 h1 h2 (i + 1) j hi (by omega) A hA hW'
      apply le_max_of_le_right
      linarith
termination_by i + j

theorem Within.mono {A : List (Nat × Nat)} {a b c d b' d' : Nat} (h : Within A a b c d) (hb : b ≤ b')
    (hd : d ≤ d') : Within A a b' c d' := by
  intro p hp; have := h p hp; omega

/-- The table entries are scores of alignments of the prefixes. -/
theorem F_attained (c1 c2 : ℚ) (h1 : ∀ x ∈ s, gap x = c1) (h2 : ∀ y ∈ t, gap y = c2) (i j : Nat)
    (hi : i ≤ s.length) (hj : j ≤ t.length) :
    ∃ A, IsAlignment s t A 0 i 0 j ∧ alignScore sim gap s t A 0 i 0 j = (F s t sim gap i j).1 := by
  by_cases hz : i + j = 0
  · have : i = 0 := by omega
    have : j = 0 := by omega
    subst i; subst j
    exact ⟨[], ⟨by simp [Increasing], by simp [Within], by simp, by simp, by simp, by simp⟩,
      by simp [alignScore, F_00]⟩
  · have hstep := F_step s t sim gap c1 c2 h1 h2 i j hi hj (by omega)
    cases hd : (F s t sim gap i j).2 with
    | T => simp only [hd] at hstep
    | U =>
      simp only [hd] at hstep
      obtain ⟨k, rfl, hk, he⟩ := hstep
      obtain ⟨A, hA, hs⟩ := F_attained c1 c2 h1 h2 k j (by omega) hj
      refine ⟨A, ⟨hA.inc, Within.mono hA.within (by omega) (by omega), by omega, hi, by omega, hj⟩, ?_⟩
      rw [score_up sim gap s t A 0 k 0 j hA.within (by omega) hk, hs, he]
    | L =>
      simp only [hd] at hstep
      obtain ⟨l, rfl, hl, he⟩ := hstep
      obtain ⟨A, hA, hs⟩ := F_attained c1 c2 h1 h2 i l hi (by omega)
      refine ⟨A, ⟨hA.inc, Within.mono hA.within (by omega) (by omega), by omega, hi, by omega, hj⟩, ?_⟩
      rw [score_left sim gap s t A 0 i 0 l hA.within (by omega) hl, hs, he]
    | D =>
      simp only [hd] at hstep
      obtain ⟨k, l, rfl, rfl, hk, hl, he⟩ := hstep
      obtain ⟨A, hA, hs⟩ := F_attained c1 c2 h1 h2 k l (by omega) (by omega)
      refine ⟨A ++ [(k, l)], ⟨?_, ?_, by omega, hi, by omega, hj⟩, ?_⟩
      · unfold Increasing
        rw [List.pairwise_append]
        refine ⟨hA.inc, by simp, ?_⟩
        intro p hp q hq
        simp at hq; subst hq
        have := hA.within p hp; simp; omega
      · intro p hp
        rcases List.mem_append.1 hp with hp | hp
        · have := hA.within p hp; omega
        · simp at hp; subst hp; simp
      · rw [score_diag sim gap s t A 0 k 0 l hA.within (by omega) (by omega) hk hl, hs, he]
termination_by i + j

/-- Traceback invariant. -/
def TInv (st : Trace) : Prop :=
  ∃ (i j : Nat) (A : List (Nat × Nat)), st = { i := i, j := j, alignment := emb A } ∧
    i ≤ s.length ∧ j ≤ t.length ∧ Increasing A ∧ Within A i s.length j t.length ∧
    (F s t sim gap i j).1 + alignScore sim gap s t A i s.length j t.length =
      (F s t sim gap s.length t.length).1

end

theorem trace_ok (s t : List α) (sim : α → α → ℚ) (gap : α → ℚ) (c1 c2 : ℚ)
    (h1 : ∀ x ∈ s, gap x = c1) (h2 : ∀ y ∈ t, gap y = c2) (fuel : Nat)
    (hf : s.length + t.length < fuel) :
    ∃ m A, needlemanWunsch fuel s t sim gap = .ok (m, emb A) ∧
      Holds s.length t.length (F s t sim gap) m ∧ IsAlignment s t A 0 s.length 0 t.length ∧
      alignScore sim gap s t A 0 s.length 0 t.length = (F s t sim gap s.length t.length).1 := by
  obtain ⟨m0, m, e1, e2, hm⟩ := matrix_ok s t sim gap
  unfold needlemanWunsch
  simp only [e1, e2, bind, Except.bind]
  obtain ⟨st, g1, g2⟩ := Py.whileLoop_inv
    (cond := fun st : Trace => .ok (decide (st.i + st.j > 0))) (body := traceStep m)
    (TInv s t sim gap) (fun st => (st.i + st.j).toNat)
    (fun st => TInv s t sim gap st ∧ st.i = 0 ∧ st.j = 0)
    (by
      rintro _ ⟨i, j, A, rfl, hi, hj, hA, hW, hS⟩
      by_cases hz : i + j = 0
      · left
        have : i = 0 := by omega
        have : j = 0 := by omega
        subst i; subst j
        exact ⟨by simp, ⟨0, 0, A, rfl, hi, hj, hA, hW, hS⟩, by simp, by simp⟩
      · right
        refine ⟨by simp; omega, ?_⟩
        have hget := Py.Dict.get_eq (hm i j hi hj)
        have hstep := F_step s t sim gap c1 c2 h1 h2 i j hi hj (by omega)
        simp only [traceStep, hget, bind, Except.bind]
        cases hd : (F s t sim gap i j).2 with
        | T => simp only [hd] at hstep
        | U =>
          simp only [hd] at hstep
          obtain ⟨k, rfl, hk, he⟩ := hstep
          have c : ((k + 1 : Nat) : Int) - 1 = (k : Int) := by omega
          refine ⟨_, rfl, ⟨k, j, A, by simp [c], by omega, hj, hA, ?_, ?_⟩, by simp; omega⟩
          · intro p hp; have := hW p hp; omega
          · rw [score_up_front sim gap s t A k s.length j t.length hW (by omega) (le_refl _)]
            linarith
        | L =>
          simp only [hd] at hstep
          obtain ⟨l, rfl, hl, he⟩ := hstep
          have c : ((l + 1 : Nat) : Int) - 1 = (l : Int) := by omega
          refine ⟨_, rfl, ⟨i, l, A, by simp [c], hi, by omega, hA, ?_, ?_⟩, by simp; omega⟩
          · intro p hp; have := hW p hp; omega
          · rw [score_left_front sim gap s t A i s.length l t.length hW (by omega) (le_refl _)]
            linarith
        | D =>
          simp only [hd] at hstep
          obtain ⟨k, l, rfl, rfl, hk, hl, he⟩ := hstep
          have c : ((k + 1 : Nat) : Int) - 1 = (k : Int) := by omega
          have c' : ((l + 1 : Nat) : Int) - 1 = (l : Int) := by omega
          refine ⟨_, rfl, ⟨k, l, (k, l) :: A, by simp [c, c', emb], by omega, by omega, ?_, ?_, ?_⟩,
            by simp; omega⟩
          · unfold Increasing at *
            rw [List.pairwise_cons]
            exact ⟨fun q hq => by have := hW q hq; omega, hA⟩
          · intro p hp
            rcases List.mem_cons.1 hp with rfl | hp
            · simp; omega
            · have := hW p hp; omega
          · rw [score_diag_front sim gap s t A k s.length l t.length hW (by omega) (by omega)
              (le_refl _) (le_refl _)]
            linarith)
    fuel { i := s.length, j := t.length, alignment := [] }
    ⟨s.length, t.length, [], by simp [emb], le_refl _, le_refl _, by simp [Increasing],
      by intro p hp; simp at hp, by simp [alignScore]⟩
    (by simp; omega)
  obtain ⟨⟨i, j, A, rfl, hi, hj, hA, hW, hS⟩, hi0, hj0⟩ := g2
  simp only at hi0 hj0
  have : i = 0 := by omega
  have : j = 0 := by omega
  subst i; subst j
  refine ⟨m, A, by rw [g1], hm, ⟨hA, hW, Nat.zero_le _, le_refl _, Nat.zero_le _, le_refl _⟩, ?_⟩
  simpa [F_00] using hS

/-- The steps alone, for any gap costs. -/
theorem F_dir (s t : List α) (sim : α → α → ℚ) (gap : α → ℚ) (i j : Nat) (hi : i ≤ s.length) (hj : j ≤ t.length)
    (hpos : 0 < i + j) :
    ((F s t sim gap i j).2 = .U ∧ 0 < i) ∨ ((F s t sim gap i j).2 = .L ∧ 0 < j) ∨
      ((F s t sim gap i j).2 = .D ∧ 0 < i ∧ 0 < j) := by
  match i, j with
  | 0, 0 => omega
  | i + 1, 0 => rw [F_i0 _ _ _ _ _ (by omega)]; simp
  | 0, j + 1 => rw [F_0j _ _ _ _ _ (by omega)]; simp
  | i + 1, j + 1 =>
    have hi' : i < s.length := by omega
    have hj' : j < t.length := by omega
    have hF := F_ij s t sim gap i j hi' hj'
    rcases cmax_cases (cmax ((F s t sim gap i (j + 1)).1 + gap s[i], .U)
        ((F s t sim gap i j).1 + sim s[i] t[j], .D)) ((F s t sim gap (i + 1) j).1 + gap t[j], .L)
      with e | e
    · rcases cmax_cases ((F s t sim gap i (j + 1)).1 + gap s[i], Dir.U)
        ((F s t sim gap i j).1 + sim s[i] t[j], .D) with e' | e'
      · rw [hF, e, e']; simp
      · rw [hF, e, e']; simp
    · rw [hF, e]; simp

/-- The traceback is valid for any gap costs. -/
theorem trace_valid (s t : List α) (sim : α → α → ℚ) (gap : α → ℚ) (fuel : Nat) (hf : s.length + t.length < fuel) :
    ∃ m A, needlemanWunsch fuel s t sim gap = .ok (m, emb A) ∧
      Holds s.length t.length (F s t sim gap) m ∧ IsAlignment s t A 0 s.length 0 t.length := by
  obtain ⟨m0, m, e1, e2, hm⟩ := matrix_ok s t sim gap
  unfold needlemanWunsch
  simp only [e1, e2, bind, Except.bind]
  let Inv : Trace → Prop := fun st => ∃ (i j : Nat) (A : List (Nat × Nat)), st = { i := i, j := j, alignment := emb A } ∧
    i ≤ s.length ∧ j ≤ t.length ∧ Increasing A ∧ Within A i s.length j t.length
  obtain ⟨st, g1, g2⟩ := Py.whileLoop_inv
    (cond := fun st : Trace => .ok (decide (st.i + st.j > 0))) (body := traceStep m)
    Inv (fun st => (st.i + st.j).toNat) (fun st => Inv st ∧ st.i = 0 ∧ st.j = 0)
    (by
      rintro _ ⟨i, j, A, rfl, hi, hj, hA, hW⟩
      by_cases hz : i + j = 0
      · left
        have : i = 0 := by omega
        have : j = 0 := by omega
        subst i; subst j
        exact ⟨by simp, ⟨0, 0, A, rfl, hi, hj, hA, hW⟩, by simp, by simp⟩
      · right
        refine ⟨by simp; omega, ?_⟩
        have hget := Py.Dict.get_eq (hm i j hi hj)
        simp only [traceStep, hget, bind, Except.bind]
        rcases F_dir s t sim gap i j hi hj (by omega) with ⟨hd, h0⟩ | ⟨hd, h0⟩ | ⟨hd, h0, h0'⟩
        · obtain ⟨k, rfl⟩ : ∃ k, i = k + 1 := ⟨i - 1, by omega⟩
          have c : ((k + 1 : Nat) : Int) - 1 = (k : Int) := by omega
          rw [hd]
          refine ⟨_, rfl, ⟨k, j, A, by simp [c], by omega, hj, hA, ?_⟩, by simp; omega⟩
          intro p hp; have := hW p hp; omega
        · obtain ⟨l, rfl⟩ : ∃ l, j = l + 1 := ⟨j - 1, by omega⟩
          have c : ((l + 1 : Nat) : Int) - 1 = (l : Int) := by omega
          rw [hd]
          refine ⟨_, rfl, ⟨i, l, A, by simp [c], hi, by omega, hA, ?_⟩, by simp; omega⟩
          intro p hp; have := hW p hp; omega
        · obtain ⟨k, rfl⟩ : ∃ k, i = k + 1 := ⟨i - 1, by omega⟩
          obtain ⟨l, rfl⟩ : ∃ l, j = l + 1 := ⟨j - 1, by omega⟩
          have c : ((k + 1 : Nat) : Int) - 1 = (k : Int) := by omega
          have c' : ((l + 1 : Nat) : Int) - 1 = (l : Int) := by omega
          rw [hd]
          refine ⟨_, rfl, ⟨k, l, (k, l) :: A, by simp [c, c', emb], by omega, by omega, ?_, ?_⟩,
            by simp; omega⟩
          · unfold Increasing at *
            rw [List.pairwise_cons]
            exact ⟨fun q hq => by have := hW q hq; omega, hA⟩
          · intro p hp
            rcases List.mem_cons.1 hp with rfl | hp
            · simp; omega
            · have := hW p hp; omega)
    fuel { i := s.length, j := t.length, alignment := [] }
    ⟨s.length, t.length, [], by simp [emb], le_refl _, le_refl _, by simp [Increasing],
      by intro p hp; simp at hp⟩
    (by simp; omega)
  obtain ⟨⟨i, j, A, rfl, hi, hj, hA, hW⟩, hi0, hj0⟩ := g2
  simp only at hi0 hj0
  have : i = 0 := by omega
  have : j = 0 := by omega
  subst i; subst j
  exact ⟨m, A, by rw [g1], hm, ⟨hA, hW, Nat.zero_le _, le_refl _, Nat.zero_le _, le_refl _⟩⟩

end Verif.NW
