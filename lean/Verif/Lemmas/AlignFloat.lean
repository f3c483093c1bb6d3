import Verif.Model.AlignFloat
import Verif.Lemmas.NeedlemanWunsch
import Verif.Lemmas.WatermanEggert

set_option linter.unusedSectionVars false

namespace Verif.NW
open Verif Verif.Spec Verif.Align

variable {α : Type}

/-- The recurrence the loops implement, for in-range positions (auxiliary). -/
def Fr (fl : ℚ → ℚ) (s t : List α) (sim : α → α → ℚ) (gap : α → ℚ) : Nat → Nat → Cell :=
  G (fun i => if i = 0 then (0, .T) else (fl (((s[i - 1]?.map gap).getD 0) * (i : ℚ)), .U))
    (fun j => (fl (((t[j - 1]?.map gap).getD 0) * (j : ℚ)), .L))
    (fun i j up diag left => cmax (cmax (fl (up.1 + (s[i]?.map gap).getD 0), .U)
        (fl (diag.1 + pairSim sim s t (i, j)), .D)) (fl (left.1 + (t[j]?.map gap).getD 0), .L))

theorem Fr_00 (fl : ℚ → ℚ) (s t : List α) (sim : α → α → ℚ) (gap : α → ℚ) : Fr fl s t sim gap 0 0 = (0, .T) := by
  simp [Fr, G]

theorem Fr_i0 (fl : ℚ → ℚ) (s t : List α) (sim : α → α → ℚ) (gap : α → ℚ) (i : Nat) (hi : i < s.length) :
    Fr fl s t sim gap (i + 1) 0 = (fl (gap s[i] * ((i + 1 : Nat) : ℚ)), .U) := by
  simp [Fr, G, hi]

theorem Fr_0j (fl : ℚ → ℚ) (s t : List α) (sim : α → α → ℚ) (gap : α → ℚ) (j : Nat) (hj : j < t.length) :
    Fr fl s t sim gap 0 (j + 1) = (fl (gap t[j] * ((j + 1 : Nat) : ℚ)), .L) := by
  simp [Fr, G, hj]

theorem Fr_ij (fl : ℚ → ℚ) (s t : List α) (sim : α → α → ℚ) (gap : α → ℚ) (i j : Nat) (hi : i < s.length)
    (hj : j < t.length) : Fr fl s t sim gap (i + 1) (j + 1) =
      cmax (cmax (fl ((Fr fl s t sim gap i (j + 1)).1 + gap s[i]), .U)
        (fl ((Fr fl s t sim gap i j).1 + sim s[i] t[j]), .D)) (fl ((Fr fl s t sim gap (i + 1) j).1 + gap t[j]), .L) := by
  conv_lhs => unfold Fr G
  simp [Fr, pairSim, hi, hj]

theorem borderFl_ok (fl : ℚ → ℚ) (s t : List α) (sim : α → α → ℚ) (gap : α → ℚ) :
    ∃ m, borderFl fl s t gap = .ok m ∧ (∀ i : Nat, i ≤ s.length → m (i, 0) = some (Fr fl s t sim gap i 0)) ∧
      (∀ j : Nat, j ≤ t.length → m (0, j) = some (Fr fl s t sim gap 0 j)) := by
  unfold borderFl
  obtain ⟨m1, e1, e2⟩ := Py.forRange_inv
    (f := fun i t => do
      let x ← Py.get s (i - 1)
      .ok (Py.Dict.set t ((i : Int), (0 : Int)) (fl (gap x * (i : ℚ)), Dir.U)))
    (fun i m => ∀ i' : Nat, i' < i → m ((i' : Int), (0 : Int)) = some (Fr fl s t sim gap i' 0))
    (a := 1) (b := s.length + 1) (s := (Py.Dict.empty.set (0, 0) (0, .T) : Matrix)) (by omega)
    (by
      intro i' hi
      have : i' = 0 := by omega
      subst this
      simp [Fr_00])
    (by
      intro i m hi1 hi2 hm
      obtain ⟨i, rfl⟩ : ∃ k, i = k + 1 := ⟨i - 1, by omega⟩
      have hi : i < s.length := by omega
      refine ⟨m.set (((i + 1 : Nat) : Int), 0) (fl (gap s[i] * ((i + 1 : Nat) : ℚ)), .U), ?_, ?_⟩
      · simp only [Nat.add_sub_cancel, Py.get_ok hi, bind, Except.bind]
      · intro i' hlt
        by_cases he : i' = i + 1
        · subst he; simp [Fr_i0, hi]
        · rw [Py.Dict.set_ne]
          · exact hm i' (by omega)
          · intro e; simp only [Prod.mk.injEq, Int.natCast_inj] at e; exact he e.1)
  simp only [bind, Except.bind] at e1 ⊢
  rw [e1]
  obtain ⟨m2, g1, g2, g3⟩ := Py.forRange_inv
    (f := fun j m => do
      let y ← Py.get t (j - 1)
      .ok (Py.Dict.set m ((0 : Int), (j : Int)) (fl (gap y * (j : ℚ)), Dir.L)))
    (fun j m => (∀ i' : Nat, i' ≤ s.length → m ((i' : Int), (0 : Int)) = some (Fr fl s t sim gap i' 0)) ∧
      (∀ j' : Nat, j' < j → m ((0 : Int), (j' : Int)) = some (Fr fl s t sim gap 0 j')))
    (a := 1) (b := t.length + 1) (s := m1) (by omega)
    (by
      refine ⟨fun i' hi => e2 i' (by omega), ?_⟩
      intro j' hj
      have : j' = 0 := by omega
      subst this
      have := e2 0 (by omega)
      simpa using this)
    (by
      intro j m hj1 hj2 ⟨hm1, hm2⟩
      obtain ⟨j, rfl⟩ : ∃ k, j = k + 1 := ⟨j - 1, by omega⟩
      have hj : j < t.length := by omega
      refine ⟨m.set (0, ((j + 1 : Nat) : Int)) (fl (gap t[j] * ((j + 1 : Nat) : ℚ)), .L), ?_, ?_, ?_⟩
      · simp only [Nat.add_sub_cancel, Py.get_ok hj, bind, Except.bind]
      · intro i' hi'
        rw [Py.Dict.set_ne]
        · exact hm1 i' hi'
        · intro e; simp only [Prod.mk.injEq] at e; omega
      · intro j' hlt
        by_cases he : j' = j + 1
        · subst he; simp [Fr_0j, hj]
        · rw [Py.Dict.set_ne]
          · exact hm2 j' (by omega)
          · intro e; simp only [Prod.mk.injEq, Int.natCast_inj] at e; exact he e.2)
  exact ⟨m2, g1, g2, fun j hj => g3 j (by omega)⟩

theorem matrixFl_ok (fl : ℚ → ℚ) (s t : List α) (sim : α → α → ℚ) (gap : α → ℚ) :
    ∃ m0 m, borderFl fl s t gap = .ok m0 ∧
      fillInner s.length t.length (cellFl fl s t sim gap) m0 = .ok m ∧
      Holds s.length t.length (Fr fl s t sim gap) m := by
  obtain ⟨m0, e1, e2, e3⟩ := borderFl_ok fl s t sim gap
  obtain ⟨m, g1, g2⟩ := fillInner_ok s.length t.length (cellFl fl s t sim gap) (Fr fl s t sim gap) m0 e2 e3
    (by
      intro i j m hi hj h1 h2 h3
      have c1 : ((i + 1 : Nat) : Int) - 1 = (i : Int) := by omega
      have c2 : ((j + 1 : Nat) : Int) - 1 = (j : Int) := by omega
      simp only [cellFl, Nat.add_sub_cancel, Py.get_ok hi, Py.get_ok hj, bind, Except.bind, c1, c2,
        Py.Dict.get_eq h1, Py.Dict.get_eq h2, Py.Dict.get_eq h3]
      rw [Fr_ij _ _ _ _ _ _ _ hi hj])
  exact ⟨m0, m, e1, g1, g2⟩

/-- The steps alone, for any gap costs. -/
theorem Fr_dir (fl : ℚ → ℚ) (s t : List α) (sim : α → α → ℚ) (gap : α → ℚ) (i j : Nat) (hi : i ≤ s.length) (hj : j ≤ t.length)
    (hpos : 0 < i + j) :
    ((Fr fl s t sim gap i j).2 = .U ∧ 0 < i) ∨ ((Fr fl s t sim gap i j).2 = .L ∧ 0 < j) ∨
      ((Fr fl s t sim gap i j).2 = .D ∧ 0 < i ∧ 0 < j) := by
  match i, j with
  | 0, 0 => omega
  | i + 1, 0 => rw [Fr_i0 _ _ _ _ _ _ (by omega)]; simp
  | 0, j + 1 => rw [Fr_0j _ _ _ _ _ _ (by omega)]; simp
  | i + 1, j + 1 =>
    have hi' : i < s.length := by omega
    have hj' : j < t.length := by omega
    have hF := Fr_ij fl s t sim gap i j hi' hj'
    rcases cmax_cases (cmax (fl ((Fr fl s t sim gap i (j + 1)).1 + gap s[i]), .U)
        (fl ((Fr fl s t sim gap i j).1 + sim s[i] t[j]), .D)) (fl ((Fr fl s t sim gap (i + 1) j).1 + gap t[j]), .L)
      with e | e
    · rcases cmax_cases (fl ((Fr fl s t sim gap i (j + 1)).1 + gap s[i]), Dir.U)
        (fl ((Fr fl s t sim gap i j).1 + sim s[i] t[j]), .D) with e' | e'
      · rw [hF, e, e']; simp
      · rw [hF, e, e']; simp
    · rw [hF, e]; simp

/-- The traceback is valid for any gap costs. -/
theorem traceFl_valid (fl : ℚ → ℚ) (s t : List α) (sim : α → α → ℚ) (gap : α → ℚ) (fuel : Nat) (hf : s.length + t.length < fuel) :
    ∃ m A, needlemanWunschFl fl fuel s t sim gap = .ok (m, emb A) ∧
      Holds s.length t.length (Fr fl s t sim gap) m ∧ IsAlignment s t A 0 s.length 0 t.length := by
  obtain ⟨m0, m, e1, e2, hm⟩ := matrixFl_ok fl s t sim gap
  unfold needlemanWunschFl
  simp only [e1, e2, bind, Except.bind]
  let Inv : Trace → Prop := fun st => ∃ (i j : Nat) (A : List (Nat × Nat)), st = { i := i, j := j, alignment := emb A } ∧
    i ≤ s.length ∧ j ≤ t.length ∧ Increasing A ∧ Within A i s.length j t.length
  obtain ⟨st, g1, g2⟩ := Py.whileLoop_inv
    (cond := fun st : Trace => .ok (decide (st.i + st.j > 0))) (body := traceStep m)
    Inv (fun st => (st.i + st.j).toNat) (fun st => Inv st ∧ st.i = 0 ∧ st.j = 0)
    (by
      rintro _ ⟨i, j, A, rfl, hi, hj, hA, hW⟩
      by_cases hz : i + j = 0
      · left
        have : i = 0 := by omega
        have : j = 0 := by omega
        subst i; subst j
        exact ⟨by simp, ⟨0, 0, A, rfl, hi, hj, hA, hW⟩, by simp, by simp⟩
      · right
        refine ⟨by simp; omega, ?_⟩
        have hget := Py.Dict.get_eq (hm i j hi hj)
        simp only [traceStep, hget, bind, Except.bind]
        rcases Fr_dir fl s t sim gap i j hi hj (by omega) with ⟨hd, h0⟩ | ⟨hd, h0⟩ | ⟨hd, h0, h0'⟩
        · obtain ⟨k, rfl⟩ : ∃ k, i = k + 1 := ⟨i - 1, by omega⟩
          have c : ((k + 1 : Nat) : Int) - 1 = (k : Int) := by omega
          rw [hd]
          refine ⟨_, rfl, ⟨k, j, A, by simp [c], by omega, hj, hA, ?_⟩, by simp; omega⟩
          intro p hp; have := hW p hp; omega
        · obtain ⟨l, rfl⟩ : ∃ l, j = l + 1 := ⟨j - 1, by omega⟩
          have c : ((l + 1 : Nat) : Int) - 1 = (l : Int) := by omega
          rw [hd]
          refine ⟨_, rfl, ⟨i, l, A, by simp [c], hi, by omega, hA, ?_⟩, by simp; omega⟩
          intro p hp; have := hW p hp; omega
        · obtain ⟨k, rfl⟩ : ∃ k, i = k + 1 := ⟨i - 1, by omega⟩
          obtain ⟨l, rfl⟩ : ∃ l, j = l + 1 := ⟨j - 1, by omega⟩
          have c : ((k + 1 : Nat) : Int) - 1 = (k : Int) := by omega
          have c' : ((l + 1 : Nat) : Int) - 1 = (l : Int) := by omega
          rw [hd]
          refine ⟨_, rfl, ⟨k, l, (k, l) :: A, by simp [c, c', emb], by omega, by omega, ?_, ?_⟩,
            by simp; omega⟩
          · unfold Increasing at *
            rw [List.pairwise_cons]
            exact ⟨fun q hq => by have := hW q hq; omega, hA⟩
          · intro p hp
            rcases List.mem_cons.1 hp with rfl | hp
            · simp; omega
            · have := hW p hp; omega)
    fuel { i := s.length, j := t.length, alignment := [] }
    ⟨s.length, t.length, [], by simp [emb], le_refl _, le_refl _, by simp [Increasing],
      by intro p hp; simp at hp⟩
    (by simp; omega)
  obtain ⟨⟨i, j, A, rfl, hi, hj, hA, hW⟩, hi0, hj0⟩ := g2
  simp only at hi0 hj0
  have : i = 0 := by omega
  have : j = 0 := by omega
  subst i; subst j
  exact ⟨m, A, by rw [g1], hm, ⟨hA, hW, Nat.zero_le _, le_refl _, Nat.zero_le _, le_refl _⟩⟩

end Verif.NW

namespace Verif.SW
open Verif Verif.Spec Verif.Align

variable {α : Type}

/-- The recurrence the loops implement, for in-range positions (auxiliary). -/
def Fr (fl : ℚ → ℚ) (s t : List α) (sim : α → α → ℚ) (gap : α → ℚ) : Nat → Nat → Cell :=
  G (fun i => if i = 0 then (0, .T) else (0, .U)) (fun _ => (0, .L))
    (fun i j up diag left => cmax (cmax (cmax (fl (up.1 + (s[i]?.map gap).getD 0), .U)
        (fl (diag.1 + pairSim sim s t (i, j)), .D)) (fl (left.1 + (t[j]?.map gap).getD 0), .L)) (0, .T))

theorem Fr_00 (fl : ℚ → ℚ) (s t : List α) (sim : α → α → ℚ) (gap : α → ℚ) : Fr fl s t sim gap 0 0 = (0, .T) := by
  simp [Fr, G]

theorem Fr_i0 (fl : ℚ → ℚ) (s t : List α) (sim : α → α → ℚ) (gap : α → ℚ) (i : Nat) :
    Fr fl s t sim gap (i + 1) 0 = (0, .U) := by
  simp [Fr, G]

theorem Fr_0j (fl : ℚ → ℚ) (s t : List α) (sim : α → α → ℚ) (gap : α → ℚ) (j : Nat) :
    Fr fl s t sim gap 0 (j + 1) = (0, .L) := by
  simp [Fr, G]

theorem Fr_ij (fl : ℚ → ℚ) (s t : List α) (sim : α → α → ℚ) (gap : α → ℚ) (i j : Nat) (hi : i < s.length)
    (hj : j < t.length) : Fr fl s t sim gap (i + 1) (j + 1) =
      cmax (cmax (cmax (fl ((Fr fl s t sim gap i (j + 1)).1 + gap s[i]), .U)
        (fl ((Fr fl s t sim gap i j).1 + sim s[i] t[j]), .D)) (fl ((Fr fl s t sim gap (i + 1) j).1 + gap t[j]), .L))
        (0, .T) := by
  conv_lhs => unfold Fr G
  simp [Fr, pairSim, hi, hj]

theorem maxScoreFl_ok (fl : ℚ → ℚ) (s t : List α) (sim : α → α → ℚ) (gap : α → ℚ) (i j : Nat) (m : Matrix)
    (hi : i < s.length) (hj : j < t.length) (a b c : Cell) (h1 : m (i, j) = some a)
    (h2 : m (i, (j + 1 : Nat)) = some b) (h3 : m ((i + 1 : Nat), j) = some c) :
    maxScoreFl fl s t sim gap (i + 1) (j + 1) m = .ok (cmax (cmax (cmax (fl (b.1 + gap s[i]), .U)
        (fl (a.1 + sim s[i] t[j]), .D)) (fl (c.1 + gap t[j]), .L)) (0, .T)) := by
  have c1 : ((i + 1 : Nat) : Int) - 1 = (i : Int) := by omega
  have c2 : ((j + 1 : Nat) : Int) - 1 = (j : Int) := by omega
  simp only [maxScoreFl, Nat.add_sub_cancel, Py.get_ok hi, Py.get_ok hj, bind, Except.bind, c1, c2,
    Py.Dict.get_eq h1, Py.Dict.get_eq h2, Py.Dict.get_eq h3]

theorem matrixFl_ok (fl : ℚ → ℚ) (s t : List α) (sim : α → α → ℚ) (gap : α → ℚ) :
    ∃ m, makeMatrixFl fl s t sim gap = .ok m ∧ Holds s.length t.length (Fr fl s t sim gap) m := by
  obtain ⟨m0, e1, e2, e3⟩ := SW.border_ok s t sim gap
  have e2 : ∀ i : Nat, i ≤ s.length → m0 (i, 0) = some (Fr fl s t sim gap i 0) := by
    intro i hi; rw [e2 i hi]; cases i <;> simp [F_00, F_i0, Fr_00, Fr_i0]
  have e3 : ∀ j : Nat, j ≤ t.length → m0 (0, j) = some (Fr fl s t sim gap 0 j) := by
    intro j hj; rw [e3 j hj]; cases j <;> simp [F_00, F_0j, Fr_00, Fr_0j]
  obtain ⟨m, g1, g2⟩ := fillInner_ok s.length t.length (maxScoreFl fl s t sim gap) (Fr fl s t sim gap) m0 e2 e3
    (by
      intro i j m hi hj h1 h2 h3
      rw [maxScoreFl_ok fl s t sim gap i j m hi hj _ _ _ h1 h2 h3, Fr_ij _ _ _ _ _ _ _ hi hj])
  refine ⟨m, ?_, g2⟩
  simp only [makeMatrixFl, e1, bind, Except.bind, g1]

section
variable (fl : ℚ → ℚ) (s t : List α) (sim : α → α → ℚ) (gap : α → ℚ)

theorem Fr_succ_fst (i j : Nat) (hi : i < s.length) (hj : j < t.length) :
    (Fr fl s t sim gap (i + 1) (j + 1)).1 =
      max (max (max (fl ((Fr fl s t sim gap i (j + 1)).1 + gap s[i])) (fl ((Fr fl s t sim gap i j).1 + sim s[i] t[j])))
        (fl ((Fr fl s t sim gap (i + 1) j).1 + gap t[j]))) 0 := by
  rw [Fr_ij _ _ _ _ _ _ _ hi hj, cmax_fst, cmax_fst, cmax_fst]

theorem Fr_nonneg (i j : Nat) (hi : i ≤ s.length) (hj : j ≤ t.length) : 0 ≤ (Fr fl s t sim gap i j).1 := by
  match i, j with
  | 0, 0 => simp [Fr_00]
  | i + 1, 0 => simp [Fr_i0]
  | 0, j + 1 => simp [Fr_0j]
  | i + 1, j + 1 =>
    rw [Fr_succ_fst fl s t sim gap i j (by omega) (by omega)]
    exact le_max_right _ _

/-- What the step of a cell with a positive score says about its score. -/
theorem Fr_step (i j : Nat) (hi : i ≤ s.length) (hj : j ≤ t.length) (hpos : 0 < (Fr fl s t sim gap i j).1) :
    match (Fr fl s t sim gap i j).2 with
    | .U => ∃ k, i = k + 1 ∧ ∃ hk : k < s.length,
        (Fr fl s t sim gap i j).1 = fl ((Fr fl s t sim gap k j).1 + gap s[k])
    | .L => ∃ l, j = l + 1 ∧ ∃ hl : l < t.length,
        (Fr fl s t sim gap i j).1 = fl ((Fr fl s t sim gap i l).1 + gap t[l])
    | .D => ∃ k l, i = k + 1 ∧ j = l + 1 ∧ ∃ (hk : k < s.length) (hl : l < t.length),
        (Fr fl s t sim gap i j).1 = fl ((Fr fl s t sim gap k l).1 + sim s[k] t[l])
    | .T => False := by
  match i, j with
  | 0, 0 => simp [Fr_00] at hpos
  | i + 1, 0 => simp [Fr_i0] at hpos
  | 0, j + 1 => simp [Fr_0j] at hpos
  | i + 1, j + 1 =>
    have hi' : i < s.length := by omega
    have hj' : j < t.length := by omega
    have hF := Fr_ij fl s t sim gap i j hi' hj'
    rcases cmax_cases (cmax (cmax (fl ((Fr fl s t sim gap i (j + 1)).1 + gap s[i]), .U)
        (fl ((Fr fl s t sim gap i j).1 + sim s[i] t[j]), .D)) (fl ((Fr fl s t sim gap (i + 1) j).1 + gap t[j]), .L))
        (0, .T) with e | e
    · rcases cmax_cases (cmax (fl ((Fr fl s t sim gap i (j + 1)).1 + gap s[i]), .U)
          (fl ((Fr fl s t sim gap i j).1 + sim s[i] t[j]), .D)) (fl ((Fr fl s t sim gap (i + 1) j).1 + gap t[j]), .L)
        with e' | e'
      · rcases cmax_cases (fl ((Fr fl s t sim gap i (j + 1)).1 + gap s[i]), Dir.U)
          (fl ((Fr fl s t sim gap i j).1 + sim s[i] t[j]), .D) with e'' | e''
        · rw [hF, e, e', e'']; exact ⟨i, rfl, hi', rfl⟩
        · rw [hF, e, e', e'']; exact ⟨i, j, rfl, rfl, hi', hj', rfl⟩
      · rw [hF, e, e']; exact ⟨j, rfl, hj', rfl⟩
    · rw [hF, e] at hpos; simp at hpos

end

theorem Fr_good (fl : ℚ → ℚ) (s t : List α) (sim : α → α → ℚ) (gap : α → ℚ) (m : Matrix)
    (hm : Holds s.length t.length (Fr fl s t sim gap) m) : GoodM s.length t.length m := by
  intro i j hi hj
  refine ⟨_, hm i j hi hj, Fr_nonneg fl s t sim gap i j hi hj, ?_⟩
  intro hp
  have hs := Fr_step fl s t sim gap i j hi hj hp
  refine ⟨?_, ?_, ?_⟩
  · rcases Nat.eq_zero_or_pos i with rfl | h
    · cases j <;> simp [Fr_00, Fr_0j] at hp
    · exact h
  · rcases Nat.eq_zero_or_pos j with rfl | h
    · cases i <;> simp [Fr_00, Fr_i0] at hp
    · exact h
  · intro hT; simp only [hT] at hs

end Verif.SW
