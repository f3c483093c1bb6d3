import Verif.Lemmas.Alignment
import Verif.Model.SmithWaterman

namespace Verif.SW
open Verif Verif.Spec Verif.Align
set_option linter.unusedSectionVars false

variable {α : Type}

/-- The recurrence the loops implement, for in-range positions (auxiliary). -/
def F (s t : List α) (sim : α → α → ℚ) (gap : α → ℚ) : Nat → Nat → Cell :=
  G (fun i => if i = 0 then (0, .T) else (0, .U)) (fun _ => (0, .L))
    (fun i j up diag left => cmax (cmax (cmax (up.1 + (s[i]?.map gap).getD 0, .U)
        (diag.1 + pairSim sim s t (i, j), .D)) (left.1 + (t[j]?.map gap).getD 0, .L)) (0, .T))

theorem F_00 (s t : List α) (sim : α → α → ℚ) (gap : α → ℚ) : F s t sim gap 0 0 = (0, .T) := by
  simp [F, G]

theorem F_i0 (s t : List α) (sim : α → α → ℚ) (gap : α → ℚ) (i : Nat) :
    F s t sim gap (i + 1) 0 = (0, .U) := by
  simp [F, G]

theorem F_0j (s t : List α) (sim : α → α → ℚ) (gap : α → ℚ) (j : Nat) :
    F s t sim gap 0 (j + 1) = (0, .L) := by
  simp [F, G]

theorem F_ij (s t : List α) (sim : α → α → ℚ) (gap : α → ℚ) (i j : Nat) (hi : i < s.length)
    (hj : j < t.length) : F s t sim gap (i + 1) (j + 1) =
      cmax (cmax (cmax ((F s t sim gap i (j + 1)).1 + gap s[i], .U)
        ((F s t sim gap i j).1 + sim s[i] t[j], .D)) ((F s t sim gap (i + 1) j).1 + gap t[j], .L))
        (0, .T) := by
  conv_lhs => unfold F G
  simp [F, pairSim, hi, hj]

theorem border_ok (s t : List α) (sim : α → α → ℚ) (gap : α → ℚ) :
    ∃ m, border s t = .ok m ∧ (∀ i : Nat, i ≤ s.length → m (i, 0) = some (F s t sim gap i 0)) ∧
      (∀ j : Nat, j ≤ t.length → m (0, j) = some (F s t sim gap 0 j)) := by
  unfold border
  obtain ⟨m1, e1, e2⟩ := Py.forRange_inv
    (f := fun i t => .ok (Py.Dict.set t ((i : Int), (0 : Int)) ((0 : ℚ), Dir.U)))
    (fun i m => ∀ i' : Nat, i' < i → m ((i' : Int), (0 : Int)) = some (F s t sim gap i' 0))
    (a := 1) (b := s.length + 1) (s := (Py.Dict.empty.set (0, 0) (0, .T) : Matrix)) (by omega)
    (by
      intro i' hi
      have : i' = 0 := by omega
      subst this
      simp [F_00])
    (by
      intro i m hi1 hi2 hm
      obtain ⟨i, rfl⟩ : ∃ k, i = k + 1 := ⟨i - 1, by omega⟩
      refine ⟨_, rfl, ?_⟩
      intro i' hlt
      by_cases he : i' = i + 1
      · subst he; simp [F_i0]
      · rw [Py.Dict.set_ne]
        · exact hm i' (by omega)
        · intro e; simp only [Prod.mk.injEq, Int.natCast_inj] at e; exact he e.1)
  simp only [bind, Except.bind] at e1 ⊢
  rw [e1]
  obtain ⟨m2, g1, g2, g3⟩ := Py.forRange_inv
    (f := fun j m => .ok (Py.Dict.set m ((0 : Int), (j : Int)) ((0 : ℚ), Dir.L)))
    (fun j m => (∀ i' : Nat, i' ≤ s.length → m ((i' : Int), (0 : Int)) = some (F s t sim gap i' 0)) ∧
      (∀ j' : Nat, j' < j → m ((0 : Int), (j' : Int)) = some (F s t sim gap 0 j')))
    (a := 1) (b := t.length + 1) (s := m1) (by omega)
    (by
      refine ⟨fun i' hi => e2 i' (by omega), ?_⟩
      intro j' hj
      have : j' = 0 := by omega
      subst this
      have := e2 0 (by omega)
      simpa using this)
    (by
      intro j m hj1 hj2 ⟨hm1, hm2⟩
      obtain ⟨j, rfl⟩ : ∃ k, j = k + 1 := ⟨j - 1, by omega⟩
      refine ⟨_, rfl, ?_, ?_⟩
      · intro i' hi'
        rw [Py.Dict.set_ne]
        · exact hm1 i' hi'
        · intro e; simp only [Prod.mk.injEq] at e; omega
      · intro j' hlt
        by_cases he : j' = j + 1
        · subst he; simp [F_0j]
        · rw [Py.Dict.set_ne]
          · exact hm2 j' (by omega)
          · intro e; simp only [Prod.mk.injEq, Int.natCast_inj] at e; exact he e.2)
  exact ⟨m2, g1, g2, fun j hj => g3 j (by omega)⟩

theorem maxScore_ok (s t : List α) (sim : α → α → ℚ) (gap : α → ℚ) (i j : Nat) (m : Matrix)
    (hi : i < s.length) (hj : j < t.length) (a b c : Cell) (h1 : m (i, j) = some a)
    (h2 : m (i, (j + 1 : Nat)) = some b) (h3 : m ((i + 1 : Nat), j) = some c) :
    maxScore s t sim gap (i + 1) (j + 1) m = .ok (cmax (cmax (cmax (b.1 + gap s[i], .U)
        (a.1 + sim s[i] t[j], .D)) (c.1 + gap t[j], .L)) (0, .T)) := by
  have c1 : ((i + 1 : Nat) : Int) - 1 = (i : Int) := by omega
  have c2 : ((j + 1 : Nat) : Int) - 1 = (j : Int) := by omega
  simp only [maxScore, Nat.add_sub_cancel, Py.get_ok hi, Py.get_ok hj, bind, Except.bind, c1, c2,
    Py.Dict.get_eq h1, Py.Dict.get_eq h2, Py.Dict.get_eq h3]

theorem matrix_ok (s t : List α) (sim : α → α → ℚ) (gap : α → ℚ) :
    ∃ m, makeMatrix s t sim gap = .ok m ∧ Holds s.length t.length (F s t sim gap) m := by
  obtain ⟨m0, e1, e2, e3⟩ := border_ok s t sim gap
  obtain ⟨m, g1, g2⟩ := fillInner_ok s.length t.length (maxScore s t sim gap) (F s t sim gap) m0 e2 e3
    (by
      intro i j m hi hj h1 h2 h3
      rw [maxScore_ok s t sim gap i j m hi hj _ _ _ h1 h2 h3, F_ij _ _ _ _ _ _ hi hj])
  refine ⟨m, ?_, g2⟩
  simp only [makeMatrix, e1, bind, Except.bind, g1]

section
variable (s t : List α) (sim : α → α → ℚ) (gap : α → ℚ)

theorem F_succ_fst (i j : Nat) (hi : i < s.length) (hj : j < t.length) :
    (F s t sim gap (i + 1) (j + 1)).1 =
      max (max (max ((F s t sim gap i (j + 1)).1 + gap s[i]) ((F s t sim gap i j).1 + sim s[i] t[j]))
        ((F s t sim gap (i + 1) j).1 + gap t[j])) 0 := by
  rw [F_ij _ _ _ _ _ _ hi hj, cmax_fst, cmax_fst, cmax_fst]

theorem F_nonneg (i j : Nat) (hi : i ≤ s.length) (hj : j ≤ t.length) : 0 ≤ (F s t sim gap i j).1 := by
  match i, j with
  | 0, 0 => simp [F_00]
  | i + 1, 0 => simp [F_i0]
  | 0, j + 1 => simp [F_0j]
  | i + 1, j + 1 =>
    rw [F_succ_fst s t sim gap i j (by omega) (by omega)]
    exact le_max_right _ _

/-- What the step of a cell with a positive score says about its score. -/
theorem F_step (i j : Nat) (hi : i ≤ s.length) (hj : j ≤ t.length) (hpos : 0 < (F s t sim gap i j).1) :
    match (F s t sim gap i j).2 with
    | .U => ∃ k, i = k + 1 ∧ ∃ hk : k < s.length,
        (F s t sim gap i j).1 = (F s t sim gap k j).1 + gap s[k]
    | .L => ∃ l, j = l + 1 ∧ ∃ hl : l < t.length,
        (F s t sim gap i j).1 = (F s t sim gap i l).1 + gap t[l]
    | .D => ∃ k l, i = k + 1 ∧ j = l + 1 ∧ ∃ (hk : k < s.length) (hl : l < t.length),
        (F s t sim gap i j).1 = (F s t sim gap k l).1 + sim s[k] t[l]
    | .T => False := by
  match i, j with
  | 0, 0 => simp [F_00] at hpos
  | i + 1, 0 => simp [F_i0] at hpos
  | 0, j + 1 => simp [F_0j] at hpos
  | i + 1, j + 1 =>
    have hi' : i < s.length := by omega
    have hj' : j < t.length := by omega
    have hF := F_ij s t sim gap i j hi' hj'
    rcases cmax_cases (cmax (cmax ((F s t sim gap i (j + 1)).1 + gap s[i], .U)
        ((F s t sim gap i j).1 + sim s[i] t[j], .D)) ((F s t sim gap (i + 1) j).1 + gap t[j], .L))
        (0, .T) with e | e
    · rcases cmax_cases (cmax ((F s t sim gap i (j + 1)).1 + gap s[i], .U)
          ((F s t sim gap i j).1 + sim s[i] t[j], .D)) ((F s t sim gap (i + 1) j).1 + gap t[j], .L)
        with e' | e'
      · rcases cmax_cases ((F s t sim gap i (j + 1)).1 + gap s[i], Dir.U)
          ((F s t sim gap i j).1 + sim s[i] t[j], .D) with e'' | e''
        · rw [hF, e, e', e'']; exact ⟨i, rfl, hi', rfl⟩
        · rw [hF, e, e', e'']; exact ⟨i, j, rfl, rfl, hi', hj', rfl⟩
      · rw [hF, e, e']; exact ⟨j, rfl, hj', rfl⟩
    · rw [hF, e] at hpos; simp at hpos

/-- No local alignment ending at `(i, j)` beats the table. -/
theorem F_upper (hg : ∀ x, gap x ≤ 0) (i j : Nat) (A : List (Nat × Nat)) (a c : Nat)
    (hA : IsAlignment s t A a i c j) :
    alignScore sim gap s t A a i c j ≤ (F s t sim gap i j).1 := by
  obtain ⟨hI, hW, hab, hbs, hcd, hdt⟩ := hA
  have h0 := F_nonneg s t sim gap i j hbs hdt
  by_cases hai : a = i
  · have : A = [] := by
      rcases A with _ | ⟨p, A⟩
      · rfl
      · have := hW p (by simp); omega
    subst this; subst hai
    have := gapSum_nonpos gap t [] hg c j hcd hdt
    simp [alignScore]; linarith
  · by_cases hcj : c = j
    · have : A = [] := by
        rcases A with _ | ⟨p, A⟩
        · rfl
        · have := hW p (by simp); omega
      subst this; subst hcj
      have := gapSum_nonpos gap s [] hg a i hab hbs
      simp [alignScore]; linarith
    · obtain ⟨i, rfl⟩ : ∃ k, i = k + 1 := ⟨i - 1, by omega⟩
      obtain ⟨j, rfl⟩ : ∃ k, j = k + 1 := ⟨j - 1, by omega⟩
      have hi' : i < s.length := by omega
      have hj' : j < t.length := by omega
      rw [F_succ_fst s t sim gap i j hi' hj']
      apply le_max_of_le_left
      rcases align_cases hI hW with ⟨A', rfl, hA', hW'⟩ | hW' | hW'
      · rw [score_diag sim gap s t A' a i c j hW' (by omega) (by omega) hi' hj']
        have := F_upper hg i j A' a c ⟨hA', hW', by omega, by omega, by omega, by omega⟩
        apply le_max_of_le_left; apply le_max_of_le_right
        linarith
      · rw [score_up sim gap s t A a i c (j + 1) hW' (by omega) hi']
        have := F_upper hg i (j + 1) A a c ⟨hI, hW', by omega, by omega, by omega, by omega⟩
        apply le_max_of_le_left; apply le_max_of_le_left
        linarith
      · rw [score_left sim gap s t A a (i + 1) c j hW' (by omega) hj']
        have := F_upper hg (i + 1) j A a c ⟨hI, hW', by omega, by omega, by omega, by omega⟩
        apply le_max_of_le_right
        linarith
termination_by i + j

end

/-! ### Selecting the start of the traceback -/

theorem entryLt_fst {a b : Cell × (Int × Int)} (h : entryLt a b = true) : a.1.1 ≤ b.1.1 := by
  simp only [entryLt, Cell.lt, Bool.or_eq_true, decide_eq_true_eq, Bool.and_eq_true, beq_iff_eq] at h
  rcases h with (h | h) | h
  · exact le_of_lt h
  · exact le_of_eq h.1
  · rw [h.1]

theorem not_entryLt_fst {a b : Cell × (Int × Int)} (h : ¬ entryLt a b = true) : b.1.1 ≤ a.1.1 := by
  simp only [entryLt, Cell.lt, Bool.or_eq_true, decide_eq_true_eq, not_or, not_lt] at h
  exact h.1.1

theorem foldl_best (l : List (Cell × (Int × Int))) (e : Cell × (Int × Int)) :
    (l.foldl (fun best e => if entryLt best e then e else best) e) ∈ e :: l ∧
    ∀ x ∈ e :: l, x.1.1 ≤ (l.foldl (fun best e => if entryLt best e then e else best) e).1.1 := by
  induction l generalizing e with
  | nil => simp
  | cons y ys ih =>
    simp only [List.foldl_cons]
    obtain ⟨h1, h2⟩ := ih (if entryLt e y then y else e)
    refine ⟨?_, ?_⟩
    · rcases List.mem_cons.1 h1 with h | h
      · rw [h]; split <;> simp
      · simp [h]
    · intro x hx
      have hb := h2 (if entryLt e y then y else e) (by simp)
      have he : e.1.1 ≤ (if entryLt e y then y else e).1.1 := by
        split
        · rename_i hlt; exact entryLt_fst hlt
        · exact le_refl _
      have hy : y.1.1 ≤ (if entryLt e y then y else e).1.1 := by
        split
        · exact le_refl _
        · rename_i hlt; exact not_entryLt_fst hlt
      rcases List.mem_cons.1 hx with rfl | hx
      · exact le_trans he hb
      · rcases List.mem_cons.1 hx with rfl | hx
        · exact le_trans hy hb
        · exact h2 x (by simp [hx])

theorem mem_keys (n m : Nat) (k : Int × Int) :
    k ∈ keys n m ↔ ∃ i j : Nat, i ≤ n ∧ j ≤ m ∧ k = ((i : Int), (j : Int)) := by
  simp only [keys, List.mem_flatMap, List.mem_map, List.mem_range]
  constructor
  · rintro ⟨i, hi, j, hj, rfl⟩; exact ⟨i, j, by omega, by omega, rfl⟩
  · rintro ⟨i, j, hi, hj, rfl⟩; exact ⟨i, by omega, j, by omega, rfl⟩

theorem mem_items (n m : Nat) (t : Matrix) (k : Int × Int) (c : Cell) :
    (k, c) ∈ items n m t ↔ ∃ i j : Nat, i ≤ n ∧ j ≤ m ∧ k = ((i : Int), (j : Int)) ∧ t k = some c := by
  simp only [items, List.mem_filterMap, mem_keys, Option.map_eq_some_iff, Prod.mk.injEq]
  constructor
  · rintro ⟨k', ⟨i, j, hi, hj, rfl⟩, c', hc, rfl, rfl⟩
    exact ⟨i, j, hi, hj, rfl, hc⟩
  · rintro ⟨i, j, hi, hj, rfl, hc⟩
    exact ⟨_, ⟨i, j, hi, hj, rfl⟩, c, hc, rfl, rfl⟩

/-- The chosen pair has the highest score; there is none iff no score is positive. -/
theorem bestPair_spec (n m : Nat) (t : Matrix) :
    (bestPair n m t = .error .indexError ∧
      ∀ i j : Nat, i ≤ n → j ≤ m → ∀ c, t (i, j) = some c → c.1 ≤ 0) ∨
    (∃ (i j : Nat) (c : Cell), bestPair n m t = .ok ((i : Int), (j : Int)) ∧ i ≤ n ∧ j ≤ m ∧
      t (i, j) = some c ∧ 0 < c.1 ∧
      ∀ i' j' : Nat, i' ≤ n → j' ≤ m → ∀ c', t (i', j') = some c' → c'.1 ≤ c.1) := by
  have hmem : ∀ (k : Int × Int) (c : Cell),
      (c, k) ∈ ((items n m t).filter fun e => decide (e.2.1 > 0)).map (fun e => (e.2, e.1)) ↔
      ((∃ i j : Nat, i ≤ n ∧ j ≤ m ∧ k = ((i : Int), (j : Int))) ∧ t k = some c ∧ 0 < c.1) := by
    intro k c
    simp only [List.mem_map, List.mem_filter, decide_eq_true_eq, Prod.mk.injEq]
    constructor
    · rintro ⟨⟨k', c'⟩, ⟨h1, h2⟩, rfl, rfl⟩
      rw [mem_items] at h1
      obtain ⟨i, j, hi, hj, rfl, hc⟩ := h1
      exact ⟨⟨i, j, hi, hj, rfl⟩, hc, h2⟩
    · rintro ⟨⟨i, j, hi, hj, rfl⟩, hc, h2⟩
      exact ⟨(_, c), ⟨(mem_items _ _ _ _ _).2 ⟨i, j, hi, hj, rfl, hc⟩, h2⟩, rfl, rfl⟩
  unfold bestPair
  generalize hl : ((items n m t).filter fun e => decide (e.2.1 > 0)).map (fun e => (e.2, e.1)) = l at *
  rcases l with _ | ⟨e, es⟩
  · left
    refine ⟨rfl, ?_⟩
    intro i j hi hj c hc
    by_contra hcon
    have := (hmem (i, j) c).2 ⟨⟨i, j, hi, hj, rfl⟩, hc, by linarith⟩
    simp at this
  · right
    obtain ⟨h1, h2⟩ := foldl_best es e
    generalize hb : es.foldl (fun best e => if entryLt best e then e else best) e = b at *
    obtain ⟨c, k⟩ := b
    obtain ⟨⟨i, j, hi, hj, rfl⟩, hc, hpos⟩ := (hmem k c).1 h1
    refine ⟨i, j, c, by simp [lastSorted, hb], hi, hj, hc, hpos, ?_⟩
    intro i' j' hi' hj' c' hc'
    by_cases hp : 0 < c'.1
    · exact h2 (c', (i', j')) ((hmem _ _).2 ⟨⟨i', j', hi', hj', rfl⟩, hc', hp⟩)
    · linarith

/-! ### Traceback -/

/-- What a traceback needs: entries exist, and a positive entry has a step that leads to an entry. -/
def GoodM (n m : Nat) (t : Matrix) : Prop :=
  ∀ i j : Nat, i ≤ n → j ≤ m → ∃ c, t (i, j) = some c ∧ 0 ≤ c.1 ∧
    (0 < c.1 → 0 < i ∧ 0 < j ∧ c.2 ≠ .T)

/-- Traceback with an invariant `R a c A`: `a, c` the current position, `A` the alignment so far. -/
theorem trace_general (n m : Nat) (t : Matrix) (hg : GoodM n m t) (b d : Nat) (hb : b ≤ n) (hd : d ≤ m)
    (R : Nat → Nat → List (Nat × Nat) → Prop) (h0 : R b d [])
    (hU : ∀ i j A c, i < n → j ≤ m → t ((i + 1 : Nat), j) = some c → c.2 = .U → 0 < c.1 →
      Within A (i + 1) b j d → R (i + 1) j A → R i j A)
    (hL : ∀ i j A c, i ≤ n → j < m → t (i, (j + 1 : Nat)) = some c → c.2 = .L → 0 < c.1 →
      Within A i b (j + 1) d → R i (j + 1) A → R i j A)
    (hD : ∀ i j A c, i < n → j < m → t ((i + 1 : Nat), (j + 1 : Nat)) = some c → c.2 = .D → 0 < c.1 →
      Within A (i + 1) b (j + 1) d → R (i + 1) (j + 1) A → R i j ((i, j) :: A))
    (fuel : Nat) (hf : b + d < fuel) :
    ∃ (a c : Nat) (A : List (Nat × Nat)), traceAlignment fuel t (b, d) = .ok (emb A) ∧
      a ≤ b ∧ c ≤ d ∧ Increasing A ∧ Within A a b c d ∧ R a c A ∧
      ∃ e, t (a, c) = some e ∧ e.1 ≤ 0 := by
  unfold traceAlignment
  obtain ⟨st, g1, i, j, A, rfl, hi, hj, hA, hW, hR, c, hc, hc0⟩ := Py.whileLoop_inv
    (cond := fun s : Trace => do
      let c ← t.get (s.i, s.j)
      .ok (decide (c.1 > 0))) (body := traceStep t)
    (fun st => ∃ (i j : Nat) (A : List (Nat × Nat)), st = { i := i, j := j, alignment := emb A } ∧
      i ≤ b ∧ j ≤ d ∧ Increasing A ∧ Within A i b j d ∧ R i j A)
    (fun st => (st.i + st.j).toNat)
    (fun st => ∃ (i j : Nat) (A : List (Nat × Nat)), st = { i := i, j := j, alignment := emb A } ∧
      i ≤ b ∧ j ≤ d ∧ Increasing A ∧ Within A i b j d ∧ R i j A ∧ ∃ e, t (i, j) = some e ∧ e.1 ≤ 0)
    (by
      rintro _ ⟨i, j, A, rfl, hi, hj, hA, hW, hR⟩
      obtain ⟨c, hc, hc0, hcp⟩ := hg i j (by omega) (by omega)
      have hget := Py.Dict.get_eq hc
      by_cases hp : 0 < c.1
      · right
        obtain ⟨hi0, hj0, hT⟩ := hcp hp
        refine ⟨by simp [hget, bind, Except.bind, hp], ?_⟩
        simp only [traceStep, hget, bind, Except.bind]
        cases hdir : c.2 with
        | T => exact absurd hdir hT
        | U =>
          obtain ⟨k, rfl⟩ : ∃ k, i = k + 1 := ⟨i - 1, by omega⟩
          refine ⟨_, rfl, ⟨k, j, A, by simp, by omega, hj, hA, ?_, ?_⟩, by simp; omega⟩
          · intro p hp; have := hW p hp; omega
          · exact hU k j A c (by omega) (by omega) hc hdir hp hW hR
        | L =>
          obtain ⟨l, rfl⟩ : ∃ k, j = k + 1 := ⟨j - 1, by omega⟩
          refine ⟨_, rfl, ⟨i, l, A, by simp, hi, by omega, hA, ?_, ?_⟩, by simp; omega⟩
          · intro p hp; have := hW p hp; omega
          · exact hL i l A c (by omega) (by omega) hc hdir hp hW hR
        | D =>
          obtain ⟨k, rfl⟩ : ∃ k, i = k + 1 := ⟨i - 1, by omega⟩
          obtain ⟨l, rfl⟩ : ∃ k, j = k + 1 := ⟨j - 1, by omega⟩
          refine ⟨_, rfl, ⟨k, l, (k, l) :: A, by simp [emb], by omega, by omega, ?_, ?_, ?_⟩,
            by simp; omega⟩
          · unfold Increasing at *
            rw [List.pairwise_cons]
            exact ⟨fun q hq => by have := hW q hq; omega, hA⟩
          · intro p hp
            rcases List.mem_cons.1 hp with rfl | hp
            · simp; omega
            · have := hW p hp; omega
          · exact hD k l A c (by omega) (by omega) hc hdir hp hW hR
      · left
        refine ⟨by simp [hget, bind, Except.bind, hp], i, j, A, rfl, hi, hj, hA, hW, hR, c, hc, ?_⟩
        linarith)
    fuel { i := b, j := d, alignment := [] }
    ⟨b, d, [], by simp [emb], le_refl _, le_refl _, by simp [Increasing],
      by intro p hp; simp at hp, h0⟩
    (by simp; omega)
  refine ⟨i, j, A, ?_, hi, hj, hA, hW, hR, c, hc, hc0⟩
  simp only [bind, Except.bind] at g1 ⊢
  simp [g1]

theorem F_good (s t : List α) (sim : α → α → ℚ) (gap : α → ℚ) (m : Matrix)
    (hm : Holds s.length t.length (F s t sim gap) m) : GoodM s.length t.length m := by
  intro i j hi hj
  refine ⟨_, hm i j hi hj, F_nonneg s t sim gap i j hi hj, ?_⟩
  intro hp
  have hs := F_step s t sim gap i j hi hj hp
  refine ⟨?_, ?_, ?_⟩
  · rcases Nat.eq_zero_or_pos i with rfl | h
    · cases j <;> simp [F_00, F_0j] at hp
    · exact h
  · rcases Nat.eq_zero_or_pos j with rfl | h
    · cases i <;> simp [F_00, F_i0] at hp
    · exact h
  · intro hT; simp only [hT] at hs

/-- The traceback of the freshly computed matrix gives a local alignment with the score of its start. -/
theorem trace_fresh (s t : List α) (sim : α → α → ℚ) (gap : α → ℚ) (m : Matrix)
    (hm : Holds s.length t.length (F s t sim gap) m) (b d : Nat) (hb : b ≤ s.length)
    (hd : d ≤ t.length) (fuel : Nat) (hf : b + d < fuel) :
    ∃ (a c : Nat) (A : List (Nat × Nat)), traceAlignment fuel m (b, d) = .ok (emb A) ∧
      IsAlignment s t A a b c d ∧ alignScore sim gap s t A a b c d = (F s t sim gap b d).1 := by
  obtain ⟨a, c, A, e1, ha, hc, hI, hW, ⟨hR1, hR2, hR3⟩, e, he, he0⟩ := trace_general s.length t.length m
    (F_good s t sim gap m hm) b d hb hd
    (fun i j A => i ≤ b ∧ j ≤ d ∧
      (F s t sim gap i j).1 + alignScore sim gap s t A i b j d = (F s t sim gap b d).1)
    (by simp [alignScore])
    (by
      rintro i j A c hi hj hc hdir hpos hW ⟨hR1, hR2, hR3⟩
      rw [hm _ _ (by omega) (by omega)] at hc; cases hc
      have hs := F_step s t sim gap (i + 1) j (by omega) (by omega) hpos
      simp only [hdir] at hs
      obtain ⟨k, hk', hk, he⟩ := hs
      have : i = k := by omega
      subst this
      refine ⟨by omega, hR2, ?_⟩
      rw [score_up_front sim gap s t A i b j d hW (by omega) hb]
      linarith)
    (by
      rintro i j A c hi hj hc hdir hpos hW ⟨hR1, hR2, hR3⟩
      rw [hm _ _ (by omega) (by omega)] at hc; cases hc
      have hs := F_step s t sim gap i (j + 1) (by omega) (by omega) hpos
      simp only [hdir] at hs
      obtain ⟨k, hk', hk, he⟩ := hs
      have : j = k := by omega
      subst this
      refine ⟨hR1, by omega, ?_⟩
      rw [score_left_front sim gap s t A i b j d hW (by omega) hd]
      linarith)
    (by
      rintro i j A c hi hj hc hdir hpos hW ⟨hR1, hR2, hR3⟩
      rw [hm _ _ (by omega) (by omega)] at hc; cases hc
      have hs := F_step s t sim gap (i + 1) (j + 1) (by omega) (by omega) hpos
      simp only [hdir] at hs
      obtain ⟨k, l, hk', hl', hk, hl, he⟩ := hs
      have : i = k := by omega
      subst this
      have : j = l := by omega
      subst this
      refine ⟨by omega, by omega, ?_⟩
      rw [score_diag_front sim gap s t A i b j d hW (by omega) (by omega) hb hd]
      linarith)
    fuel hf
  refine ⟨a, c, A, e1, ⟨hI, hW, ha, hb, hc, hd⟩, ?_⟩
  rw [hm a c (by omega) (by omega)] at he; cases he
  have := F_nonneg s t sim gap a c (by omega) (by omega)
  linarith

end Verif.SW
