import Verif.Model.Similar
import Verif.Lemmas.Base
import Mathlib.Data.List.Perm.Basic
import Mathlib.Algebra.BigOperators.Group.List.Basic
import Mathlib.Algebra.Order.BigOperators.Group.List

namespace Verif.Similar
open Verif
set_option linter.unusedSectionVars false

variable {α : Type} [DecidableEq α]

theorem inter_comm (a b : List α) : inter a b = inter b a := Finset.inter_comm _ _

theorem inter_card_le_left (a b : List α) : (inter a b).card ≤ a.length :=
  (Finset.card_le_card Finset.inter_subset_left).trans (List.toFinset_card_le a)

theorem inter_card_le_right (a b : List α) : (inter a b).card ≤ b.length := by
  rw [inter_comm]; exact inter_card_le_left b a

theorem inter_card_zero (a b : List α) : (inter a b).card = 0 ↔ ∀ x ∈ a, x ∉ b := by
  rw [Finset.card_eq_zero, Finset.eq_empty_iff_forall_notMem]
  simp [inter]

theorem inter_card_eq_left (a b : List α) : (inter a b).card = a.length ↔ a.Nodup ∧ ∀ x ∈ a, x ∈ b := by
  have h1 : (inter a b).card ≤ a.toFinset.card := Finset.card_le_card Finset.inter_subset_left
  have h2 := List.toFinset_card_le a
  constructor
  · intro h
    have h3 : a.toFinset.card = a.length := by omega
    have h5 : a.Nodup := by
      rw [List.card_toFinset] at h3
      have := (List.dedup_sublist a).eq_of_length h3
      rw [← this]; exact List.nodup_dedup a
    refine ⟨h5, ?_⟩
    have h4 : inter a b = a.toFinset := Finset.eq_of_subset_of_card_le Finset.inter_subset_left (by omega)
    intro x hx
    have : x ∈ inter a b := by rw [h4]; simpa using hx
    simpa [inter, hx] using this
  · rintro ⟨h3, h4⟩
    have : inter a b = a.toFinset := by
      ext x; simp only [inter, Finset.mem_inter, List.mem_toFinset]
      exact ⟨fun h => h.1, fun h => ⟨h, h4 x h⟩⟩
    rw [this]; exact List.toFinset_card_of_nodup h3

theorem inter_card_eq_right (a b : List α) : (inter a b).card = b.length ↔ b.Nodup ∧ ∀ x ∈ b, x ∈ a := by
  rw [inter_comm]; exact inter_card_eq_left b a

/-- Both are duplicate free, with the same elements. -/
def SameSet (a b : List α) : Prop := ∀ x, x ∈ a ↔ x ∈ b

theorem both_full (a b : List α) :
    ((inter a b).card = a.length ∧ (inter a b).card = b.length) ↔ a.Nodup ∧ b.Nodup ∧ SameSet a b := by
  rw [inter_card_eq_left, inter_card_eq_right]
  constructor
  · rintro ⟨⟨h1, h2⟩, h3, h4⟩; exact ⟨h1, h3, fun x => ⟨h2 x, h4 x⟩⟩
  · rintro ⟨h1, h2, h3⟩; exact ⟨⟨h1, fun x hx => (h3 x).1 hx⟩, h2, fun x hx => (h3 x).2 hx⟩

/-- Common shape of all ratio coefficients. -/
theorem ratio_props (c D : Nat) (h : c ≤ D) :
    let q : ℚ := if (D : ℚ) = 0 then 0 else (c : ℚ) / D
    0 ≤ q ∧ q ≤ 1 ∧ (q = 0 ↔ c = 0) ∧ (q = 1 ↔ D ≠ 0 ∧ c = D) := by
  intro q
  by_cases hD : D = 0
  · have : c = 0 := by omega
    simp [q, hD, this]
  · have hD' : (D : ℚ) ≠ 0 := by exact_mod_cast hD
    have hq : q = (c : ℚ) / D := by simp [q, hD]
    rw [hq]
    refine ⟨by positivity, ?_, ?_, ?_⟩
    · apply div_le_one_of_le₀
      · exact_mod_cast h
      · positivity
    · rw [div_eq_zero_iff]; simp [hD]
    · rw [div_eq_one_iff_eq hD']; simp [hD]

theorem catch_ratio (c D : Nat) : Py.catchZeroDiv 0 (Py.div (c : ℚ) (D : ℚ)) =
    .ok (if (D : ℚ) = 0 then 0 else (c : ℚ) / D) := Py.catch_div _ _

theorem dice_eq (a b : List α) : dice a b =
    Py.catchZeroDiv 0 (Py.div ((2 * (inter a b).card : Nat) : ℚ) ((a.length + b.length : Nat) : ℚ)) := by
  simp [dice]

theorem tanimoto_eq (a b : List α) : tanimoto a b =
    Py.catchZeroDiv 0 (Py.div ((inter a b).card : ℚ)
      ((a.length + b.length - (inter a b).card : Nat) : ℚ)) := by
  have := inter_card_le_left a b
  rw [Nat.cast_sub (by omega)]
  simp [tanimoto]

theorem inter_card_le_union (a b : List α) :
    (inter a b).card ≤ (a.toFinset ∪ b.toFinset).card :=
  Finset.card_le_card (Finset.inter_subset_left.trans Finset.subset_union_left)

theorem inter_card_eq_union (a b : List α) :
    (inter a b).card = (a.toFinset ∪ b.toFinset).card ↔ SameSet a b := by
  constructor
  · intro h
    have : inter a b = a.toFinset ∪ b.toFinset :=
      Finset.eq_of_subset_of_card_le (Finset.inter_subset_left.trans Finset.subset_union_left) (by omega)
    intro x
    have hx := Finset.ext_iff.1 this x
    simp only [inter, Finset.mem_inter, List.mem_toFinset, Finset.mem_union] at hx
    tauto
  · intro h
    congr 1
    ext x
    have := h x
    simp only [inter, Finset.mem_inter, List.mem_toFinset, Finset.mem_union]
    tauto

theorem sqrt_ratio (c m n : Nat) (h1 : c ≤ m) (h2 : c ≤ n) :
    ∃ q, Py.catchZeroDiv 0 (Py.divR (c : ℝ) (Real.sqrt ((m * n : Nat) : ℝ))) = .ok q ∧
      0 ≤ q ∧ q ≤ 1 ∧ (q = 0 ↔ c = 0) ∧ (q = 1 ↔ 0 < m ∧ c = m ∧ c = n) := by
  obtain ⟨q, hq, hz, hnz⟩ := Py.catch_divR (c : ℝ) (Real.sqrt ((m * n : Nat) : ℝ))
  refine ⟨q, hq, ?_⟩
  by_cases h0 : m * n = 0
  · have : q = 0 := hz (by simp [h0])
    rcases Nat.mul_eq_zero.1 h0 with h | h
    · have : c = 0 := by omega
      simp_all
    · have : c = 0 := by omega
      simp_all
      omega
  · have hpos : (0 : ℝ) < Real.sqrt ((m * n : Nat) : ℝ) := by
      apply Real.sqrt_pos.2; exact_mod_cast Nat.pos_of_ne_zero h0
    have := hnz (ne_of_gt hpos)
    subst this
    have hm : 0 < m := Nat.pos_of_ne_zero (fun h => h0 (by simp [h]))
    have hn : 0 < n := Nat.pos_of_ne_zero (fun h => h0 (by simp [h]))
    refine ⟨by positivity, ?_, ?_, ?_⟩
    · rw [div_le_one hpos]
      apply Real.le_sqrt_of_sq_le
      rw [sq]; exact_mod_cast Nat.mul_le_mul h1 h2
    · rw [div_eq_zero_iff, Nat.cast_eq_zero]
      exact ⟨fun h => h.resolve_right (ne_of_gt hpos), Or.inl⟩
    · rw [div_eq_one_iff_eq (ne_of_gt hpos)]
      constructor
      · intro he
        have h5 : (c : ℝ) * c = ((m * n : Nat) : ℝ) := by
          rw [he]; exact Real.mul_self_sqrt (Nat.cast_nonneg _)
        have h6 : c * c = m * n := by exact_mod_cast h5
        refine ⟨hm, ?_, ?_⟩
        · by_contra hne
          have : c < m := by omega
          nlinarith
        · by_contra hne
          have : c < n := by omega
          nlinarith
      · rintro ⟨_, rfl, rfl⟩
        rw [Nat.cast_mul, Real.sqrt_mul_self (Nat.cast_nonneg _)]

/-! ### Generalised versions -/

theorem accumulate_eq (op : Nat → Nat → Nat) (s : List α) (rest : List (List α)) :
    (accumulate op s rest).1 = (rest.map List.length).foldl op s.length ∧
    ∀ x, x ∈ (accumulate op s rest).2 ↔ ∀ l ∈ s :: rest, x ∈ l := by
  unfold accumulate
  suffices H : ∀ (rest : List (List α)) (n : Nat) (F : Finset α),
      (rest.foldl (fun acc seq => (op acc.1 seq.length, acc.2 ∩ seq.toFinset)) (n, F)).1 =
        (rest.map List.length).foldl op n ∧
      ∀ x, x ∈ (rest.foldl (fun acc seq => (op acc.1 seq.length, acc.2 ∩ seq.toFinset)) (n, F)).2 ↔
        x ∈ F ∧ ∀ l ∈ rest, x ∈ l by
    obtain ⟨h1, h2⟩ := H rest s.length s.toFinset
    refine ⟨h1, fun x => ?_⟩
    rw [h2 x]; simp
  intro rest
  induction rest with
  | nil => intro n F; simp
  | cons l rest ih =>
    intro n F
    obtain ⟨h1, h2⟩ := ih (op n l.length) (F ∩ l.toFinset)
    refine ⟨by simpa using h1, fun x => ?_⟩
    simp only [List.foldl_cons]
    rw [h2 x]; simp [and_assoc]

/-- Elements common to all sequences of a non-empty list. -/
def common : List (List α) → Finset α
  | [] => ∅
  | s :: rest => s.toFinset.filter fun x => ∀ l ∈ rest, x ∈ l

theorem mem_common {ls : List (List α)} (h : ls ≠ []) (x : α) : x ∈ common ls ↔ ∀ l ∈ ls, x ∈ l := by
  cases ls with
  | nil => exact absurd rfl h
  | cons s rest => simp [common]

theorem accumulate_common (op : Nat → Nat → Nat) (s : List α) (rest : List (List α)) :
    (accumulate op s rest).2 = common (s :: rest) := by
  ext x
  rw [(accumulate_eq op s rest).2, mem_common (by simp)]

theorem common_perm {l l' : List (List α)} (h : l.Perm l') : common l = common l' := by
  by_cases h0 : l = []
  · subst h0; rw [List.nil_perm.1 h]
  · have h1 : l' ≠ [] := by rintro rfl; exact h0 (List.perm_nil.1 h)
    ext x
    rw [mem_common h0, mem_common h1]
    exact ⟨fun hx y hy => hx y (h.mem_iff.2 hy), fun hx y hy => hx y (h.mem_iff.1 hy)⟩

theorem common_card_le {ls : List (List α)} (h : ls ≠ []) : ∀ l ∈ ls, (common ls).card ≤ l.length := by
  intro l hl
  refine le_trans (Finset.card_le_card ?_) (List.toFinset_card_le l)
  intro x hx
  rw [mem_common h] at hx
  simpa using hx l hl

theorem genDice_eq (ls : List (List α)) : genDice ls =
    Py.catchZeroDiv 0 (Py.div ((ls.length * (common ls).card : Nat) : ℚ)
      ((ls.map List.length).sum : ℚ)) := by
  cases ls with
  | nil => simp [genDice, Py.catch_div]
  | cons s rest =>
    simp only [genDice, accumulate_common, (accumulate_eq (· + ·) s rest).1]
    have : ∀ (l : List Nat) (n : Nat), l.foldl (· + ·) n = n + l.sum := by
      intro l; induction l with
      | nil => simp
      | cons a l ih => intro n; simp [ih, Nat.add_assoc]
    rw [this]
    simp

theorem sum_ge_mul (n : Nat) : ∀ l : List Nat, (∀ x ∈ l, n ≤ x) → l.length * n ≤ l.sum := by
  intro l
  induction l with
  | nil => simp
  | cons a l ih =>
    intro h
    have h1 := h a (by simp)
    have h2 := ih (fun x hx => h x (by simp [hx]))
    simp only [List.length_cons, List.sum_cons, Nat.succ_mul]; omega

theorem genCosine_eq (ls : List (List α)) (h : ls ≠ []) : genCosine ls =
    Py.catchZeroDiv 0 (Py.divR ((common ls).card : ℝ)
      (Real.sqrt (((ls.map List.length).prod : Nat) : ℝ))) := by
  cases ls with
  | nil => exact absurd rfl h
  | cons s rest =>
    simp only [genCosine, accumulate_common, (accumulate_eq (· * ·) s rest).1]
    have : ∀ (l : List Nat) (n : Nat), l.foldl (· * ·) n = n * l.prod := by
      intro l; induction l with
      | nil => simp
      | cons a l ih => intro n; simp [ih, Nat.mul_assoc]
    rw [this]
    simp

theorem prod_ge (n : Nat) (hn : 0 < n) : ∀ l : List Nat, (∀ x ∈ l, n ≤ x) → 0 < l.prod := by
  intro l
  induction l with
  | nil => simp
  | cons a l ih =>
    intro h
    have h1 := h a (by simp)
    have h2 := ih (fun x hx => h x (by simp [hx]))
    simp only [List.prod_cons]
    exact Nat.mul_pos (by omega) h2

/-- Elements occurring in some sequence. -/
def allElems (ls : List (List α)) : Finset α := ls.flatten.toFinset

theorem mem_allElems (ls : List (List α)) (x : α) : x ∈ allElems ls ↔ ∃ l ∈ ls, x ∈ l := by
  simp [allElems]

theorem genJaccard_eq (ls : List (List α)) : genJaccard ls =
    Py.catchZeroDiv 0 (Py.div ((common ls).card : ℚ) ((allElems ls).card : ℚ)) := by
  cases ls with
  | nil => simp [genJaccard, Py.catch_div, allElems]
  | cons s rest =>
    simp only [genJaccard]
    suffices H : ∀ (rest : List (List α)) (U F : Finset α),
        (∀ x, x ∈ (rest.foldl (fun (acc : Finset α × Finset α) seq =>
          (acc.1 ∪ seq.toFinset, acc.2 ∩ seq.toFinset)) (U, F)).1 ↔ x ∈ U ∨ ∃ l ∈ rest, x ∈ l) ∧
        (∀ x, x ∈ (rest.foldl (fun (acc : Finset α × Finset α) seq =>
          (acc.1 ∪ seq.toFinset, acc.2 ∩ seq.toFinset)) (U, F)).2 ↔ x ∈ F ∧ ∀ l ∈ rest, x ∈ l) by
      obtain ⟨h1, h2⟩ := H rest s.toFinset s.toFinset
      have e1 : (rest.foldl (fun (acc : Finset α × Finset α) seq =>
          (acc.1 ∪ seq.toFinset, acc.2 ∩ seq.toFinset)) (s.toFinset, s.toFinset)).1 =
          allElems (s :: rest) := by
        ext x; rw [h1, mem_allElems]; simp
      have e2 : (rest.foldl (fun (acc : Finset α × Finset α) seq =>
          (acc.1 ∪ seq.toFinset, acc.2 ∩ seq.toFinset)) (s.toFinset, s.toFinset)).2 =
          common (s :: rest) := by
        ext x; rw [h2, mem_common (by simp)]; simp
      rw [e1, e2]
    intro rest
    induction rest with
    | nil => intro U F; simp
    | cons l rest ih =>
      intro U F
      obtain ⟨h1, h2⟩ := ih (U ∪ l.toFinset) (F ∩ l.toFinset)
      refine ⟨fun x => ?_, fun x => ?_⟩
      · simp only [List.foldl_cons]; rw [h1 x]; simp [or_assoc]
      · simp only [List.foldl_cons]; rw [h2 x]; simp [and_assoc]

theorem common_subset_all (ls : List (List α)) : common ls ⊆ allElems ls := by
  cases ls with
  | nil => simp [common]
  | cons s rest =>
    intro x hx
    rw [mem_common (by simp)] at hx
    rw [mem_allElems]
    exact ⟨s, by simp, hx s (by simp)⟩

theorem allElems_perm {l l' : List (List α)} (h : l.Perm l') : allElems l = allElems l' := by
  ext x
  rw [mem_allElems, mem_allElems]
  exact ⟨fun ⟨y, hy, hx⟩ => ⟨y, h.mem_iff.1 hy, hx⟩, fun ⟨y, hy, hx⟩ => ⟨y, h.mem_iff.2 hy, hx⟩⟩

theorem common_two (a b : List α) : common [a, b] = inter a b := by
  ext x; rw [mem_common (by simp)]; simp [inter]

end Verif.Similar
