import Verif.Model.Levenshtein
import Verif.Spec.EditScript
import Verif.Lemmas.Base

namespace Verif.Levenshtein
open Verif Verif.Spec
set_option linter.unusedSectionVars false

variable {α : Type} [DecidableEq α]

/-- Recursive edit distance on cons lists (auxiliary). -/
def lev : List α → List α → Nat
  | [], t => t.length
  | s, [] => s.length
  | a :: s, b :: t =>
    min (min (lev s (b :: t) + 1) (lev (a :: s) t + 1)) (lev s t + if a ≠ b then 1 else 0)
termination_by s t => s.length + t.length

@[simp] theorem lev_nil_left (t : List α) : lev [] t = t.length := by simp [lev]
@[simp] theorem lev_nil_right (s : List α) : lev s [] = s.length := by cases s <;> simp [lev]
theorem lev_cons (a b : α) (s t : List α) : lev (a :: s) (b :: t) =
    min (min (lev s (b :: t) + 1) (lev (a :: s) t + 1)) (lev s t + if a ≠ b then 1 else 0) := by
  rw [lev]

theorem lev_self (s : List α) : lev s s = 0 := by
  induction s with
  | nil => simp
  | cons a s ih => simp [lev_cons, ih]

theorem lev_cons_right_le (s : List α) (b : α) (t : List α) : lev s (b :: t) ≤ lev s t + 1 := by
  cases s with
  | nil => simp
  | cons a s => rw [lev_cons]; omega

theorem lev_cons_left_le (s : List α) (a : α) (t : List α) : lev (a :: s) t ≤ lev s t + 1 := by
  cases t with
  | nil => simp
  | cons b t => rw [lev_cons]; omega

theorem lev_le_cons_both (s t : List α) : (∀ a, lev s t ≤ lev (a :: s) t + 1) ∧
    (∀ b, lev s t ≤ lev s (b :: t) + 1) := by
  induction s generalizing t with
  | nil =>
    constructor
    · intro a
      induction t with
      | nil => simp
      | cons b t ih =>
        rw [lev_cons]; simp at *; omega
    · intro b; simp; omega
  | cons x s ihs =>
    induction t with
    | nil =>
      constructor
      · intro a; simp
      · intro b
        rw [lev_cons]
        have := (ihs []).2 b
        simp at *
        omega
    | cons y t iht =>
      constructor
      · intro a
        rw [lev_cons a y (x :: s) t]
        have h1 := iht.1 a
        have h2 := lev_cons_right_le (x :: s) y t
        split <;> omega
      · intro b
        rw [lev_cons x b s (y :: t)]
        have h1 := (ihs (y :: t)).2 b
        have h2 := lev_cons_left_le s x (y :: t)
        split <;> omega

theorem lev_le_cons_right (s t : List α) (b : α) : lev s t ≤ lev s (b :: t) + 1 :=
  (lev_le_cons_both s t).2 b

theorem lev_replace_head (s t : List α) (b c : α) : lev s (b :: t) ≤ lev s (c :: t) + 1 := by
  induction s with
  | nil => simp
  | cons a s ih =>
    rw [lev_cons a b, lev_cons a c]
    split <;> split <;> omega

/-- Lipschitz property is stable under a common first element. -/
theorem lev_lift {t u : List α} (h : ∀ s : List α, lev s u ≤ lev s t + 1) (x : α) :
    ∀ s : List α, lev s (x :: u) ≤ lev s (x :: t) + 1 := by
  intro s
  induction s with
  | nil => have := h []; simp at *; omega
  | cons a s ih =>
    rw [lev_cons, lev_cons]
    have h1 := h (a :: s)
    have h2 := h s
    omega

theorem lev_step {t u : List α} (h : EditStep t u) : ∀ s : List α, lev s u ≤ lev s t + 1 := by
  cases h with
  | insert pre suf x =>
    induction pre with
    | nil => intro s; exact lev_cons_right_le s x suf
    | cons y pre ih => exact lev_lift ih y
  | delete pre suf x =>
    induction pre with
    | nil => intro s; exact lev_le_cons_right s suf x
    | cons y pre ih => exact lev_lift ih y
  | replace pre suf x z =>
    induction pre with
    | nil => intro s; exact lev_replace_head s suf z x
    | cons y pre ih => exact lev_lift ih y

theorem lev_le_chain {k : Nat} {s t : List α} (h : EditChain k s t) : lev s t ≤ k := by
  induction h with
  | refl s => simp [lev_self]
  | @step k s t u _ hs ih => have := lev_step hs s; omega

theorem EditStep.symm' {s t : List α} (h : EditStep s t) : EditStep t s := by
  cases h with
  | insert pre suf x => exact .delete pre suf x
  | delete pre suf x => exact .insert pre suf x
  | replace pre suf x y => exact .replace pre suf y x

theorem EditChain.trans' {k l : Nat} {s t u : List α} (h1 : EditChain k s t) (h2 : EditChain l t u) :
    EditChain (k + l) s u := by
  induction h2 with
  | refl => exact h1
  | step _ hs ih => exact .step (ih h1) hs

theorem EditChain.symm' {k : Nat} {s t : List α} (h : EditChain k s t) : EditChain k t s := by
  induction h with
  | refl s => exact .refl s
  | @step k s t u _ hs ih =>
    have : EditChain 1 u t := .step (.refl u) (EditStep.symm' hs)
    have := EditChain.trans' this ih
    rwa [Nat.add_comm] at this

theorem EditStep.cons' {s t : List α} (x : α) (h : EditStep s t) : EditStep (x :: s) (x :: t) := by
  cases h with
  | insert pre suf y => exact .insert (x :: pre) suf y
  | delete pre suf y => exact .delete (x :: pre) suf y
  | replace pre suf y z => exact .replace (x :: pre) suf y z

theorem EditChain.cons' {k : Nat} {s t : List α} (x : α) (h : EditChain k s t) :
    EditChain k (x :: s) (x :: t) := by
  induction h with
  | refl s => exact .refl _
  | step _ hs ih => exact .step ih (EditStep.cons' x hs)

theorem chain_lev (s t : List α) : EditChain (lev s t) s t := by
  match s, t with
  | [], [] => simp; exact .refl _
  | [], b :: t =>
    have h := chain_lev [] t
    simp at *
    exact .step h (.insert [] t b)
  | a :: s, [] =>
    have h := chain_lev s []
    simp at *
    have h1 : EditChain 1 (a :: s) s := .step (.refl _) (.delete [] s a)
    have := EditChain.trans' h1 h
    rwa [Nat.add_comm] at this
  | a :: s, b :: t =>
    have h1 := chain_lev s (b :: t)
    have h2 := chain_lev (a :: s) t
    have h3 := chain_lev s t
    rw [lev_cons]
    rcases min_choice (min (lev s (b :: t) + 1) (lev (a :: s) t + 1)) (lev s t + if a ≠ b then 1 else 0)
      with e | e <;> rw [e]
    · rcases min_choice (lev s (b :: t) + 1) (lev (a :: s) t + 1) with e | e <;> rw [e]
      · have h4 : EditChain 1 (a :: s) s := .step (.refl _) (.delete [] s a)
        have := EditChain.trans' h4 h1
        rwa [Nat.add_comm] at this
      · exact .step h2 (.insert [] t b)
    · by_cases hab : a = b
      · subst hab; simpa using EditChain.cons' a h3
      · simp only [ne_eq, hab, not_false_eq_true, if_true]
        exact .step (EditChain.cons' a h3) (.replace [] t a b)
termination_by s.length + t.length

theorem lev_isEditDistance (s t : List α) : IsEditDistance s t (lev s t) :=
  ⟨chain_lev s t, fun _ h => lev_le_chain h⟩

theorem EditStep.reverse' {s t : List α} (h : EditStep s t) : EditStep s.reverse t.reverse := by
  cases h with
  | insert pre suf x => simpa using EditStep.insert suf.reverse pre.reverse x
  | delete pre suf x => simpa using EditStep.delete suf.reverse pre.reverse x
  | replace pre suf x y => simpa using EditStep.replace suf.reverse pre.reverse x y

theorem EditChain.reverse' {k : Nat} {s t : List α} (h : EditChain k s t) :
    EditChain k s.reverse t.reverse := by
  induction h with
  | refl s => exact .refl _
  | step _ hs ih => exact .step ih (EditStep.reverse' hs)

theorem IsEditDistance.unique {s t : List α} {d e : Nat} (h1 : IsEditDistance s t d)
    (h2 : IsEditDistance s t e) : d = e :=
  Nat.le_antisymm (h1.2 _ h2.1) (h2.2 _ h1.1)

theorem lev_reverse (s t : List α) : lev s.reverse t.reverse = lev s t := by
  apply Nat.le_antisymm
  · exact lev_le_chain (EditChain.reverse' (chain_lev s t))
  · have := lev_le_chain (EditChain.reverse' (chain_lev s.reverse t.reverse))
    simpa using this

theorem lev_comm (s t : List α) : lev s t = lev t s :=
  Nat.le_antisymm (lev_le_chain (EditChain.symm' (chain_lev t s)))
    (lev_le_chain (EditChain.symm' (chain_lev s t)))

/-- Distance between prefixes. -/
def pd (s1 s2 : List α) (i j : Nat) : Nat := lev (s1.take j).reverse (s2.take i).reverse

theorem pd_zero_left (s1 s2 : List α) (j : Nat) (h : j ≤ s1.length) : pd s1 s2 0 j = j := by
  simp [pd, h]

theorem pd_zero_right (s1 s2 : List α) (i : Nat) (h : i ≤ s2.length) : pd s1 s2 i 0 = i := by
  simp [pd, h]

theorem take_reverse_succ (s : List α) (j : Nat) (h : j < s.length) :
    (s.take (j + 1)).reverse = s[j] :: (s.take j).reverse := by
  rw [List.take_succ_eq_append_getElem h]; simp

theorem pd_succ (s1 s2 : List α) (i j : Nat) (hi : i < s2.length) (hj : j < s1.length) :
    pd s1 s2 (i + 1) (j + 1) =
      min (min (pd s1 s2 i (j + 1) + 1) (pd s1 s2 (i + 1) j + 1))
        (if s1[j] ≠ s2[i] then pd s1 s2 i j + 1 else pd s1 s2 i j) := by
  unfold pd
  rw [take_reverse_succ s1 j hj, take_reverse_succ s2 i hi, lev_cons, min_comm (lev _ _ + 1)]
  congr 1
  split <;> rfl

/-- What one row of the table holds. -/
def RowOk (s1 s2 : List α) (i : Nat) (row : List Nat) : Prop :=
  row.length = s1.length + 1 ∧ ∀ j, j ≤ s1.length → row[j]? = some (pd s1 s2 i j)

theorem row_ok (s1 s2 : List α) (i : Nat) (hi : 1 ≤ i) (hi' : i < s2.length + 1) (cur : List Nat)
    (h : RowOk s1 s2 (i - 1) cur) :
    ∃ r, row s1 s2 s1.length i cur = .ok r ∧ RowOk s1 s2 i r := by
  obtain ⟨i, rfl⟩ : ∃ k, i = k + 1 := ⟨i - 1, by omega⟩
  simp only [Nat.add_sub_cancel] at h
  unfold row
  let P : Nat → List Nat → Prop := fun k r =>
    r.length = s1.length + 1 ∧ ∀ j, j < k → r[j]? = some (pd s1 s2 (i + 1) j)
  have := Py.forRange_inv (f := cell s1 s2 (i + 1) cur) P (a := 1) (b := s1.length + 1)
    (s := (i + 1) :: List.replicate s1.length 0) (by omega)
    (by
      refine ⟨by simp, ?_⟩
      intro j hj
      have : j = 0 := by omega
      subst this
      simp [pd_zero_right s1 s2 (i + 1) (by omega)])
    (by
      intro j r hj hj' ⟨hl, hr⟩
      obtain ⟨j, rfl⟩ : ∃ k, j = k + 1 := ⟨j - 1, by omega⟩
      have e1 := Py.get_eq_ok_iff.2 (h.2 (j + 1) (by omega))
      have e2 := Py.get_eq_ok_iff.2 (hr j (by omega))
      have e3 := Py.get_eq_ok_iff.2 (h.2 j (by omega))
      have hj1 : j < s1.length := by omega
      have hi1 : i < s2.length := by omega
      refine ⟨r.set (j + 1) (pd s1 s2 (i + 1) (j + 1)), ?_, ?_⟩
      · rw [pd_succ s1 s2 i j hi1 hj1]
        simp only [cell, Nat.add_sub_cancel, e1, e2, e3, Py.get_ok hj1, Py.get_ok hi1, bind,
          Except.bind]
        exact Py.set_ok (by omega)
      · refine ⟨by simp [hl], ?_⟩
        intro k hk
        by_cases hkj : k = j + 1
        · subst hkj; rw [List.getElem?_set_self (by omega)]
        · rw [List.getElem?_set_ne (by omega)]; exact hr k (by omega))
  obtain ⟨r, h1, h2, h3⟩ := this
  exact ⟨r, h1, h2, fun j hj => h3 j (by omega)⟩

theorem table_eq (s1 s2 : List α) : table s1 s2 = .ok (lev s1 s2) := by
  unfold table
  have := Py.forRange_inv (f := row s1 s2 s1.length) (fun i r => RowOk s1 s2 (i - 1) r)
    (a := 1) (b := s2.length + 1) (s := List.range (s1.length + 1)) (by omega)
    (by
      refine ⟨by simp, ?_⟩
      intro j hj
      simp only [Nat.sub_self]
      rw [pd_zero_left _ _ _ hj, List.getElem?_range (by omega)])
    (by
      intro i r hi hi' hr
      simpa using row_ok s1 s2 i hi hi' r hr)
  obtain ⟨r, h1, h2, h3⟩ := this
  have := h3 s1.length (by omega)
  simp only [pd, Nat.add_sub_cancel, List.take_length, lev_reverse] at this
  simp only [h1, bind, Except.bind]
  exact Py.get_eq_ok_iff.2 this

theorem levenshtein_eq (s1 s2 : List α) : levenshtein s1 s2 = .ok (lev s1 s2) := by
  unfold levenshtein
  split
  · rw [table_eq, lev_comm]
  · exact table_eq _ _

theorem chain_length {k : Nat} {s t : List α} (h : EditChain k s t) :
    s.length ≤ t.length + k ∧ t.length ≤ s.length + k := by
  induction h with
  | refl => simp
  | step _ hs ih => cases hs <;> simp at * <;> omega

theorem lev_ge (s t : List α) : s.length ≤ t.length + lev s t ∧ t.length ≤ s.length + lev s t :=
  chain_length (chain_lev s t)

theorem lev_le_max (s t : List α) : lev s t ≤ max s.length t.length := by
  match s, t with
  | [], t => simp
  | a :: s, [] => simp
  | a :: s, b :: t =>
    have := lev_le_max s t
    rw [lev_cons]
    simp
    split <;> omega
termination_by s.length

theorem lev_eq_zero {s t : List α} : lev s t = 0 ↔ s = t := by
  constructor
  · intro h
    have := chain_lev s t
    rw [h] at this
    cases this; rfl
  · rintro rfl; exact lev_self s

end Verif.Levenshtein
