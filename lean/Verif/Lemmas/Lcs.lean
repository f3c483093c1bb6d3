import Verif.Model.Lcs
import Verif.Spec.Subsequence
import Verif.Lemmas.Base

namespace Verif.Lcs
open Verif Verif.Spec
set_option linter.unusedSectionVars false

variable {α : Type} [DecidableEq α]

/-- Recursive length of the longest common subsequence (auxiliary). -/
def ll : List α → List α → Nat
  | [], _ => 0
  | _ :: _, [] => 0
  | a :: s, b :: t => if a = b then ll s t + 1 else max (ll s (b :: t)) (ll (a :: s) t)
termination_by s t => s.length + t.length

@[simp] theorem ll_nil_left (t : List α) : ll [] t = 0 := by simp [ll]
@[simp] theorem ll_nil_right (s : List α) : ll s [] = 0 := by cases s <;> simp [ll]
theorem ll_cons (a b : α) (s t : List α) : ll (a :: s) (b :: t) =
    if a = b then ll s t + 1 else max (ll s (b :: t)) (ll (a :: s) t) := by rw [ll]

theorem ll_exists (s t : List α) : ∃ c, IsCommonSubseq s t c ∧ c.length = ll s t := by
  match s, t with
  | [], t => exact ⟨[], by simp [IsCommonSubseq]⟩
  | a :: s, [] => exact ⟨[], by simp [IsCommonSubseq]⟩
  | a :: s, b :: t =>
    rw [ll_cons]
    split
    · rename_i h; subst h
      obtain ⟨c, ⟨h1, h2⟩, h3⟩ := ll_exists s t
      exact ⟨a :: c, ⟨by simpa using h1, by simpa using h2⟩, by simp [h3]⟩
    · rcases max_choice (ll s (b :: t)) (ll (a :: s) t) with h | h <;> rw [h]
      · obtain ⟨c, ⟨h1, h2⟩, h3⟩ := ll_exists s (b :: t)
        exact ⟨c, ⟨.cons _ h1, h2⟩, h3⟩
      · obtain ⟨c, ⟨h1, h2⟩, h3⟩ := ll_exists (a :: s) t
        exact ⟨c, ⟨h1, .cons _ h2⟩, h3⟩
termination_by s.length + t.length

theorem le_ll {s t c : List α} (h : IsCommonSubseq s t c) : c.length ≤ ll s t := by
  match s, t, c with
  | _, _, [] => simp
  | [], _, _ :: _ => have := h.1; simp at this
  | _ :: _, [], _ :: _ => have := h.2; simp at this
  | a :: s, b :: t, x :: c =>
    rw [ll_cons]
    split
    · rename_i hab
      subst hab
      have h1 : c.Sublist s := by
        have := h.1.tail; simpa using this
      have h2 : c.Sublist t := by
        have := h.2.tail; simpa using this
      have := le_ll (s := s) (t := t) (c := c) ⟨h1, h2⟩
      simp; omega
    · rename_i hab
      by_cases hx : x = a
      · subst hx
        have h2 : (x :: c).Sublist t := by
          cases h.2 with
          | cons _ h => exact h
          | cons_cons => exact absurd rfl hab
        have := le_ll (s := x :: s) (t := t) (c := x :: c) ⟨h.1, h2⟩
        omega
      · have h1 : (x :: c).Sublist s := by
          cases h.1 with
          | cons _ h => exact h
          | cons_cons => exact absurd rfl hx
        have := le_ll (s := s) (t := b :: t) (c := x :: c) ⟨h1, h.2⟩
        omega
termination_by s.length + t.length

theorem ll_mono {s s' t t' : List α} (h1 : s.Sublist s') (h2 : t.Sublist t') : ll s t ≤ ll s' t' := by
  obtain ⟨c, ⟨a, b⟩, e⟩ := ll_exists s t
  rw [← e]
  exact le_ll ⟨a.trans h1, b.trans h2⟩

theorem ll_comm (s t : List α) : ll s t = ll t s := by
  apply Nat.le_antisymm
  · obtain ⟨c, ⟨a, b⟩, e⟩ := ll_exists s t; rw [← e]; exact le_ll ⟨b, a⟩
  · obtain ⟨c, ⟨a, b⟩, e⟩ := ll_exists t s; rw [← e]; exact le_ll ⟨b, a⟩

/-- LCS length of prefixes. -/
def pl (s1 s2 : List α) (i j : Nat) : Nat := ll (s1.take i).reverse (s2.take j).reverse

theorem take_reverse_succ (s : List α) (j : Nat) (h : j < s.length) :
    (s.take (j + 1)).reverse = s[j] :: (s.take j).reverse := by
  rw [List.take_succ_eq_append_getElem h]; simp

@[simp] theorem pl_zero_left (s1 s2 : List α) (j : Nat) : pl s1 s2 0 j = 0 := by simp [pl]
@[simp] theorem pl_zero_right (s1 s2 : List α) (i : Nat) : pl s1 s2 i 0 = 0 := by simp [pl]

theorem pl_succ (s1 s2 : List α) (i j : Nat) (hi : i < s1.length) (hj : j < s2.length) :
    pl s1 s2 (i + 1) (j + 1) = if s1[i] = s2[j] then pl s1 s2 i j + 1
      else max (pl s1 s2 i (j + 1)) (pl s1 s2 (i + 1) j) := by
  unfold pl
  rw [take_reverse_succ s1 i hi, take_reverse_succ s2 j hj, ll_cons]

theorem pl_mono (s1 s2 : List α) {i i' j j' : Nat} (hi : i ≤ i') (hj : j ≤ j') :
    pl s1 s2 i j ≤ pl s1 s2 i' j' := by
  unfold pl
  apply ll_mono
  · exact List.reverse_sublist.2 ((List.take_prefix_take_left hi).sublist)
  · exact List.reverse_sublist.2 ((List.take_prefix_take_left hj).sublist)

theorem pl_full (s1 s2 : List α) {c : List α} (h : IsCommonSubseq s1 s2 c) :
    c.length ≤ pl s1 s2 s1.length s2.length := by
  have : c.reverse.length ≤ pl s1 s2 s1.length s2.length := by
    unfold pl
    apply le_ll
    simp only [List.take_length]
    exact ⟨List.reverse_sublist.2 h.1, List.reverse_sublist.2 h.2⟩
  simpa using this

/-- The filled table. -/
def TableOk (s1 s2 : List α) (t : Table) : Prop :=
  ∀ i j : Nat, i ≤ s1.length → j ≤ s2.length → t (i, j) = some (pl s1 s2 i j)

/-- Cells filled so far: all rows before `i`, and in row `i` the columns before `j`. -/
def Filled (s1 s2 : List α) (i j : Nat) (t : Table) : Prop :=
  ∀ i' j' : Nat, i' ≤ s1.length → j' ≤ s2.length → (i' < i ∨ (i' = i ∧ j' < j)) →
    t (i', j') = some (pl s1 s2 i' j')

theorem fillCell_ok (s1 s2 : List α) (i j : Nat) (hi : i ≤ s1.length) (hj : j ≤ s2.length) (t : Table)
    (h : Filled s1 s2 i j t) :
    ∃ t', fillCell s1 s2 i j t = .ok t' ∧ Filled s1 s2 i (j + 1) t' := by
  have key : Filled s1 s2 i (j + 1) (t.set (i, j) (pl s1 s2 i j)) := by
    intro i' j' hi' hj' hlt
    by_cases he : i' = i ∧ j' = j
    · obtain ⟨rfl, rfl⟩ := he; simp
    · rw [Py.Dict.set_ne]
      · exact h i' j' hi' hj' (by omega)
      · intro e; simp only [Prod.mk.injEq, Int.natCast_inj] at e; exact he e
  unfold fillCell
  split
  · refine ⟨_, rfl, ?_⟩
    have : pl s1 s2 i j = 0 := by
      rename_i h0; rcases h0 with rfl | rfl <;> simp
    rwa [this] at key
  · obtain ⟨i, rfl⟩ : ∃ k, i = k + 1 := ⟨i - 1, by omega⟩
    obtain ⟨j, rfl⟩ : ∃ k, j = k + 1 := ⟨j - 1, by omega⟩
    have hi1 : i < s1.length := by omega
    have hj1 : j < s2.length := by omega
    have e1 := h i j (by omega) (by omega) (by omega)
    have e2 := h i (j + 1) (by omega) (by omega) (by omega)
    have e3 := h (i + 1) j (by omega) (by omega) (by omega)
    have c1 : ((i + 1 : Nat) : Int) - 1 = (i : Int) := by omega
    have c2 : ((j + 1 : Nat) : Int) - 1 = (j : Int) := by omega
    rw [pl_succ s1 s2 i j hi1 hj1] at key
    simp only [Nat.add_sub_cancel, Py.get_ok hi1, Py.get_ok hj1, bind, Except.bind, c1, c2,
      Py.Dict.get_eq e1, Py.Dict.get_eq e2, Py.Dict.get_eq e3]
    split
    · rename_i hx; rw [if_pos hx] at key; exact ⟨_, rfl, key⟩
    · rename_i hx; rw [if_neg hx] at key; exact ⟨_, rfl, key⟩

theorem fill_ok (s1 s2 : List α) : ∃ t, fill s1 s2 = .ok t ∧ TableOk s1 s2 t := by
  unfold fill
  obtain ⟨t, h1, h2⟩ := Py.forRange_inv
    (f := fun i t => Py.forRange 0 (s2.length + 1) t fun j t => fillCell s1 s2 i j t)
    (fun i t => Filled s1 s2 i 0 t) (a := 0) (b := s1.length + 1) (s := Py.Dict.empty) (by omega)
    (by intro i' j' _ _ h; omega)
    (by
      intro i t _ hi h
      obtain ⟨t', h1, h2⟩ := Py.forRange_inv (f := fun j t => fillCell s1 s2 i j t)
        (fun j t => Filled s1 s2 i j t) (a := 0) (b := s2.length + 1) (s := t) (by omega) h
        (by intro j t _ hj h; exact fillCell_ok s1 s2 i j (by omega) (by omega) t h)
      refine ⟨t', h1, ?_⟩
      intro i' j' hi' hj' hlt
      exact h2 i' j' hi' hj' (by omega))
  exact ⟨t, h1, fun i j hi hj => h2 i j hi hj (by omega)⟩

/-- Invariant of the traceback. -/
def TBInv (s1 s2 : List α) (s : TB α) : Prop :=
  ∃ i j : Nat, s.i = i ∧ s.j = j ∧ i ≤ s1.length ∧ j ≤ s2.length ∧
    s.out.length + pl s1 s2 i j = pl s1 s2 s1.length s2.length ∧
    s.out.reverse.Sublist (s1.drop i) ∧ s.out.reverse.Sublist (s2.drop j)

theorem goUp_ok (s1 s2 : List α) (t : Table) (ht : TableOk s1 s2 t) (fuel : Nat)
    (hf : s1.length < fuel) (i j : Nat) (out : List α) (hi : i ≤ s1.length) (hj : j ≤ s2.length)
    (hpos : 0 < pl s1 s2 i j) :
    ∃ i' : Nat, goUp t fuel { i := i, j := j, out := out } = .ok { i := i', j := j, out := out } ∧
      0 < i' ∧ i' ≤ i ∧ pl s1 s2 i' j = pl s1 s2 i j ∧ pl s1 s2 (i' - 1) j < pl s1 s2 i' j := by
  obtain ⟨s', h1, h2⟩ := Py.whileLoop_inv
    (cond := fun s : TB α => do
      let v ← t.get (s.i, s.j)
      let u ← t.get (s.i - 1, s.j)
      .ok (decide (v = u)))
    (body := fun s : TB α => .ok { s with i := s.i - 1 })
    (fun s => ∃ k : Nat, s = { i := k, j := j, out := out } ∧ k ≤ i ∧ pl s1 s2 k j = pl s1 s2 i j)
    (fun s => s.i.toNat)
    (fun s => ∃ k : Nat, s = { i := k, j := j, out := out } ∧ 0 < k ∧ k ≤ i ∧
      pl s1 s2 k j = pl s1 s2 i j ∧ pl s1 s2 (k - 1) j < pl s1 s2 k j)
    (by
      rintro _ ⟨k, rfl, hk, hp⟩
      have hk0 : k ≠ 0 := by rintro rfl; simp at hp; omega
      obtain ⟨k, rfl⟩ : ∃ m, k = m + 1 := ⟨k - 1, by omega⟩
      have e1 := ht (k + 1) j (by omega) hj
      have e2 := ht k j (by omega) hj
      have c1 : ((k + 1 : Nat) : Int) - 1 = (k : Int) := by omega
      simp only [c1, Py.Dict.get_eq e1, Py.Dict.get_eq e2, bind, Except.bind]
      by_cases he : pl s1 s2 (k + 1) j = pl s1 s2 k j
      · right
        refine ⟨by simp [he], _, rfl, ⟨k, rfl, by omega, by omega⟩, by simp⟩
      · left
        have := pl_mono s1 s2 (Nat.le_succ k) (Nat.le_refl j)
        refine ⟨by simp [he], k + 1, rfl, by omega, hk, hp, ?_⟩
        simp only [Nat.add_sub_cancel]
        simp only [Nat.succ_eq_add_one] at this
        omega)
    fuel { i := i, j := j, out := out } ⟨i, rfl, le_refl _, rfl⟩ (by simp; omega)
  obtain ⟨k, rfl, h3, h4, h5, h6⟩ := h2
  exact ⟨k, h1, h3, h4, h5, h6⟩

theorem goLeft_ok (s1 s2 : List α) (t : Table) (ht : TableOk s1 s2 t) (fuel : Nat)
    (hf : s2.length < fuel) (i j : Nat) (out : List α) (hi : i ≤ s1.length) (hj : j ≤ s2.length)
    (hpos : 0 < pl s1 s2 i j) :
    ∃ j' : Nat, goLeft t fuel { i := i, j := j, out := out } = .ok { i := i, j := j', out := out } ∧
      0 < j' ∧ j' ≤ j ∧ pl s1 s2 i j' = pl s1 s2 i j ∧ pl s1 s2 i (j' - 1) < pl s1 s2 i j' := by
  obtain ⟨s', h1, h2⟩ := Py.whileLoop_inv
    (cond := fun s : TB α => do
      let v ← t.get (s.i, s.j)
      let u ← t.get (s.i, s.j - 1)
      .ok (decide (v = u)))
    (body := fun s : TB α => .ok { s with j := s.j - 1 })
    (fun s => ∃ k : Nat, s = { i := i, j := k, out := out } ∧ k ≤ j ∧ pl s1 s2 i k = pl s1 s2 i j)
    (fun s => s.j.toNat)
    (fun s => ∃ k : Nat, s = { i := i, j := k, out := out } ∧ 0 < k ∧ k ≤ j ∧
      pl s1 s2 i k = pl s1 s2 i j ∧ pl s1 s2 i (k - 1) < pl s1 s2 i k)
    (by
      rintro _ ⟨k, rfl, hk, hp⟩
      have hk0 : k ≠ 0 := by rintro rfl; simp at hp; omega
      obtain ⟨k, rfl⟩ : ∃ m, k = m + 1 := ⟨k - 1, by omega⟩
      have e1 := ht i (k + 1) hi (by omega)
      have e2 := ht i k hi (by omega)
      have c1 : ((k + 1 : Nat) : Int) - 1 = (k : Int) := by omega
      simp only [c1, Py.Dict.get_eq e1, Py.Dict.get_eq e2, bind, Except.bind]
      by_cases he : pl s1 s2 i (k + 1) = pl s1 s2 i k
      · right
        refine ⟨by simp [he], _, rfl, ⟨k, rfl, by omega, by omega⟩, by simp⟩
      · left
        have := pl_mono s1 s2 (Nat.le_refl i) (Nat.le_succ k)
        refine ⟨by simp [he], k + 1, rfl, by omega, hk, hp, ?_⟩
        simp only [Nat.add_sub_cancel]
        simp only [Nat.succ_eq_add_one] at this
        omega)
    fuel { i := i, j := j, out := out } ⟨j, rfl, le_refl _, rfl⟩ (by simp; omega)
  obtain ⟨k, rfl, h3, h4, h5, h6⟩ := h2
  exact ⟨k, h1, h3, h4, h5, h6⟩

theorem lcs_ok (s1 s2 : List α) (fuel : Nat) (hf : s1.length + s2.length < fuel) :
    ∃ c, lcs fuel s1 s2 = .ok c ∧ IsLcs s1 s2 c ∧ c.length = pl s1 s2 s1.length s2.length := by
  obtain ⟨t, ht1, ht⟩ := fill_ok s1 s2
  unfold lcs
  simp only [ht1, bind, Except.bind]
  obtain ⟨s', h1, h2, h3⟩ := Py.whileLoop_inv (cond := tbCond t) (body := tbBody s1 t fuel)
    (TBInv s1 s2) (fun s => s.i.toNat)
    (fun s => TBInv s1 s2 s ∧ s.out.length = pl s1 s2 s1.length s2.length)
    (by
      rintro ⟨_, _, out⟩ ⟨i, j, rfl, rfl, hi, hj, hl, hs1, hs2⟩
      have e := ht i j hi hj
      simp only [tbCond, Py.Dict.get_eq e, bind, Except.bind]
      by_cases hz : pl s1 s2 i j = 0
      · left
        refine ⟨by simp [hz], ⟨i, j, rfl, rfl, hi, hj, hl, hs1, hs2⟩, ?_⟩
        simp only at hl ⊢; omega
      · right
        refine ⟨by simp [hz], ?_⟩
        obtain ⟨i', u1, u2, u3, u4, u5⟩ :=
          goUp_ok s1 s2 t ht fuel (by omega) i j out hi hj (by omega)
        obtain ⟨j', l1, l2, l3, l4, l5⟩ :=
          goLeft_ok s1 s2 t ht fuel (by omega) i' j out (by omega) hj (by omega)
        obtain ⟨i', rfl⟩ : ∃ m, i' = m + 1 := ⟨i' - 1, by omega⟩
        obtain ⟨j', rfl⟩ : ∃ m, j' = m + 1 := ⟨j' - 1, by omega⟩
        simp only [Nat.add_sub_cancel] at u5 l5
        have hi1 : i' < s1.length := by omega
        have hj1 : j' < s2.length := by omega
        have hp := pl_succ s1 s2 i' j' hi1 hj1
        have hm := pl_mono s1 s2 (Nat.le_refl i') l3
        have hx : s1[i'] = s2[j'] := by
          by_contra hne
          rw [if_neg hne] at hp
          omega
        rw [if_pos hx] at hp
        have c1 : ((i' + 1 : Nat) : Int) - 1 = (i' : Int) := by omega
        have c2 : ((j' + 1 : Nat) : Int) - 1 = (j' : Int) := by omega
        have g : Py.getI s1 (i' : Int) = .ok s1[i'] := by
          simp [Py.getI, Py.get_ok hi1]
        refine ⟨{ i := (i' : Int), j := (j' : Int), out := out ++ [s1[i']] }, ?_, ?_, ?_⟩
        · simp only [tbBody, u1, l1, bind, Except.bind, c1, c2, g]
        · refine ⟨i', j', rfl, rfl, by omega, by omega, ?_, ?_, ?_⟩
          · simp only [List.length_append, List.length_singleton] at *; omega
          · simp only [List.reverse_append, List.reverse_singleton, List.singleton_append]
            rw [List.drop_eq_getElem_cons hi1]
            apply List.Sublist.cons_cons
            refine hs1.trans ?_
            exact List.drop_sublist_drop_left s1 (by omega)
          · simp only [List.reverse_append, List.reverse_singleton, List.singleton_append]
            rw [List.drop_eq_getElem_cons hj1, hx]
            apply List.Sublist.cons_cons
            refine hs2.trans ?_
            exact List.drop_sublist_drop_left s2 (by omega)
        · simp; omega)
    fuel { i := s1.length, j := s2.length, out := [] }
    ⟨s1.length, s2.length, rfl, rfl, le_refl _, le_refl _, by simp, by simp, by simp⟩
    (by simp; omega)
  refine ⟨s'.out.reverse, by rw [h1], ?_, by simpa using h3⟩
  obtain ⟨i, j, _, _, _, _, _, hs1, hs2⟩ := h2
  refine ⟨⟨hs1.trans (List.drop_sublist _ _), hs2.trans (List.drop_sublist _ _)⟩, ?_⟩
  intro d hd
  have := pl_full s1 s2 hd
  simp; omega

end Verif.Lcs
