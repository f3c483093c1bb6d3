import Verif.Lemmas.Munkres
import Verif.Spec.Assignment
import Mathlib.Algebra.Order.Floor.Ring
import Mathlib.Data.Rat.Floor
import Mathlib.Algebra.BigOperators.Ring.Finset
import Mathlib.Algebra.BigOperators.Intervals
import Mathlib.Data.List.GetD
import Mathlib.Algebra.Order.BigOperators.Ring.Finset

set_option linter.unusedSectionVars false

namespace Verif.Munkres
open Verif Verif.Spec.Assignment

theorem whileLoop_mono {σ : Type _} {cond : σ → Py Bool} {body : σ → Py σ} :
    ∀ (f f' : Nat) (s s' : σ), f ≤ f' → Py.whileLoop cond body f s = .ok s' →
      Py.whileLoop cond body f' s = .ok s' := by
  intro f
  induction f with
  | zero => intro f' s s' _ h; simp [Py.whileLoop] at h
  | succ f ih =>
    intro f' s s' hle h
    match f', hle with
    | f' + 1, hle =>
      simp only [Py.whileLoop] at h ⊢
      split at h
      · simp at h
      · exact h
      · split at h
        · simp at h
        · exact ih f' _ s' (by omega) h

/-! ### Minima -/

theorem foldl_min (f : Nat → ℚ) (l : List Nat) (a : ℚ) :
    (l.foldl (fun m j => min m (f j)) a ≤ a) ∧ (∀ j ∈ l, l.foldl (fun m j => min m (f j)) a ≤ f j) ∧
    (l.foldl (fun m j => min m (f j)) a = a ∨ ∃ j ∈ l, l.foldl (fun m j => min m (f j)) a = f j) := by
  induction l generalizing a with
  | nil => simp
  | cons x l ih =>
    rw [List.foldl_cons]
    obtain ⟨h1, h2, h3⟩ := ih (min a (f x))
    refine ⟨h1.trans (min_le_left _ _), ?_, ?_⟩
    · intro j hj
      rcases List.mem_cons.1 hj with rfl | hj
      · exact h1.trans (min_le_right _ _)
      · exact h2 j hj
    · rcases h3 with h3 | ⟨j, hj, h3⟩
      · rcases min_choice a (f x) with h | h
        · left; rw [h3, h]
        · right; exact ⟨x, by simp, by rw [h3, h]⟩
      · right; exact ⟨j, by simp [hj], h3⟩

theorem findSmallest_aux (s : St) (l : List (Nat × Nat)) (a : ℚ) :
    let m := l.foldl (fun m p =>
      if s.rowC p.1 = false ∧ s.colC p.2 = false then (if m > s.C p.1 p.2 then s.C p.1 p.2 else m) else m) a
    m ≤ a ∧ (∀ p ∈ l, s.rowC p.1 = false → s.colC p.2 = false → m ≤ s.C p.1 p.2) ∧
    (m = a ∨ ∃ p ∈ l, s.rowC p.1 = false ∧ s.colC p.2 = false ∧ m = s.C p.1 p.2) := by
  induction l generalizing a with
  | nil => simp
  | cons x l ih =>
    intro m
    have hm : m = l.foldl _ _ := List.foldl_cons ..
    by_cases hx : s.rowC x.1 = false ∧ s.colC x.2 = false
    · simp only [hx, and_self, if_true] at hm
      by_cases ha : a > s.C x.1 x.2
      · simp only [ha, if_true] at hm
        obtain ⟨h1, h2, h3⟩ := ih (s.C x.1 x.2)
        rw [← hm] at h1 h2 h3
        refine ⟨by linarith, ?_, ?_⟩
        · intro p hp
          rcases List.mem_cons.1 hp with rfl | hp
          · intros; exact h1
          · exact h2 p hp
        · right
          rcases h3 with h3 | ⟨p, hp, h3⟩
          · exact ⟨x, by simp, hx.1, hx.2, h3⟩
          · exact ⟨p, by simp [hp], h3⟩
      · simp only [ha, if_false] at hm
        obtain ⟨h1, h2, h3⟩ := ih a
        rw [← hm] at h1 h2 h3
        refine ⟨h1, ?_, ?_⟩
        · intro p hp
          rcases List.mem_cons.1 hp with rfl | hp
          · intros; push Not at ha; linarith
          · exact h2 p hp
        · rcases h3 with h3 | ⟨p, hp, h3⟩
          · exact .inl h3
          · exact .inr ⟨p, by simp [hp], h3⟩
    · simp only [hx, if_false] at hm
      obtain ⟨h1, h2, h3⟩ := ih a
      rw [← hm] at h1 h2 h3
      refine ⟨h1, ?_, ?_⟩
      · intro p hp
        rcases List.mem_cons.1 hp with rfl | hp
        · intro a b; exact absurd ⟨a, b⟩ hx
        · exact h2 p hp
      · rcases h3 with h3 | ⟨p, hp, h3⟩
        · exact .inl h3
        · exact .inr ⟨p, by simp [hp], h3⟩

/-! ### Step 1 -/

theorem step1_ok {P : Nat → Nat → ℚ} {n D : Nat} {s : St} (hn : s.n = n) (hP : s.C = P) (h0 : 0 < n)
    (hint : ∀ i j, i < n → j < n → ∃ z : ℤ, (D : ℚ) * P i j = z) : Base P n D (step1 s) := by
  have hmin := fun i => foldl_min (s.C i) (List.range n) (s.C i 0)
  refine ⟨hn, ⟨fun i => rowMin s i, fun _ => 0, ?_⟩, ?_, ?_⟩
  · intro i j _ _; simp [step1, hP]
  · intro i j _ hj
    have := (hmin i).2.1 j (List.mem_range.2 hj)
    simp only [step1, rowMin, hn]
    linarith
  · intro i j hi hj
    obtain ⟨z, hz⟩ := hint i j hi hj
    have : ∃ j0, j0 < n ∧ rowMin s i = s.C i j0 := by
      unfold rowMin; rw [hn]
      rcases (hmin i).2.2 with h | ⟨j0, h1, h2⟩
      · exact ⟨0, h0, h⟩
      · exact ⟨j0, List.mem_range.1 h1, h2⟩
    obtain ⟨j0, hj0, e⟩ := this
    obtain ⟨z0, hz0⟩ := hint i j0 hi hj0
    refine ⟨z - z0, ?_⟩
    simp only [step1, e, hP]
    push_cast
    rw [mul_sub, hz, hz0]

/-! ### Step 2 -/

/-- Loop invariant of step 2. -/
structure Inv2 (n : Nat) (s0 s : St) : Prop where
  hn : s.n = s0.n
  hC : s.C = s0.C
  stars : Stars n s
  np : ∀ i j, s.mark i j ≠ 2
  row : ∀ i j, s.mark i j = 1 → s.rowC i = true
  col : ∀ i j, s.mark i j = 1 → s.colC j = true

theorem step2Body_inv {n : Nat} {s0 s : St} (h : Inv2 n s0 s) (p : Nat × Nat) (hp : p.1 < n ∧ p.2 < n) :
    Inv2 n s0 (step2Body s p) := by
  unfold step2Body
  split
  · rename_i hc
    have hr : ∀ j, s.mark p.1 j ≠ 1 := fun j hj => by have := h.row _ _ hj; simp [hc.2.2] at this
    have hcl : ∀ i, s.mark i p.2 ≠ 1 := fun i hi => by have := h.col _ _ hi; simp [hc.2.1] at this
    refine ⟨h.hn, h.hC, ⟨⟨?_, ?_⟩, ?_, ?_⟩, ?_, ?_, ?_⟩
    · intro i j j' h1 h2
      simp only [upd2_eq] at h1 h2
      split_ifs at h1 h2 with ha hb hb
      · omega
      · exact absurd (ha.1 ▸ h2) (hr j')
      · exact absurd (hb.1 ▸ h1) (hr j)
      · exact h.stars.ind.row i j j' h1 h2
    · intro i i' j h1 h2
      simp only [upd2_eq] at h1 h2
      split_ifs at h1 h2 with ha hb hb
      · omega
      · exact absurd (ha.2 ▸ h2) (hcl i')
      · exact absurd (hb.2 ▸ h1) (hcl i)
      · exact h.stars.ind.col i i' j h1 h2
    · intro i j
      simp only [upd2_eq]
      split_ifs with ha
      · rw [ha.1, ha.2]; exact fun _ => hp
      · exact h.stars.rng i j
    · intro i j
      simp only [upd2_eq]
      split_ifs with ha
      · rw [ha.1, ha.2]; exact fun _ => hc.1
      · exact h.stars.zero i j
    · intro i j
      simp only [upd2_eq]
      split_ifs
      · simp
      · exact h.np i j
    · intro i j
      simp only [upd2_eq, upd]
      split_ifs with ha hb hb
      · simp
      · exact fun _ => absurd ha.1 hb
      · simp
      · exact h.row i j
    · intro i j
      simp only [upd2_eq, upd]
      split_ifs with ha hb hb
      · simp
      · exact fun _ => absurd ha.2 hb
      · simp
      · exact h.col i j
  · exact h

theorem step2_ok {P : Nat → Nat → ℚ} {n D : Nat} {s : St} (hb : Base P n D s)
    (hm : ∀ i j, s.mark i j = 0) :
    Base P n D (step2 s) ∧ Stars n (step2 s) ∧ Clean (step2 s) := by
  have hn := hb.hn
  have : ∀ (l : List (Nat × Nat)) (s' : St), (∀ p ∈ l, p.1 < n ∧ p.2 < n) → Inv2 n s s' →
      Inv2 n s (l.foldl step2Body s') := by
    intro l
    induction l with
    | nil => intro s' _ h; exact h
    | cons p l ih =>
      intro s' hl h
      exact ih _ (fun q hq => hl q (by simp [hq])) (step2Body_inv h p (hl p (by simp)))
  have h := this (cells s.n s.n) s (fun p hp => hn ▸ mem_cells.1 hp)
    ⟨rfl, rfl, ⟨⟨by simp [hm], by simp [hm]⟩, by simp [hm], by simp [hm]⟩, by simp [hm], by simp [hm],
      by simp [hm]⟩
  refine ⟨⟨h.hn.trans hn, ?_, ?_, ?_⟩, ⟨h.stars.ind, h.stars.rng, h.stars.zero⟩, ⟨h.np, fun _ => rfl, fun _ => rfl⟩⟩
  · simpa [step2, clearCovers, h.hC] using hb.pot
  · simpa [step2, clearCovers, h.hC] using hb.nonneg
  · simpa [step2, clearCovers, h.hC] using hb.int

/-! ### Step 3 -/

theorem step3_fold (l : List (Nat × Nat)) (s : St) (k : Nat) :
    l.foldl step3Body (s, k) =
      ({ s with colC := fun j => s.colC j || l.any fun p => decide (p.2 = j) && decide (s.mark p.1 p.2 = 1) },
        k + (l.filter fun p => s.mark p.1 p.2 = 1).length) := by
  induction l generalizing s k with
  | nil => simp
  | cons p l ih =>
    rw [List.foldl_cons]
    by_cases h : s.mark p.1 p.2 = 1
    · have e : step3Body (s, k) p = ({ s with colC := upd s.colC p.2 true }, k + 1) := by
        simp [step3Body, h]
      rw [e, ih]
      have : (fun j => upd s.colC p.2 true j || l.any fun p => decide (p.2 = j) && decide (s.mark p.1 p.2 = 1)) =
          fun j => s.colC j || (p :: l).any fun p => decide (p.2 = j) && decide (s.mark p.1 p.2 = 1) := by
        funext j
        simp only [upd, List.any_cons, h, decide_true, Bool.and_true]
        by_cases hj : j = p.2
        · simp [hj]
        · have : ¬ p.2 = j := fun h => hj h.symm
          simp [hj, this]
      simp only [this, List.filter_cons, h, decide_true, if_true, List.length_cons]
      congr 1; omega
    · have e : step3Body (s, k) p = (s, k) := by simp [step3Body, h]
      rw [e, ih]
      simp [h, List.filter_cons]

theorem filter_cells_card (r c : Nat) (f : Nat → Nat → Nat) :
    ((cells r c).filter fun p => f p.1 p.2 = 1).length =
      ((Finset.range r ×ˢ Finset.range c).filter fun p => f p.1 p.2 = 1).card := by
  rw [← List.toFinset_card_of_nodup ((cells_nodup r c).filter _)]
  congr 1
  ext p
  simp [mem_cells]

theorem count_stars {n : Nat} {s : St} (hn : s.n = n) (hs : Stars n s) :
    ((cells n n).filter fun p => s.mark p.1 p.2 = 1).length = (starRows s).card := by
  rw [filter_cells_card]
  symm
  rw [← Finset.card_image_of_injOn (f := Prod.fst)
    (s := (Finset.range n ×ˢ Finset.range n).filter fun p => s.mark p.1 p.2 = 1)]
  · congr 1
    ext i
    simp only [starRows, hn, Finset.mem_filter, Finset.mem_image, Finset.mem_product, Finset.mem_range]
    constructor
    · rintro ⟨h1, j, h2, h3⟩; exact ⟨(i, j), ⟨⟨h1, h2⟩, h3⟩, rfl⟩
    · rintro ⟨⟨a, b⟩, ⟨⟨h1, h2⟩, h3⟩, rfl⟩; exact ⟨h1, b, h2, h3⟩
  · rintro ⟨a, b⟩ h1 ⟨a', b'⟩ h2 h
    simp only [Finset.coe_filter, Set.mem_setOf_eq] at h1 h2 h
    subst h
    rw [hs.ind.row _ _ _ h1.2 h2.2]

theorem starRows_le {n : Nat} {s : St} (hn : s.n = n) : (starRows s).card ≤ n := by
  have := Finset.card_filter_le (Finset.range s.n) (fun i => ∃ j ∈ Finset.range s.n, s.mark i j = 1)
  simpa [hn, starRows] using this

theorem step3_ok {P : Nat → Nat → ℚ} {n D : Nat} {s : St} (hb : Base P n D s) (hs : Stars n s)
    (hc : Clean s) :
    Base P n D (step3 s).1 ∧ Stars n (step3 s).1 ∧ (step3 s).1.C = s.C ∧ starRows (step3 s).1 = starRows s ∧
    (((step3 s).2 = 7 ∧ (starRows s).card = n) ∨
     ((step3 s).2 = 4 ∧ Cov n (step3 s).1 ∧ (starRows s).card < n)) := by
  obtain rfl := hb.hn
  have hn : s.n = s.n := rfl
  have hcount := count_stars hn hs
  unfold step3
  rw [step3_fold]
  dsimp only
  refine ⟨⟨hn, hb.pot, hb.nonneg, hb.int⟩, ⟨hs.ind, hs.rng, hs.zero⟩, rfl, rfl, ?_⟩
  rw [Nat.zero_add, hcount]
  by_cases h : (starRows s).card ≥ s.n
  · left
    exact ⟨by simp [h], le_antisymm (starRows_le hn) h⟩
  · right
    refine ⟨by simp [h], ?_, by omega⟩
    refine ⟨?_, ?_, ?_, ?_, ?_, ⟨fun _ => 0, ?_, ?_⟩⟩
    · intro i j hij
      have hij' : s.mark i j = 1 := hij
      have := hs.rng i j (by omega)
      have hh : (cells s.n s.n).any (fun p => decide (p.2 = j) && decide (s.mark p.1 p.2 = 1)) = true := by
        rw [List.any_eq_true]
        exact ⟨(i, j), mem_cells.2 this, by simpa using hij⟩
      simp [hh, hc.rows i]
    · intro j hj
      simp only [hc.cols j, Bool.false_or] at hj
      rw [List.any_eq_true] at hj
      obtain ⟨p, _, hp⟩ := hj
      simp only [Bool.and_eq_true, decide_eq_true_eq] at hp
      exact ⟨p.1, by rw [← hp.1]; exact hp.2⟩
    · intro i hi; simp [hc.rows i] at hi
    · intro i j h; exact absurd h (hc.noprime i j)
    · intro i hi; simp [hc.rows i] at hi
    · intro i hi; simp [hc.rows i] at hi
    · intro i j _ h; exact absurd h (hc.noprime i j)

/-! ### Step 6 -/

/-- Sum of the matrix. -/
def total (s : St) : ℚ := ∑ i ∈ Finset.range s.n, ∑ j ∈ Finset.range s.n, s.C i j

theorem covers_le {n : Nat} {s : St} (hn : s.n = n) (hs : Stars n s) (hc : Cov n s) :
    ((Finset.range n).filter fun i => s.rowC i = true).card +
      ((Finset.range n).filter fun j => s.colC j = true).card ≤ (starRows s).card := by
  classical
  choose! g hg using hc.col
  have hinj : Set.InjOn g ((Finset.range n).filter fun j => s.colC j = true) := by
    intro a ha b hb hab
    simp only [Finset.coe_filter, Set.mem_setOf_eq] at ha hb
    exact hs.ind.row _ _ _ (hg a ha.2) (hab ▸ hg b hb.2)
  rw [← Finset.card_image_of_injOn hinj, ← Finset.card_union_of_disjoint]
  · apply Finset.card_le_card
    intro i hi
    rw [Finset.mem_union, Finset.mem_image] at hi
    rw [mem_starRows hn hs]
    rcases hi with hi | ⟨j, hj, rfl⟩
    · exact hc.row i (Finset.mem_filter.1 hi).2
    · exact ⟨j, hg j (Finset.mem_filter.1 hj).2⟩
  · rw [Finset.disjoint_left]
    intro i hi hi'
    rw [Finset.mem_image] at hi'
    obtain ⟨j, hj, rfl⟩ := hi'
    have h1 := (Finset.mem_filter.1 hi).2
    have h2 := (Finset.mem_filter.1 hj).2
    have := hc.star _ _ (hg j h2)
    simp [h1, h2] at this

theorem step6_C (s : St) (i j : Nat) : (step6 s).C i j =
    s.C i j + (if s.rowC i = true then findSmallest s else 0) - (if s.colC j = false then findSmallest s else 0) := by
  simp only [step6]
  by_cases h1 : s.rowC i = true <;> by_cases h2 : s.colC j = false <;> simp [h1, h2]

theorem step6_ok {P : Nat → Nat → ℚ} {n D : Nat} {s : St} (h0 : 0 < n) (hb : Base P n D s) (hs : Stars n s)
    (hc : Cov n s) (hlt : (starRows s).card < n)
    (hz : ∀ i j, i < n → j < n → s.rowC i = false → s.colC j = false → s.C i j ≠ 0) :
    Base P n D (step6 s) ∧ Stars n (step6 s) ∧ Cov n (step6 s) ∧ starRows (step6 s) = starRows s ∧
      total (step6 s) < total s := by
  have hn := hb.hn
  obtain ⟨m1, m2, m3⟩ := findSmallest_aux s (cells s.n s.n) maxint
  change findSmallest s ≤ maxint at m1
  change ∀ p ∈ cells s.n s.n, _ → _ → findSmallest s ≤ _ at m2
  change findSmallest s = maxint ∨ ∃ p ∈ cells s.n s.n, _ ∧ _ ∧ findSmallest s = _ at m3
  have hpos : 0 < findSmallest s := by
    rcases m3 with h | ⟨p, hp, a, b, h⟩
    · rw [h]; norm_num [maxint]
    · have hp := mem_cells.1 hp
      rw [hn] at hp
      rw [h]
      exact lt_of_le_of_ne (hb.nonneg _ _ hp.1 hp.2) (Ne.symm (hz _ _ hp.1 hp.2 a b))
  have hintm : ∃ z : ℤ, (D : ℚ) * findSmallest s = z := by
    rcases m3 with h | ⟨p, hp, a, b, h⟩
    · rw [h]; exact ⟨D * 9223372036854775807, by simp [maxint]⟩
    · have hp := mem_cells.1 hp
      rw [hn] at hp
      rw [h]; exact hb.int _ _ hp.1 hp.2
  refine ⟨⟨hn, ?_, ?_, ?_⟩, ⟨hs.ind, hs.rng, ?_⟩, ⟨hc.star, hc.col, hc.row, ?_, hc.primeEx, hc.order⟩, rfl, ?_⟩
  · obtain ⟨u, v, huv⟩ := hb.pot
    refine ⟨fun i => u i - (if s.rowC i = true then findSmallest s else 0),
      fun j => v j + (if s.colC j = false then findSmallest s else 0), ?_⟩
    intro i j hi hj
    rw [step6_C, huv i j hi hj]; ring
  · intro i j hi hj
    rw [step6_C]
    have h1 := hb.nonneg i j hi hj
    by_cases hr : s.rowC i = true
    · by_cases hcc : s.colC j = false
      · simp only [hr, hcc, if_true]; linarith
      · simp [hr, hcc]; linarith
    · by_cases hcc : s.colC j = false
      · have := m2 (i, j) (mem_cells.2 ⟨hn ▸ hi, hn ▸ hj⟩) (by simpa using hr) hcc
        simp only [hr, hcc, if_true]
        simp; linarith
      · simp only [hr, hcc, if_false]; simpa using h1
  · intro i j hi hj
    obtain ⟨z, hz'⟩ := hb.int i j hi hj
    obtain ⟨zm, hzm⟩ := hintm
    rw [step6_C]
    refine ⟨z + (if s.rowC i = true then zm else 0) - (if s.colC j = false then zm else 0), ?_⟩
    push_cast
    rw [mul_sub, mul_add, hz', mul_ite, mul_ite, hzm, mul_zero]
  · intro i j h
    rw [step6_C, hs.zero i j h]
    have := hc.star i j h
    cases hr : s.rowC i <;> simp [hr] at this <;> simp [this]
  · intro i j h
    obtain ⟨a, b, d⟩ := hc.prime i j h
    refine ⟨a, b, ?_⟩
    rw [step6_C, d]; simp [a, b]
  · have hcov := covers_le hn hs hc
    have e : total (step6 s) = total s
        + n * (findSmallest s * ((Finset.range n).filter fun i => s.rowC i = true).card)
        - n * (findSmallest s * ((Finset.range n).filter fun j => s.colC j = false).card) := by
      unfold total
      simp only [step6_C]
      have : (step6 s).n = s.n := rfl
      rw [this, hn]
      simp only [Finset.sum_sub_distrib, Finset.sum_add_distrib, Finset.sum_const, Finset.card_range,
        nsmul_eq_mul]
      rw [← Finset.mul_sum]
      simp only [← Finset.sum_filter, Finset.sum_const, nsmul_eq_mul]
      ring
    have hcc : ((Finset.range n).filter fun j => s.colC j = true).card +
        ((Finset.range n).filter fun j => s.colC j = false).card = n := by
      have := Finset.card_filter_add_card_filter_not (s := Finset.range n) (fun j => s.colC j = true)
      simpa using this
    rw [e]
    have h1 : ((Finset.range n).filter fun i => s.rowC i = true).card <
        ((Finset.range n).filter fun j => s.colC j = false).card := by omega
    have h1' : (((Finset.range n).filter fun i => s.rowC i = true).card : ℚ) <
        ((Finset.range n).filter fun j => s.colC j = false).card := by exact_mod_cast h1
    have h2 : (0 : ℚ) < n := by exact_mod_cast h0
    have := mul_lt_mul_of_pos_left (mul_lt_mul_of_pos_left h1' hpos) h2
    linarith

/-! ### The main loop -/

/-- Invariant of the main loop from step 3 on. -/
def MainInv (P : Nat → Nat → ℚ) (n D : Nat) (a : St × Nat) : Prop :=
  Base P n D a.1 ∧ Stars n a.1 ∧
  ((a.2 = 3 ∧ Clean a.1) ∨ (a.2 = 4 ∧ Cov n a.1 ∧ (starRows a.1).card < n) ∨
   (a.2 = 5 ∧ Aug n a.1) ∨
   (a.2 = 6 ∧ Cov n a.1 ∧ (starRows a.1).card < n ∧
      ∀ i j, i < n → j < n → a.1.rowC i = false → a.1.colC j = false → a.1.C i j ≠ 0) ∨
   (a.2 = 7 ∧ (starRows a.1).card = n))

/-- Weight of a step number in the termination measure. -/
def weight : Nat → Nat
  | 3 => 2
  | 4 => 1
  | _ => 0

/-- Termination measure. -/
def meas (D : Nat) (a : St × Nat) : Nat :=
  (⌊(D : ℚ) * total a.1⌋).toNat * 2 + (a.1.n - (starRows a.1).card) * 3 + weight a.2

theorem total_int {P : Nat → Nat → ℚ} {n D : Nat} {s : St} (hb : Base P n D s) :
    ∃ z : ℤ, (D : ℚ) * total s = z ∧ 0 ≤ z := by
  have hz : ∃ z : ℤ, (D : ℚ) * total s = z := by
    unfold total
    rw [hb.hn, Finset.mul_sum]
    choose! f hf using hb.int
    refine ⟨∑ i ∈ Finset.range n, ∑ j ∈ Finset.range n, f i j, ?_⟩
    push_cast
    refine Finset.sum_congr rfl fun i hi => ?_
    rw [Finset.mul_sum]
    exact Finset.sum_congr rfl fun j hj => hf i j (Finset.mem_range.1 hi) (Finset.mem_range.1 hj)
  obtain ⟨z, hz⟩ := hz
  refine ⟨z, hz, ?_⟩
  have : 0 ≤ (D : ℚ) * total s := by
    apply mul_nonneg (by positivity)
    unfold total
    rw [hb.hn]
    exact Finset.sum_nonneg fun i hi => Finset.sum_nonneg fun j hj =>
      hb.nonneg i j (Finset.mem_range.1 hi) (Finset.mem_range.1 hj)
  rw [hz] at this
  exact_mod_cast this

theorem main_step {P : Nat → Nat → ℚ} {n D : Nat} (h0 : 0 < n) (hD : 0 < D) (a : St × Nat)
    (h : MainInv P n D a) :
    ((.ok (decide (1 ≤ a.2 ∧ a.2 ≤ 6)) : Py Bool) = .ok false ∧
      (Base P n D a.1 ∧ Stars n a.1 ∧ (starRows a.1).card = n)) ∨
    ((.ok (decide (1 ≤ a.2 ∧ a.2 ≤ 6)) : Py Bool) = .ok true ∧
      ∃ a', runStep a = .ok a' ∧ MainInv P n D a' ∧ meas D a' < meas D a) := by
  obtain ⟨s, k⟩ := a
  obtain ⟨hb, hs, h⟩ := h
  dsimp only at hb hs h ⊢
  rcases h with ⟨rfl, h⟩ | ⟨rfl, h, hlt⟩ | ⟨rfl, h⟩ | ⟨rfl, h, hlt, hz⟩ | ⟨rfl, h⟩
  · right
    refine ⟨by simp, _, rfl, ?_⟩
    obtain ⟨g1, g2, g3, g4, g5⟩ := step3_ok hb hs h
    have ht : total (step3 s).1 = total s := by unfold total; rw [g3, g1.hn, hb.hn]
    rcases g5 with ⟨e, g5⟩ | ⟨e, g5, g6⟩
    · refine ⟨⟨g1, g2, ?_⟩, ?_⟩
      · right; right; right; right; exact ⟨e, by rw [g4]; exact g5⟩
      · unfold meas; dsimp only; rw [ht, g4, e, g1.hn, hb.hn]; simp [weight]
    · refine ⟨⟨g1, g2, ?_⟩, ?_⟩
      · right; left; exact ⟨e, g5, by rw [g4]; exact g6⟩
      · unfold meas; dsimp only; rw [ht, g4, e, g1.hn, hb.hn]; simp [weight]
  · right
    refine ⟨by simp, ?_⟩
    have hk : n < (s.n + 1) + ((Finset.range n).filter fun i => s.rowC i = true).card := by
      rw [hb.hn]; omega
    rcases step4_ok (s.n + 1) s hb hs h hk with ⟨s', a1, a2, a3, a4, a5, a6, a7⟩ | ⟨s', a1, a2, a3, a4, a5, a6⟩
    · have ht : total s' = total s := by unfold total; rw [a5, a2.hn, hb.hn]
      refine ⟨(s', 6), a1, ⟨a2, a3, ?_⟩, ?_⟩
      · right; right; right; left; exact ⟨rfl, a4, by rw [a6]; exact hlt, a7⟩
      · unfold meas; dsimp only; rw [ht, a6, a2.hn, hb.hn]; simp [weight]
    · have ht : total s' = total s := by unfold total; rw [a5, a2.hn, hb.hn]
      refine ⟨(s', 5), a1, ⟨a2, a3, ?_⟩, ?_⟩
      · right; right; left; exact ⟨rfl, a4⟩
      · unfold meas; dsimp only; rw [ht, a6, a2.hn, hb.hn]; simp [weight]
  · right
    refine ⟨by simp, ?_⟩
    obtain ⟨s', e, g1, g2, g3, g4, g5⟩ := step5_ok hb hs h
    have ht : total s' = total s := by unfold total; rw [g4, g1.hn, hb.hn]
    refine ⟨(s', 3), by simp [runStep, e], ⟨g1, g2, .inl ⟨rfl, g3⟩⟩, ?_⟩
    have := starRows_le g1.hn
    unfold meas; dsimp only; rw [ht, g5, g1.hn, hb.hn]; simp [weight]
    omega
  · right
    refine ⟨by simp, _, rfl, ?_⟩
    obtain ⟨g1, g2, g3, g4, g5⟩ := step6_ok h0 hb hs h hlt hz
    refine ⟨⟨g1, g2, .inr (.inl ⟨rfl, g3, by rw [g4]; exact hlt⟩)⟩, ?_⟩
    obtain ⟨z, hz, _⟩ := total_int hb
    obtain ⟨z', hz', hz0⟩ := total_int g1
    have hlt' : z' < z := by
      have : (D : ℚ) * total (step6 s) < D * total s := mul_lt_mul_of_pos_left g5 (by exact_mod_cast hD)
      rw [hz, hz'] at this
      exact_mod_cast this
    unfold meas; dsimp only
    rw [hz, hz', g4, g1.hn, hb.hn]
    simp only [Int.floor_intCast, weight]
    omega
  · left
    exact ⟨by simp, hb, hs, h⟩

/-! ### Padding -/

theorem foldl_max_len (m : List (List ℚ)) (c a : Nat) (h : ∀ row ∈ m, row.length = c) :
    m.foldl (fun a row => max a row.length) a = if m = [] then a else max a c := by
  induction m generalizing a with
  | nil => simp
  | cons r m ih =>
    rw [List.foldl_cons, ih _ fun row hr => h row (by simp [hr]), h r (by simp)]
    split <;> simp_all

theorem pad_length (m : List (List ℚ)) (c : Nat) (hm : m ≠ []) (h : ∀ row ∈ m, row.length = c) :
    (padMatrix m).length = max c m.length := by
  unfold padMatrix
  rw [foldl_max_len m c 0 h]
  simp [hm]

theorem getD_replicate_zero (a j : Nat) : (List.replicate a (0 : ℚ)).getD j 0 = 0 := by
  simp [List.getD, List.getElem?_replicate]
  split <;> rfl

theorem pad_entry_aux (m : List (List ℚ)) (t k i j : Nat) :
    entry (m.map (fun row : List ℚ => row ++ List.replicate (t - row.length) 0) ++
      List.replicate k (List.replicate t 0)) i j = entry m i j := by
  unfold entry
  by_cases hi : i < m.length
  · have e1 : (m.map (fun row : List ℚ => row ++ List.replicate (t - row.length) (0 : ℚ)) ++
        List.replicate k (List.replicate t 0)).getD i [] = m[i] ++ List.replicate (t - m[i].length) 0 := by
      rw [List.getD_append _ _ _ _ (by simpa using hi), List.getD_eq_getElem _ _ (by simpa using hi),
        List.getElem_map]
    rw [e1, List.getD_eq_getElem m _ hi]
    by_cases hj : j < m[i].length
    · rw [List.getD_append _ _ _ _ hj]
    · rw [List.getD_append_right _ _ _ _ (by omega), getD_replicate_zero,
        List.getD_eq_default m[i] _ (by omega)]
  · have e1 : (m.map (fun row : List ℚ => row ++ List.replicate (t - row.length) (0 : ℚ)) ++
        List.replicate k (List.replicate t 0)).getD i [] = (List.replicate k (List.replicate t 0)).getD (i - m.length) [] := by
      rw [List.getD_append_right _ _ _ _ (by simpa using hi), List.length_map]
    rw [e1, List.getD_eq_default m _ (by omega)]
    have e2 : (List.replicate k (List.replicate t (0 : ℚ))).getD (i - m.length) [] = [] ∨
        (List.replicate k (List.replicate t (0 : ℚ))).getD (i - m.length) [] = List.replicate t 0 := by
      by_cases h : i - m.length < k
      · right; rw [List.getD_eq_getElem _ _ (by simpa using h), List.getElem_replicate]
      · left; rw [List.getD_eq_default]; simpa using h
    rcases e2 with e2 | e2 <;> rw [e2]
    rw [getD_replicate_zero]; simp

theorem pad_entry (m : List (List ℚ)) (i j : Nat) : entry (padMatrix m) i j = entry m i j :=
  pad_entry_aux m _ _ i j

theorem entry_out (m : List (List ℚ)) (c i j : Nat) (h : ∀ row ∈ m, row.length = c)
    (ho : m.length ≤ i ∨ c ≤ j) : entry m i j = 0 := by
  unfold entry
  by_cases hi : i < m.length
  · rw [List.getD_eq_getElem _ _ hi, List.getD_eq_default]
    have := h m[i] (List.getElem_mem _)
    omega
  · rw [List.getD_eq_default m _ (by omega)]; simp

/-- A common denominator. -/
theorem exists_den (P : Nat → Nat → ℚ) (n : Nat) :
    ∃ D : Nat, 0 < D ∧ ∀ i j, i < n → j < n → ∃ z : ℤ, (D : ℚ) * P i j = z := by
  refine ⟨∏ p ∈ Finset.range n ×ˢ Finset.range n, (P p.1 p.2).den, ?_, ?_⟩
  · exact Finset.prod_pos fun p _ => (P p.1 p.2).den_pos
  · intro i j hi hj
    have hd : (P i j).den ∣ ∏ p ∈ Finset.range n ×ˢ Finset.range n, (P p.1 p.2).den :=
      Finset.dvd_prod_of_mem (fun p : Nat × Nat => (P p.1 p.2).den) (a := (i, j)) (by simp [hi, hj])
    obtain ⟨k, hk⟩ := hd
    refine ⟨k * (P i j).num, ?_⟩
    rw [hk]
    push_cast
    have := Rat.den_mul_eq_num (P i j)
    calc ((P i j).den : ℚ) * k * P i j = k * ((P i j).den * P i j) := by ring
      _ = _ := by rw [this]

/-! ### Duality -/

theorem sum_map_fst {l : List (Nat × Nat)} (h : (l.map Prod.fst).Nodup) (u : Nat → ℚ) :
    (l.map fun p => u p.1).sum = ∑ i ∈ (l.map Prod.fst).toFinset, u i := by
  rw [List.sum_toFinset _ h, List.map_map]; rfl

theorem sum_map_snd {l : List (Nat × Nat)} (h : (l.map Prod.snd).Nodup) (u : Nat → ℚ) :
    (l.map fun p => u p.2).sum = ∑ i ∈ (l.map Prod.snd).toFinset, u i := by
  rw [List.sum_toFinset _ h, List.map_map]; rfl

theorem average_nonpos (A B : Finset Nat) (hc : A.card = B.card) (u v : Nat → ℚ)
    (h : ∀ i ∈ A, ∀ j ∈ B, u i + v j ≤ 0) : ∑ i ∈ A, u i + ∑ j ∈ B, v j ≤ 0 := by
  have h1 : ∑ i ∈ A, ∑ j ∈ B, (u i + v j) ≤ 0 :=
    Finset.sum_nonpos fun i hi => Finset.sum_nonpos fun j hj => h i hi j hj
  simp only [Finset.sum_add_distrib, Finset.sum_const, nsmul_eq_mul, ← Finset.mul_sum] at h1
  rw [hc, ← mul_add] at h1
  rcases Nat.eq_zero_or_pos B.card with h0 | h0
  · have hA : A = ∅ := Finset.card_eq_zero.1 (hc.trans h0)
    have hB : B = ∅ := Finset.card_eq_zero.1 h0
    simp [hA, hB]
  · have : (0 : ℚ) < B.card := by exact_mod_cast h0
    by_contra hcon
    push Not at hcon
    have := mul_pos this hcon
    linarith

theorem weak_duality {r c n : Nat} (hn : n = max c r) {P : Nat → Nat → ℚ}
    (hP : ∀ i j, r ≤ i ∨ c ≤ j → P i j = 0) (u v : Nat → ℚ)
    (huv : ∀ i j, i < n → j < n → u i + v j ≤ P i j) {l : List (Nat × Nat)} (hl : IsAssignment r c l) :
    ∑ i ∈ Finset.range n, u i + ∑ j ∈ Finset.range n, v j ≤ (l.map fun p => P p.1 p.2).sum := by
  set A := (l.map Prod.fst).toFinset with hA
  set B := (l.map Prod.snd).toFinset with hB
  have hAr : A ⊆ Finset.range r := by
    intro i hi
    simp only [hA, List.mem_toFinset, List.mem_map] at hi
    obtain ⟨p, hp, rfl⟩ := hi
    exact Finset.mem_range.2 (hl.inRange p hp).1
  have hBc : B ⊆ Finset.range c := by
    intro i hi
    simp only [hB, List.mem_toFinset, List.mem_map] at hi
    obtain ⟨p, hp, rfl⟩ := hi
    exact Finset.mem_range.2 (hl.inRange p hp).2
  have hAn : A ⊆ Finset.range n := hAr.trans (Finset.range_subset_range.2 (by omega))
  have hBn : B ⊆ Finset.range n := hBc.trans (Finset.range_subset_range.2 (by omega))
  have hAc : A.card = min r c := by
    rw [hA, List.toFinset_card_of_nodup hl.rows, List.length_map, hl.complete]
  have hBc' : B.card = min r c := by
    rw [hB, List.toFinset_card_of_nodup hl.cols, List.length_map, hl.complete]
  have h1 : (l.map fun p => u p.1).sum + (l.map fun p => v p.2).sum ≤ (l.map fun p => P p.1 p.2).sum := by
    rw [← List.sum_map_add]
    apply List.sum_le_sum
    intro p hp
    have := hl.inRange p hp
    exact huv p.1 p.2 (by omega) (by omega)
  rw [sum_map_fst hl.rows, sum_map_snd hl.cols, ← hA, ← hB] at h1
  have h2 := average_nonpos (Finset.range n \ A) (Finset.range n \ B)
    (by rw [Finset.card_sdiff_of_subset hAn, Finset.card_sdiff_of_subset hBn, hAc, hBc']) u v (by
      intro i hi j hj
      rw [Finset.mem_sdiff, Finset.mem_range] at hi hj
      rw [← hP i j ?_]
      · exact huv i j hi.1 hj.1
      · by_cases hrc : r ≤ c
        · left
          have : A = Finset.range r := Finset.eq_of_subset_of_card_le hAr (by rw [hAc]; simp [hrc])
          rw [this, Finset.mem_range] at hi
          omega
        · right
          have : B = Finset.range c := Finset.eq_of_subset_of_card_le hBc (by rw [hBc']; simp; omega)
          rw [this, Finset.mem_range] at hj
          omega)
  have e1 := Finset.sum_sdiff (f := u) hAn
  have e2 := Finset.sum_sdiff (f := v) hBn
  linarith

/-! ### The final state -/

/-- The star cells of an r×c block. -/
def starCells (s : St) (r c : Nat) : Finset (Nat × Nat) :=
  (Finset.range r ×ˢ Finset.range c).filter fun p => s.mark p.1 p.2 = 1

theorem mem_starCells {s : St} {r c : Nat} {p : Nat × Nat} :
    p ∈ starCells s r c ↔ (p.1 < r ∧ p.2 < c) ∧ s.mark p.1 p.2 = 1 := by
  simp [starCells]

theorem starCells_inj1 {n : Nat} {s : St} (hs : Stars n s) (r c : Nat) :
    Set.InjOn Prod.fst (starCells s r c : Set (Nat × Nat)) := by
  rintro ⟨a, b⟩ h1 ⟨a', b'⟩ h2 h
  simp only [Finset.mem_coe, mem_starCells] at h1 h2 h
  subst h
  rw [hs.ind.row _ _ _ h1.2 h2.2]

theorem starCells_inj2 {n : Nat} {s : St} (hs : Stars n s) (r c : Nat) :
    Set.InjOn Prod.snd (starCells s r c : Set (Nat × Nat)) := by
  rintro ⟨a, b⟩ h1 ⟨a', b'⟩ h2 h
  simp only [Finset.mem_coe, mem_starCells] at h1 h2 h
  subst h
  rw [hs.ind.col _ _ _ h1.2 h2.2]

theorem final_rows {n : Nat} {s : St} (hn : s.n = n) (hs : Stars n s) (hf : (starRows s).card = n)
    (i : Nat) (hi : i < n) : ∃ j, j < n ∧ s.mark i j = 1 := by
  have : starRows s = Finset.range n := by
    apply Finset.eq_of_subset_of_card_le
    · intro i hi
      rw [mem_starRows hn hs] at hi
      obtain ⟨j, hj⟩ := hi
      exact Finset.mem_range.2 (hs.rng i j (by omega)).1
    · rw [hf]; simp
  have hm : i ∈ starRows s := by rw [this]; exact Finset.mem_range.2 hi
  rw [mem_starRows hn hs] at hm
  obtain ⟨j, hj⟩ := hm
  exact ⟨j, (hs.rng i j (by omega)).2, hj⟩

theorem final_cols {n : Nat} {s : St} (hn : s.n = n) (hs : Stars n s) (hf : (starRows s).card = n)
    (j : Nat) (hj : j < n) : ∃ i, i < n ∧ s.mark i j = 1 := by
  have hc : ((starCells s n n).image Prod.snd) = Finset.range n := by
    apply Finset.eq_of_subset_of_card_le
    · intro x hx
      rw [Finset.mem_image] at hx
      obtain ⟨p, hp, rfl⟩ := hx
      exact Finset.mem_range.2 (mem_starCells.1 hp).1.2
    · rw [Finset.card_image_of_injOn (starCells_inj2 hs n n), Finset.card_range]
      have : (starCells s n n).card = (starRows s).card := by
        rw [← count_stars hn hs, filter_cells_card]; rfl
      omega
  have hm : j ∈ (starCells s n n).image Prod.snd := by rw [hc]; exact Finset.mem_range.2 hj
  rw [Finset.mem_image] at hm
  obtain ⟨p, hp, rfl⟩ := hm
  exact ⟨p.1, (mem_starCells.1 hp).1.1, (mem_starCells.1 hp).2⟩

theorem final_assignment {r c n : Nat} (hrc : n = max c r) {s : St} (hn : s.n = n) (hs : Stars n s)
    (hf : (starRows s).card = n) :
    IsAssignment r c ((cells r c).filter fun p => s.mark p.1 p.2 = 1) := by
  have hnd := (cells_nodup r c).filter fun p => decide (s.mark p.1 p.2 = 1)
  have hmem : ∀ p, p ∈ (cells r c).filter (fun p => s.mark p.1 p.2 = 1) ↔
      (p.1 < r ∧ p.2 < c) ∧ s.mark p.1 p.2 = 1 := by
    intro p; rw [List.mem_filter, mem_cells]; simp
  refine ⟨fun p hp => ((hmem p).1 hp).1, ?_, ?_, ?_⟩
  · refine List.Nodup.map_on ?_ hnd
    rintro ⟨a, b⟩ h1 ⟨a', b'⟩ h2 h
    rw [hmem] at h1 h2
    dsimp only at h1 h2 h; subst h
    rw [hs.ind.row _ _ _ h1.2 h2.2]
  · refine List.Nodup.map_on ?_ hnd
    rintro ⟨a, b⟩ h1 ⟨a', b'⟩ h2 h
    rw [hmem] at h1 h2
    dsimp only at h1 h2 h; subst h
    rw [hs.ind.col _ _ _ h1.2 h2.2]
  · rw [filter_cells_card]
    change (starCells s r c).card = _
    by_cases h : r ≤ c
    · rw [← Finset.card_image_of_injOn (starCells_inj1 hs r c)]
      have : (starCells s r c).image Prod.fst = Finset.range r := by
        ext i
        simp only [Finset.mem_image, mem_starCells, Finset.mem_range]
        constructor
        · rintro ⟨p, hp, rfl⟩; exact hp.1.1
        · intro hi
          obtain ⟨j, h1, h2⟩ := final_rows hn hs hf i (by omega)
          exact ⟨(i, j), ⟨⟨hi, by dsimp only; omega⟩, h2⟩, rfl⟩
      rw [this]; simp [h]
    · rw [← Finset.card_image_of_injOn (starCells_inj2 hs r c)]
      have : (starCells s r c).image Prod.snd = Finset.range c := by
        ext j
        simp only [Finset.mem_image, mem_starCells, Finset.mem_range]
        constructor
        · rintro ⟨p, hp, rfl⟩; exact hp.1.2
        · intro hj
          obtain ⟨i, h1, h2⟩ := final_cols hn hs hf j (by omega)
          exact ⟨(i, j), ⟨⟨by dsimp only; omega, hj⟩, h2⟩, rfl⟩
      rw [this]; simp; omega

theorem final_cost {r c n D : Nat} (hrc : n = max c r) {P : Nat → Nat → ℚ}
    (hP : ∀ i j, r ≤ i ∨ c ≤ j → P i j = 0) {s : St} (hb : Base P n D s) (hs : Stars n s)
    (hf : (starRows s).card = n) (u v : Nat → ℚ)
    (huv : ∀ i j, i < n → j < n → s.C i j = P i j - u i - v j) :
    (((cells r c).filter fun p => s.mark p.1 p.2 = 1).map fun p => P p.1 p.2).sum =
      ∑ i ∈ Finset.range n, u i + ∑ j ∈ Finset.range n, v j := by
  have hn := hb.hn
  have e0 : (((cells r c).filter fun p => s.mark p.1 p.2 = 1).map fun p => P p.1 p.2).sum =
      ∑ p ∈ starCells s r c, P p.1 p.2 := by
    rw [← List.sum_toFinset _ ((cells_nodup r c).filter _)]
    congr 1
    ext p
    rw [List.mem_toFinset, List.mem_filter, mem_cells, mem_starCells]; simp
  have e1 : ∑ p ∈ starCells s r c, P p.1 p.2 = ∑ p ∈ starCells s n n, P p.1 p.2 := by
    apply Finset.sum_subset
    · intro p hp
      rw [mem_starCells] at hp ⊢
      exact ⟨⟨by omega, by omega⟩, hp.2⟩
    · intro p hp hp'
      rw [mem_starCells] at hp hp'
      apply hP
      by_contra hcon
      push Not at hcon
      exact hp' ⟨⟨by omega, by omega⟩, hp.2⟩
  have e2 : ∑ p ∈ starCells s n n, P p.1 p.2 = ∑ p ∈ starCells s n n, (u p.1 + v p.2) := by
    refine Finset.sum_congr rfl fun p hp => ?_
    rw [mem_starCells] at hp
    have h1 := huv p.1 p.2 hp.1.1 hp.1.2
    rw [hs.zero _ _ hp.2] at h1
    linarith
  have e3 : ∑ p ∈ starCells s n n, u p.1 = ∑ i ∈ Finset.range n, u i := by
    rw [← Finset.sum_image (f := u) (starCells_inj1 hs n n)]
    congr 1
    ext i
    simp only [Finset.mem_image, mem_starCells, Finset.mem_range]
    constructor
    · rintro ⟨p, hp, rfl⟩; exact hp.1.1
    · intro hi
      obtain ⟨j, h1, h2⟩ := final_rows hn hs hf i hi
      exact ⟨(i, j), ⟨⟨hi, h1⟩, h2⟩, rfl⟩
  have e4 : ∑ p ∈ starCells s n n, v p.2 = ∑ i ∈ Finset.range n, v i := by
    rw [← Finset.sum_image (f := v) (starCells_inj2 hs n n)]
    congr 1
    ext i
    simp only [Finset.mem_image, mem_starCells, Finset.mem_range]
    constructor
    · rintro ⟨p, hp, rfl⟩; exact hp.1.2
    · intro hi
      obtain ⟨j, h1, h2⟩ := final_cols hn hs hf i hi
      exact ⟨(j, i), ⟨⟨h1, hi⟩, h2⟩, rfl⟩
  rw [e0, e1, e2, Finset.sum_add_distrib, e3, e4]

end Verif.Munkres
