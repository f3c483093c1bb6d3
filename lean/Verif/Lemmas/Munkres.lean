import Verif.Model.Munkres
import Verif.Lemmas.Base
import Mathlib.Data.List.ProdSigma
import Mathlib.Data.List.Nodup
import Mathlib.Data.Finset.Card
import Mathlib.Data.Finset.Prod
import Mathlib.Algebra.BigOperators.Group.Finset.Basic
import Mathlib.Algebra.Order.BigOperators.Group.Finset

set_option linter.unusedSectionVars false

namespace Verif.Munkres
open Verif

/-! ### Cells -/

theorem mem_cells {r c : Nat} {p : Nat × Nat} : p ∈ cells r c ↔ p.1 < r ∧ p.2 < c := by
  obtain ⟨i, j⟩ := p
  simp [cells]

theorem cells_nodup (r c : Nat) : (cells r c).Nodup := by
  have : cells r c = List.product (List.range r) (List.range c) := rfl
  rw [this]
  exact List.Nodup.product List.nodup_range List.nodup_range

/-! ### Searches -/

theorem findAZero_some {s : St} {r c : Nat} (h : findAZero s = some (r, c)) :
    r < s.n ∧ c < s.n ∧ s.C r c = 0 ∧ s.rowC r = false ∧ s.colC c = false := by
  unfold findAZero at h
  obtain ⟨i, hi, h2⟩ := List.exists_of_findSome?_eq_some h
  rw [Option.map_eq_some_iff] at h2
  obtain ⟨j, hj, h3⟩ := h2
  have hm := List.mem_of_getLast? hj
  rw [List.mem_filter] at hm
  simp only [Prod.mk.injEq] at h3
  obtain ⟨rfl, rfl⟩ := h3
  simp at hi hm
  exact ⟨hi, hm.1, hm.2.1.1, hm.2.1.2, hm.2.2⟩

theorem findAZero_none {s : St} (h : findAZero s = none) (i j : Nat) (hi : i < s.n) (hj : j < s.n)
    (hr : s.rowC i = false) (hc : s.colC j = false) : s.C i j ≠ 0 := by
  intro h0
  unfold findAZero at h
  rw [List.findSome?_eq_none_iff] at h
  have := h i (List.mem_range.2 hi)
  rw [Option.map_eq_none_iff, List.getLast?_eq_none_iff, List.filter_eq_nil_iff] at this
  exact this j (List.mem_range.2 hj) (by simp [h0, hr, hc])

theorem find_range_some {n : Nat} {p : Nat → Bool} {j : Nat} (h : (List.range n).find? p = some j) :
    j < n ∧ p j = true :=
  ⟨List.mem_range.1 (List.mem_of_find?_eq_some h), List.find?_some h⟩

theorem find_range_none {n : Nat} {p : Nat → Bool} (h : (List.range n).find? p = none) (j : Nat)
    (hj : j < n) : p j = false := by
  rw [List.find?_eq_none] at h
  simpa using h j (List.mem_range.2 hj)

/-! ### Alternating chains -/

/-- An alternating chain of primes and stars, starting with the prime `(r, c)`. -/
inductive Chain (μ : Nat → Nat → Nat) : Nat → Nat → List (Nat × Nat) → Prop
  | stop {r c} : (∀ i, μ i c ≠ 1) → Chain μ r c [(r, c)]
  | step {r c r1 c1 L} : μ r1 c = 1 → μ r1 c1 = 2 → Chain μ r1 c1 L → (∀ p ∈ L, p.1 ≠ r) →
      Chain μ r c ((r, c) :: (r1, c) :: L)

theorem Chain.head {μ r c L} (h : Chain μ r c L) : (r, c) ∈ L := by
  cases h <;> simp

theorem Chain.congr {μ ν : Nat → Nat → Nat} (hcol : ∀ j, (∃ i, ν i j = 1) → ∃ i, μ i j = 1)
    {r c L} (h : Chain μ r c L) (hrow : ∀ p ∈ L, p.1 ≠ r → ∀ j, ν p.1 j = μ p.1 j) : Chain ν r c L := by
  induction h with
  | stop h =>
    refine .stop fun i hi => ?_
    obtain ⟨i', h'⟩ := hcol _ ⟨i, hi⟩
    exact h i' h'
  | @step r c r1 c1 L h1 h2 h3 h4 ih =>
    have hne : r1 ≠ r := h4 _ h3.head
    have e : ∀ j, ν r1 j = μ r1 j := hrow (r1, c) (by simp) hne
    refine .step (by rw [e, h1]) (by rw [e, h2]) (ih ?_) h4
    intro p hp _
    exact hrow p (by simp [hp]) (h4 p hp)

/-- Independence of the stars. -/
structure Indep (μ : Nat → Nat → Nat) : Prop where
  row : ∀ i j j', μ i j = 1 → μ i j' = 1 → j = j'
  col : ∀ i i' j, μ i j = 1 → μ i' j = 1 → i = i'

theorem upd2_eq {α : Type} (m : Nat → Nat → α) (i j : Nat) (v : α) (i' j' : Nat) :
    upd2 m i j v i' j' = if i' = i ∧ j' = j then v else m i' j' := rfl

/-- Flipping an alternating chain keeps the stars independent and stars one more row. -/
theorem augment {μ : Nat → Nat → Nat} {r c L} (hc : Chain μ r c L) (hi : Indep μ)
    (hno : ∀ j, μ r j ≠ 1) :
    Indep (L.foldl flip μ) ∧
    (∀ i, (∃ j, L.foldl flip μ i j = 1) ↔ (∃ j, μ i j = 1) ∨ i = r) ∧
    (∀ i j, L.foldl flip μ i j = 1 → μ i j = 1 ∨ μ i j = 2 ∨ (i = r ∧ j = c)) ∧
    (∀ i j, L.foldl flip μ i j ≠ 0 → L.foldl flip μ i j = 1 ∨ L.foldl flip μ i j = μ i j) := by
  induction L using List.twoStepInduction generalizing μ r c with
  | nil => cases hc
  | singleton p =>
    cases hc with
    | stop h =>
      simp only [List.foldl_cons, List.foldl_nil]
      have hf : flip μ (r, c) = upd2 μ r c 1 := by simp [flip, hno c]
      rw [hf]
      refine ⟨⟨?_, ?_⟩, ?_, ?_, ?_⟩
      · intro i j j' h1 h2
        rw [upd2_eq] at h1 h2
        split_ifs at h1 h2 with ha hb hb
        · omega
        · exact absurd (ha.1 ▸ h2) (hno j')
        · exact absurd (hb.1 ▸ h1) (hno j)
        · exact hi.row i j j' h1 h2
      · intro i i' j h1 h2
        rw [upd2_eq] at h1 h2
        split_ifs at h1 h2 with ha hb hb
        · omega
        · exact absurd (ha.2 ▸ h2) (h i')
        · exact absurd (hb.2 ▸ h1) (h i)
        · exact hi.col i i' j h1 h2
      · intro i
        constructor
        · rintro ⟨j, hj⟩
          rw [upd2_eq] at hj
          split_ifs at hj with ha
          · exact .inr ha.1
          · exact .inl ⟨j, hj⟩
        · rintro (⟨j, hj⟩ | rfl)
          · refine ⟨j, ?_⟩
            rw [upd2_eq]; split_ifs; rfl; exact hj
          · exact ⟨c, by simp [upd2_eq]⟩
      · intro i j hj
        rw [upd2_eq] at hj
        split_ifs at hj with ha
        · exact .inr (.inr ha)
        · exact .inl hj
      · intro i j _
        rw [upd2_eq]; split_ifs <;> simp
  | cons_cons p q L ih _ =>
    cases hc with
    | @step _ _ r1 c1 _ h1 h2 h3 h4 =>
      have hne : r1 ≠ r := h4 _ h3.head
      have hcc : c1 ≠ c := by rintro rfl; omega
      simp only [List.foldl_cons]
      have hf : flip (flip μ (r, c)) (r1, c) = upd2 (upd2 μ r c 1) r1 c 0 := by
        simp [flip, hno c, upd2_eq, hne, h1]
      rw [hf]
      set ν := upd2 (upd2 μ r c 1) r1 c 0 with hν
      have hval : ∀ i j, ν i j = if i = r1 ∧ j = c then 0 else if i = r ∧ j = c then 1 else μ i j := by
        intro i j; rw [hν, upd2_eq, upd2_eq]
      have hstar : ∀ i j, ν i j = 1 ↔ (i = r ∧ j = c) ∨ (μ i j = 1 ∧ ¬ (i = r1 ∧ j = c)) := by
        intro i j; rw [hval]
        split_ifs with ha hb
        · simp only [zero_ne_one, ha, and_self, not_true_eq_false, and_false, or_false, false_iff, and_true]
          exact hne
        · simp [hb]
        · simp [ha, hb]
      have hind : Indep ν := by
        refine ⟨?_, ?_⟩
        · intro i j j' a b
          rw [hstar] at a b
          rcases a with ⟨rfl, rfl⟩ | ⟨a, a'⟩ <;> rcases b with ⟨hb, rfl⟩ | ⟨b, b'⟩
          · rfl
          · exact absurd b (hno j')
          · exact absurd (hb ▸ a) (hno j)
          · exact hi.row _ _ _ a b
        · intro i i' j a b
          rw [hstar] at a b
          rcases a with ⟨rfl, rfl⟩ | ⟨a, a'⟩ <;> rcases b with ⟨rfl, hb⟩ | ⟨b, b'⟩
          · rfl
          · exact absurd ⟨hi.col _ _ _ b h1, rfl⟩ b'
          · exact absurd ⟨hi.col _ _ _ a (hb ▸ h1), hb⟩ a'
          · exact hi.col _ _ _ a b
      have hno' : ∀ j, ν r1 j ≠ 1 := by
        intro j hj
        rw [hstar] at hj
        rcases hj with ⟨h, _⟩ | ⟨h, h'⟩
        · exact hne h
        · exact h' ⟨rfl, hi.row _ _ _ h h1⟩
      have hch : Chain ν r1 c1 L := by
        apply Chain.congr _ h3
        · intro p hp hp1 j
          have := h4 p hp
          rw [hval]; simp [this, hp1]
        · rintro j ⟨i, hij⟩
          rw [hstar] at hij
          rcases hij with ⟨_, rfl⟩ | ⟨h, _⟩
          · exact ⟨r1, h1⟩
          · exact ⟨i, h⟩
      obtain ⟨g1, g2, g3, g4⟩ := ih hch hind hno'
      refine ⟨g1, ?_, ?_, ?_⟩
      · intro i
        rw [g2 i]
        constructor
        · rintro (⟨j, hj⟩ | rfl)
          · rw [hstar] at hj
            rcases hj with ⟨rfl, _⟩ | ⟨h, _⟩
            · exact .inr rfl
            · exact .inl ⟨j, h⟩
          · exact .inl ⟨c, h1⟩
        · rintro (⟨j, hj⟩ | rfl)
          · by_cases h : i = r1
            · exact .inr h
            · exact .inl ⟨j, (hstar i j).2 (.inr ⟨hj, fun h' => h h'.1⟩)⟩
          · exact .inl ⟨c, (hstar _ _).2 (.inl ⟨rfl, rfl⟩)⟩
      · intro i j hij
        rcases g3 i j hij with h | h | ⟨rfl, rfl⟩
        · rw [hstar] at h
          rcases h with h | ⟨h, _⟩
          · exact .inr (.inr h)
          · exact .inl h
        · rw [hval] at h
          split_ifs at h
          · omega
          · exact .inr (.inl h)
        · exact .inr (.inl h2)
      · intro i j hij
        rcases g4 i j hij with h | h
        · exact .inl h
        · rw [h] at hij ⊢
          rw [hval] at hij ⊢
          split_ifs at hij ⊢ with ha hb
          · exact absurd rfl hij
          · exact .inl rfl
          · exact .inr rfl

/-! ### Invariants -/

/-- `C` is the cost matrix `P` minus row and column potentials, non-negative, with denominators
dividing `D`. -/
structure Base (P : Nat → Nat → ℚ) (n D : Nat) (s : St) : Prop where
  hn : s.n = n
  pot : ∃ u v : Nat → ℚ, ∀ i j, i < n → j < n → s.C i j = P i j - u i - v j
  nonneg : ∀ i j, i < n → j < n → 0 ≤ s.C i j
  int : ∀ i j, i < n → j < n → ∃ z : ℤ, (D : ℚ) * s.C i j = z

/-- Stars are independent zeros. -/
structure Stars (n : Nat) (s : St) : Prop where
  ind : Indep s.mark
  rng : ∀ i j, s.mark i j ≠ 0 → i < n ∧ j < n
  zero : ∀ i j, s.mark i j = 1 → s.C i j = 0

/-- Nothing primed or covered. -/
structure Clean (s : St) : Prop where
  noprime : ∀ i j, s.mark i j ≠ 2
  rows : ∀ i, s.rowC i = false
  cols : ∀ j, s.colC j = false

/-- The cover invariant of steps 4 and 6. -/
structure Cov (n : Nat) (s : St) : Prop where
  star : ∀ i j, s.mark i j = 1 → s.colC j = !s.rowC i
  col : ∀ j, s.colC j = true → ∃ i, s.mark i j = 1
  row : ∀ i, s.rowC i = true → ∃ j, s.mark i j = 1
  prime : ∀ i j, s.mark i j = 2 → s.rowC i = true ∧ s.colC j = false ∧ s.C i j = 0
  primeEx : ∀ i, s.rowC i = true → ∃ j, s.mark i j = 2
  order : ∃ t : Nat → Nat,
    (∀ i, s.rowC i = true → t i < ((Finset.range n).filter fun i => s.rowC i = true).card) ∧
    (∀ i j i', s.mark i j = 2 → s.mark i' j = 1 → s.rowC i' = true ∧ t i' < t i)

/-- What holds when step 5 starts. -/
structure Aug (n : Nat) (s : St) : Prop where
  zr : s.z.1 < n ∧ s.z.2 < n
  zm : s.mark s.z.1 s.z.2 = 2
  free : ∀ j, s.mark s.z.1 j ≠ 1
  zero : ∀ i j, s.mark i j = 2 → s.C i j = 0
  chain : ∃ L, buildPath s (2 * n - 1) s.z.2 = .ok L ∧ Chain s.mark s.z.1 s.z.2 (s.z :: L)

/-- Rows with a star. -/
def starRows (s : St) : Finset Nat :=
  (Finset.range s.n).filter fun i => ∃ j ∈ Finset.range s.n, s.mark i j = 1

theorem mem_starRows {n : Nat} {s : St} (hn : s.n = n) (hs : Stars n s) (i : Nat) :
    i ∈ starRows s ↔ ∃ j, s.mark i j = 1 := by
  unfold starRows
  rw [Finset.mem_filter]
  constructor
  · rintro ⟨_, j, _, h⟩; exact ⟨j, h⟩
  · rintro ⟨j, h⟩
    have := hs.rng i j (by omega)
    rw [Finset.mem_range, hn]
    exact ⟨this.1, j, Finset.mem_range.2 (hn ▸ this.2), h⟩

/-! ### Step 5 -/

theorem buildPath_ok {n : Nat} {s : St} (hn : s.n = n) (hs : Stars n s)
    (hpe : ∀ i, s.rowC i = true → ∃ j, s.mark i j = 2)
    (t : Nat → Nat)
    (ht : ∀ i j i', s.rowC i = true → s.mark i j = 2 → s.mark i' j = 1 → s.rowC i' = true ∧ t i' < t i) :
    ∀ (b room r c : Nat), (∀ i, s.mark i c = 1 → s.rowC i = true ∧ t i < b) →
      (∀ i, s.rowC i = true → t i < b → i ≠ r) → 2 * b ≤ room →
      ∃ L, buildPath s room c = .ok L ∧ Chain s.mark r c ((r, c) :: L) ∧
        ∀ p ∈ L, s.rowC p.1 = true ∧ t p.1 < b := by
  intro b
  induction b using Nat.strong_induction_on with
  | _ b ih =>
    intro room r c hst hr hroom
    cases hf : findStarInCol s c with
    | none =>
      refine ⟨[], ?_, .stop ?_, by simp⟩
      · unfold buildPath
        split <;> simp [hf]
      · intro i hi
        have h1 := (hs.rng i c (by omega)).1
        have := find_range_none hf i (hn ▸ h1)
        simp [hi] at this
    | some r1 =>
      have h1 := find_range_some hf
      simp only [decide_eq_true_eq] at h1
      obtain ⟨g1, g2⟩ := hst r1 h1.2
      match room, hroom with
      | 0, h => omega
      | 1, h => omega
      | room + 2, h =>
        cases hp : findPrimeInRow s r1 with
        | none =>
          obtain ⟨j, hj⟩ := hpe r1 g1
          have h2 := (hs.rng r1 j (by omega)).2
          have := find_range_none hp j (hn ▸ h2)
          simp [hj] at this
        | some c1 =>
          have h2 := find_range_some hp
          simp only [decide_eq_true_eq] at h2
          obtain ⟨L, e1, e2, e3⟩ := ih (t r1) g2 room r1 c1
            (fun i hi => ht r1 c1 i g1 h2.2 hi)
            (fun i _ hi => by rintro rfl; omega) (by omega)
          refine ⟨(r1, c) :: (r1, c1) :: L, ?_, ?_, ?_⟩
          · simp [buildPath, hf, hp, e1]
          · refine .step h1.2 h2.2 e2 ?_
            intro p hp
            rcases List.mem_cons.1 hp with rfl | hp
            · exact hr _ g1 g2
            · obtain ⟨a, b'⟩ := e3 p hp
              exact hr _ a (by omega)
          · intro p hp
            simp only [List.mem_cons] at hp
            rcases hp with rfl | rfl | hp
            · exact ⟨g1, g2⟩
            · exact ⟨g1, g2⟩
            · obtain ⟨a, b'⟩ := e3 p hp
              exact ⟨a, by omega⟩

theorem step5_ok {P : Nat → Nat → ℚ} {n D : Nat} {s : St} (hb : Base P n D s) (hs : Stars n s)
    (ha : Aug n s) :
    ∃ s', step5 s = .ok s' ∧ Base P n D s' ∧ Stars n s' ∧ Clean s' ∧ s'.C = s.C ∧
      (starRows s').card = (starRows s).card + 1 := by
  obtain ⟨L, e1, e2⟩ := ha.chain
  have hn := hb.hn
  have hn0 : 0 < n := by have := ha.zr.1; omega
  obtain ⟨g1, g2, g3, g4⟩ := augment e2 hs.ind ha.free
  have e : step5 s = .ok (erasePrimes (clearCovers (convertPath s (s.z :: L)))) := by
    unfold step5
    rw [if_neg (by omega), hn, e1]
  refine ⟨_, e, ?_, ?_, ?_, rfl, ?_⟩
  · exact ⟨hb.hn, hb.pot, hb.nonneg, hb.int⟩
  all_goals
    set μ := (s.z :: L).foldl flip s.mark with hμ
    have hstar : ∀ i j, (erasePrimes (clearCovers (convertPath s (s.z :: L)))).mark i j = 1 ↔ μ i j = 1 := by
      intro i j
      change (if μ i j = 2 then 0 else μ i j) = 1 ↔ _
      split <;> simp_all
    have hrng : ∀ i j, μ i j = 1 → i < n ∧ j < n := by
      intro i j h
      rcases g3 i j h with h | h | ⟨rfl, rfl⟩
      · exact hs.rng _ _ (by omega)
      · exact hs.rng _ _ (by omega)
      · exact ha.zr
    have hS : Stars n (erasePrimes (clearCovers (convertPath s (s.z :: L)))) := by
      refine ⟨⟨?_, ?_⟩, ?_, ?_⟩
      · intro i j j' h1 h2
        rw [hstar] at h1 h2; exact g1.row _ _ _ h1 h2
      · intro i j j' h1 h2
        rw [hstar] at h1 h2; exact g1.col _ _ _ h1 h2
      · intro i j h
        have h' : μ i j ≠ 0 ∧ μ i j ≠ 2 := by
          have : (if μ i j = 2 then 0 else μ i j) ≠ 0 := h
          split at this <;> simp_all
        rcases g4 i j h'.1 with h | h
        · exact hrng i j h
        · exact hs.rng i j (by rw [← h]; exact h'.1)
      · intro i j h
        rw [hstar] at h
        change s.C i j = 0
        rcases g3 i j h with h | h | ⟨rfl, rfl⟩
        · exact hs.zero _ _ h
        · exact ha.zero _ _ h
        · exact ha.zero _ _ ha.zm
  · exact hS
  · refine ⟨?_, fun _ => rfl, fun _ => rfl⟩
    intro i j h
    have : (if μ i j = 2 then 0 else μ i j) = 2 := h
    split at this <;> simp_all
  · have hnot : s.z.1 ∉ starRows s := by
      rw [mem_starRows hn hs]
      rintro ⟨j, hj⟩
      exact ha.free j hj
    have : starRows (erasePrimes (clearCovers (convertPath s (s.z :: L)))) = insert s.z.1 (starRows s) := by
      ext i
      rw [Finset.mem_insert, mem_starRows hn hs,
        mem_starRows (s := erasePrimes (clearCovers (convertPath s (s.z :: L)))) hn hS]
      simp only [hstar]
      rw [g2 i]; tauto
    rw [this, Finset.card_insert_of_notMem hnot]

/-! ### Step 4 -/

theorem step4_ok {P : Nat → Nat → ℚ} {n D : Nat} : ∀ (k : Nat) (s : St), Base P n D s → Stars n s →
    Cov n s → n < k + ((Finset.range n).filter fun i => s.rowC i = true).card →
    (∃ s', step4Loop k s = .ok (s', 6) ∧ Base P n D s' ∧ Stars n s' ∧ Cov n s' ∧ s'.C = s.C ∧
      starRows s' = starRows s ∧
      ∀ i j, i < n → j < n → s'.rowC i = false → s'.colC j = false → s'.C i j ≠ 0) ∨
    (∃ s', step4Loop k s = .ok (s', 5) ∧ Base P n D s' ∧ Stars n s' ∧ Aug n s' ∧ s'.C = s.C ∧
      starRows s' = starRows s) := by
  intro k
  induction k with
  | zero =>
    intro s _ _ _ h
    exfalso
    have := Finset.card_filter_le (Finset.range n) (fun i => s.rowC i = true)
    simp at this; omega
  | succ k ih =>
    intro s hb hs hc hk
    have hn := hb.hn
    cases hz : findAZero s with
    | none =>
      left
      refine ⟨s, by simp [step4Loop, hz], hb, hs, hc, rfl, rfl, ?_⟩
      intro i j hi hj
      exact findAZero_none hz i j (hn ▸ hi) (hn ▸ hj)
    | some p =>
      obtain ⟨r, c⟩ := p
      obtain ⟨z1, z2, z3, z4, z5⟩ := findAZero_some hz
      rw [hn] at z1 z2
      have hm0 : s.mark r c ≠ 1 := by
        intro h; have := hc.star r c h; simp [z4, z5] at this
      have hm2 : s.mark r c ≠ 2 := by
        intro h; have := (hc.prime r c h).1; simp [z4] at this
      have hstar : ∀ i j, upd2 s.mark r c 2 i j = 1 ↔ s.mark i j = 1 := by
        intro i j; rw [upd2_eq]
        split_ifs with h
        · obtain ⟨rfl, rfl⟩ := h; simp [hm0]
        · rfl
      have hpr : ∀ i j, upd2 s.mark r c 2 i j = 2 ↔ s.mark i j = 2 ∨ (i = r ∧ j = c) := by
        intro i j; rw [upd2_eq]
        split_ifs with h
        · simp [h]
        · simp [h]
      have hnz : ∀ i j, upd2 s.mark r c 2 i j ≠ 0 → i < n ∧ j < n := by
        intro i j; rw [upd2_eq]
        split_ifs with h
        · obtain ⟨rfl, rfl⟩ := h; exact fun _ => ⟨z1, z2⟩
        · exact hs.rng i j
      have hS : ∀ s' : St, s'.mark = upd2 s.mark r c 2 → s'.C = s.C → Stars n s' := by
        intro s' h1 h2
        refine ⟨⟨?_, ?_⟩, ?_, ?_⟩
        · intro i j j' a b; rw [h1, hstar] at a b; exact hs.ind.row _ _ _ a b
        · intro i j j' a b; rw [h1, hstar] at a b; exact hs.ind.col _ _ _ a b
        · intro i j; rw [h1]; exact hnz i j
        · intro i j a; rw [h1, hstar] at a; rw [h2]; exact hs.zero _ _ a
      have hSR : ∀ s' : St, s'.mark = upd2 s.mark r c 2 → s'.C = s.C → s'.n = n → starRows s' = starRows s := by
        intro s' h1 h2 h3
        ext i
        rw [mem_starRows h3 (hS s' h1 h2), mem_starRows hn hs, h1]
        simp only [hstar]
      obtain ⟨t, t1, t2⟩ := hc.order
      cases hf : findStarInRow { s with mark := upd2 s.mark r c 2 } r with
      | none =>
        right
        have hfree : ∀ j, s.mark r j ≠ 1 := by
          intro j hj
          have h1 := (hs.rng r j (by omega)).2
          have := find_range_none hf j (by rw [← hn] at h1; exact h1)
          simp [(hstar r j).2 hj] at this
        refine ⟨{ s with mark := upd2 s.mark r c 2, z := (r, c) }, by simp [step4Loop, hz, hf],
          ⟨hb.hn, hb.pot, hb.nonneg, hb.int⟩, hS _ rfl rfl, ?_, rfl, hSR _ rfl rfl hn⟩
        refine ⟨⟨z1, z2⟩, (hpr r c).2 (.inr ⟨rfl, rfl⟩), ?_, ?_, ?_⟩
        · intro j hj; exact hfree j ((hstar r j).1 hj)
        · intro i j h
          rcases (hpr i j).1 h with h | ⟨rfl, rfl⟩
          · exact (hc.prime i j h).2.2
          · exact z3
        · have hcard : ((Finset.range n).filter fun i => s.rowC i = true).card < n := by
            have : ((Finset.range n).filter fun i => s.rowC i = true) ⊂ Finset.range n := by
              rw [Finset.filter_ssubset]
              exact ⟨r, Finset.mem_range.2 z1, by simp [z4]⟩
            simpa using Finset.card_lt_card this
          have := buildPath_ok (s := { s with mark := upd2 s.mark r c 2, z := (r, c) }) hn (hS _ rfl rfl)
            (fun i hi => by
              obtain ⟨j, hj⟩ := hc.primeEx i hi
              exact ⟨j, (hpr i j).2 (.inl hj)⟩) t
            (fun i j i' hi h1 h2 => by
              have h2' := (hstar i' j).1 h2
              rcases (hpr i j).1 h1 with h | ⟨rfl, rfl⟩
              · exact t2 i j i' h h2'
              · simp [z4] at hi)
            ((Finset.range n).filter fun i => s.rowC i = true).card (2 * n - 1) r c
            (fun i hi => by
              have hi' := (hstar i c).1 hi
              have := hc.star i c hi'
              rw [z5] at this
              have hrow : s.rowC i = true := by simpa using this.symm
              exact ⟨hrow, t1 i hrow⟩)
            (fun i hi _ => by rintro rfl; simp [z4] at hi) (by omega)
          obtain ⟨L, e1, e2, _⟩ := this
          exact ⟨L, e1, e2⟩
      | some c' =>
        have h1 := find_range_some hf
        simp only [decide_eq_true_eq] at h1
        have hst : s.mark r c' = 1 := (hstar r c').1 h1.2
        have hcc : c' ≠ c := by rintro rfl; exact hm0 hst
        have hcard : ((Finset.range n).filter fun i => upd s.rowC r true i = true).card =
            ((Finset.range n).filter fun i => s.rowC i = true).card + 1 := by
          have : ((Finset.range n).filter fun i => upd s.rowC r true i = true) =
              insert r ((Finset.range n).filter fun i => s.rowC i = true) := by
            ext i
            by_cases h : i = r <;> simp [upd, h, z1]
          rw [this, Finset.card_insert_of_notMem (by simp [z4])]
        set s2 : St := { s with mark := upd2 s.mark r c 2, rowC := upd s.rowC r true, colC := upd s.colC c' false } with hs2
        have hcov : Cov n s2 := by
          refine ⟨?_, ?_, ?_, ?_, ?_, ?_⟩
          · intro i j hh
            have h := (hstar i j).1 hh
            have h0 := hc.star i j h
            simp only [hs2, upd]
            by_cases hi : i = r
            · subst hi
              have : j = c' := hs.ind.row _ _ _ h hst
              simp [this]
            · have : j ≠ c' := by rintro rfl; exact hi (hs.ind.col _ _ _ h hst)
              simp [hi, this, h0]
          · intro j h
            simp only [hs2, upd] at h
            split_ifs at h with hj
            obtain ⟨i, hi⟩ := hc.col j h
            exact ⟨i, (hstar i j).2 hi⟩
          · intro i h
            simp only [hs2, upd] at h
            split_ifs at h with hi
            · subst hi; exact ⟨c', (hstar _ _).2 hst⟩
            · obtain ⟨j, hj⟩ := hc.row i h
              exact ⟨j, (hstar i j).2 hj⟩
          · intro i j h
            rcases (hpr i j).1 h with h | ⟨rfl, rfl⟩
            · obtain ⟨a, b, d⟩ := hc.prime i j h
              refine ⟨?_, ?_, d⟩
              · simp only [hs2, upd]; split_ifs <;> simp [a]
              · simp only [hs2, upd]; split_ifs <;> simp [b]
            · refine ⟨by simp [hs2, upd], ?_, z3⟩
              simp only [hs2, upd]; split_ifs <;> simp [z5]
          · intro i h
            simp only [hs2, upd] at h
            split_ifs at h with hi
            · subst hi; exact ⟨c, (hpr _ _).2 (.inr ⟨rfl, rfl⟩)⟩
            · obtain ⟨j, hj⟩ := hc.primeEx i h
              exact ⟨j, (hpr i j).2 (.inl hj)⟩
          · refine ⟨fun i => if i = r then ((Finset.range n).filter fun i => s.rowC i = true).card else t i, ?_, ?_⟩
            · intro i h
              change _ < ((Finset.range n).filter fun i => upd s.rowC r true i = true).card
              rw [hcard]
              simp only [hs2, upd] at h
              by_cases hi : i = r
              · simp [hi]
              · simp only [hi, if_false] at h ⊢
                have := t1 i h; omega
            · intro i j i' hp hss
              have hs' := (hstar i' j).1 hss
              rcases (hpr i j).1 hp with h | ⟨rfl, rfl⟩
              · obtain ⟨a, b⟩ := t2 i j i' h hs'
                have hi' : i' ≠ r := by rintro rfl; simp [z4] at a
                have hi : i ≠ r := by rintro rfl; have := (hc.prime _ _ h).1; simp [z4] at this
                simp [hs2, upd, hi, hi', a, b]
              · have := hc.star i' j hs'
                rw [z5] at this
                have hrow : s.rowC i' = true := by simpa using this.symm
                have hi' : i' ≠ i := by rintro rfl; simp [z4] at hrow
                simp [hs2, upd, hi', hrow, t1 i' hrow]
        have := ih s2 ⟨hb.hn, hb.pot, hb.nonneg, hb.int⟩ (hS s2 rfl rfl) hcov
          (by change n < k + ((Finset.range n).filter fun i => upd s.rowC r true i = true).card
              rw [hcard]; omega)
        have hstep : step4Loop (k + 1) s = step4Loop k s2 := by simp [step4Loop, hz, hf, hs2]
        rw [hstep]
        have hsr : starRows s2 = starRows s := hSR s2 rfl rfl hn
        rcases this with ⟨s', a1, a2, a3, a4, a5, a6, a7⟩ | ⟨s', a1, a2, a3, a4, a5, a6⟩
        · exact .inl ⟨s', a1, a2, a3, a4, a5, a6.trans hsr, a7⟩
        · exact .inr ⟨s', a1, a2, a3, a4, a5, a6.trans hsr⟩

end Verif.Munkres
