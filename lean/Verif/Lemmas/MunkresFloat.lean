import Verif.Model.MunkresFloat
import Verif.Spec.Rounding
import Verif.Lemmas.MunkresRun

set_option linter.unusedSectionVars false
namespace Verif.Munkres
open Verif Verif.Spec.Assignment Verif.Spec.Rounding

/-! ### Starred lines -/

/-- What has a star keeps a star. -/
structure Grow (s s' : St) : Prop where
  row : ∀ i, (∃ j, s.mark i j = 1) → ∃ j, s'.mark i j = 1
  col : ∀ j, (∃ i, s.mark i j = 1) → ∃ i, s'.mark i j = 1

theorem augment_col {μ : Nat → Nat → Nat} {r c L} (hc : Chain μ r c L) (hi : Indep μ)
    (hno : ∀ j, μ r j ≠ 1) (j : Nat) (hj : ∃ i, μ i j = 1) : ∃ i, L.foldl flip μ i j = 1 := by
  induction L using List.twoStepInduction generalizing μ r c with
  | nil => cases hc
  | singleton p =>
    cases hc with
    | stop h =>
      obtain ⟨i, hij⟩ := hj
      refine ⟨i, ?_⟩
      have hf : flip μ (r, c) = upd2 μ r c 1 := by simp [flip, hno c]
      simp only [List.foldl_cons, List.foldl_nil, hf, upd2_eq]
      split_ifs <;> simp [hij]
  | cons_cons p q L ih _ =>
    cases hc with
    | @step _ _ r1 c1 _ h1 h2 h3 h4 =>
      have hne : r1 ≠ r := h4 _ h3.head
      simp only [List.foldl_cons]
      have hf : flip (flip μ (r, c)) (r1, c) = upd2 (upd2 μ r c 1) r1 c 0 := by
        simp [flip, hno c, upd2_eq, hne, h1]
      rw [hf]
      set ν := upd2 (upd2 μ r c 1) r1 c 0 with hν
      have hval : ∀ i j, ν i j = if i = r1 ∧ j = c then 0 else if i = r ∧ j = c then 1 else μ i j := by
        intro i j; rw [hν, upd2_eq, upd2_eq]
      have hstar : ∀ i j, ν i j = 1 ↔ (i = r ∧ j = c) ∨ (μ i j = 1 ∧ ¬ (i = r1 ∧ j = c)) := by
        intro i j; rw [hval]
        split_ifs with ha hb
        · simp only [zero_ne_one, ha, and_self, not_true_eq_false, and_false, or_false, false_iff, and_true]
          exact hne
        · simp [hb]
        · simp [ha, hb]
      have hind : Indep ν := by
        refine ⟨?_, ?_⟩
        · intro i j j' a b
          rw [hstar] at a b
          rcases a with ⟨rfl, rfl⟩ | ⟨a, a'⟩ <;> rcases b with ⟨hb, rfl⟩ | ⟨b, b'⟩
          · rfl
          · exact absurd b (hno j')
          · exact absurd (hb ▸ a) (hno j)
          · exact hi.row _ _ _ a b
        · intro i i' j a b
          rw [hstar] at a b
          rcases a with ⟨rfl, rfl⟩ | ⟨a, a'⟩ <;> rcases b with ⟨rfl, hb⟩ | ⟨b, b'⟩
          · rfl
          · exact absurd ⟨hi.col _ _ _ b h1, rfl⟩ b'
          · exact absurd ⟨hi.col _ _ _ a (hb ▸ h1), hb⟩ a'
          · exact hi.col _ _ _ a b
      have hno' : ∀ j, ν r1 j ≠ 1 := by
        intro j hj
        rw [hstar] at hj
        rcases hj with ⟨h, _⟩ | ⟨h, h'⟩
        · exact hne h
        · exact h' ⟨rfl, hi.row _ _ _ h h1⟩
      have hch : Chain ν r1 c1 L := by
        apply Chain.congr _ h3
        · intro p hp hp1 j
          have := h4 p hp
          rw [hval]; simp [this, hp1]
        · rintro j ⟨i, hij⟩
          rw [hstar] at hij
          rcases hij with ⟨_, rfl⟩ | ⟨h, _⟩
          · exact ⟨r1, h1⟩
          · exact ⟨i, h⟩
      refine ih hch hind hno' ?_
      obtain ⟨i, hij⟩ := hj
      by_cases hjc : j = c
      · exact ⟨r, (hstar _ _).2 (.inl ⟨rfl, hjc⟩)⟩
      · exact ⟨i, (hstar _ _).2 (.inr ⟨hij, fun h => hjc h.2⟩)⟩

theorem step5_grow {n : Nat} {s s' : St} (hn : s.n = n) (hs : Stars n s) (ha : Aug n s) (h : step5 s = .ok s') :
    Grow s s' := by
  obtain ⟨L, e1, e2⟩ := ha.chain
  have hn0 : 0 < n := by have := ha.zr.1; omega
  obtain ⟨g1, g2, g3, g4⟩ := augment e2 hs.ind ha.free
  have e : step5 s = .ok (erasePrimes (clearCovers (convertPath s (s.z :: L)))) := by
    unfold step5
    rw [if_neg (by omega), hn, e1]
  rw [e] at h
  cases h
  set μ := (s.z :: L).foldl flip s.mark with hμ
  have hstar : ∀ i j, (erasePrimes (clearCovers (convertPath s (s.z :: L)))).mark i j = 1 ↔ μ i j = 1 := by
    intro i j
    change (if μ i j = 2 then 0 else μ i j) = 1 ↔ _
    split <;> simp_all
  constructor
  · intro i hi
    obtain ⟨j, hj⟩ := (g2 i).2 (.inl hi)
    exact ⟨j, (hstar i j).2 hj⟩
  · intro j hj
    obtain ⟨i, hi⟩ := augment_col e2 hs.ind ha.free j hj
    exact ⟨i, (hstar i j).2 hi⟩

/-! ### Step 4 -/

theorem step4Loop_mono : ∀ (k : Nat) (s s' : St) (q : Nat), step4Loop k s = .ok (s', q) →
    (∀ i, s.rowC i = true → s'.rowC i = true) ∧ (∀ i j, s'.mark i j = 1 → s.mark i j = 1) ∧
    (q = 6 → findAZero s ≠ none → ∃ r, r < s.n ∧ s.rowC r = false ∧ s'.rowC r = true) := by
  intro k
  induction k with
  | zero => intro s s' q h; simp [step4Loop] at h
  | succ k ih =>
    intro s s' q h
    unfold step4Loop at h
    rcases hz : findAZero s with _ | ⟨r, c⟩
    · simp only [hz] at h
      cases h
      exact ⟨fun _ h => h, fun _ _ h => h, fun _ h => absurd rfl h⟩
    · simp only [hz] at h
      obtain ⟨z1, z2, z3, z4, z5⟩ := findAZero_some hz
      have hm : ∀ i j, upd2 s.mark r c 2 i j = 1 → s.mark i j = 1 := by
        intro i j hij
        rw [upd2_eq] at hij
        split_ifs at hij
        · omega
        · exact hij
      split at h
      · rename_i c' hc'
        obtain ⟨h1, h2, h3⟩ := ih _ s' q h
        have hr : s'.rowC r = true := h1 r (by simp [upd])
        refine ⟨fun i hi => h1 i ?_, fun i j hij => hm i j (h2 i j hij), fun _ _ => ⟨r, z1, z4, hr⟩⟩
        simp only [upd]; split <;> simp [hi]
      · cases h
        exact ⟨fun _ h => h, hm, fun h => absurd h (by decide)⟩

theorem card_rows_mono {n : Nat} {s s' : St} (h : ∀ i, s.rowC i = true → s'.rowC i = true) :
    ((Finset.range n).filter fun i => s.rowC i = true).card ≤ ((Finset.range n).filter fun i => s'.rowC i = true).card := by
  apply Finset.card_le_card
  intro i hi
  rw [Finset.mem_filter] at hi ⊢
  exact ⟨hi.1, h i hi.2⟩

theorem card_rows_lt {n r : Nat} {s s' : St} (h : ∀ i, s.rowC i = true → s'.rowC i = true) (hr : r < n)
    (h1 : s.rowC r = false) (h2 : s'.rowC r = true) :
    ((Finset.range n).filter fun i => s.rowC i = true).card < ((Finset.range n).filter fun i => s'.rowC i = true).card := by
  apply Finset.card_lt_card
  rw [Finset.ssubset_iff_of_subset]
  · exact ⟨r, by simp [hr, h2], by simp [h1]⟩
  · intro i hi
    rw [Finset.mem_filter] at hi ⊢
    exact ⟨hi.1, h i hi.2⟩

theorem step4_grow {n : Nat} {s s' : St} {q : Nat} (hn : s.n = n) (hn' : s'.n = n) (hs : Stars n s) (hs' : Stars n s')
    (hr : starRows s' = starRows s) (h : step4Loop (s.n + 1) s = .ok (s', q)) : Grow s s' := by
  obtain ⟨_, h2, _⟩ := step4Loop_mono _ _ _ _ h
  have hrow : ∀ i, (∃ j, s.mark i j = 1) → ∃ j, s'.mark i j = 1 := by
    intro i hi
    have := (mem_starRows hn hs i).2 hi
    rw [← hr] at this
    exact (mem_starRows hn' hs' i).1 this
  refine ⟨hrow, ?_⟩
  rintro j ⟨i, hij⟩
  obtain ⟨j', hj'⟩ := hrow i ⟨j, hij⟩
  have := hs.ind.row i j j' hij (h2 _ _ hj')
  subst this
  exact ⟨i, hj'⟩

/-! ### A free entry -/

theorem exists_free {n : Nat} {s : St} (hn : s.n = n) (hs : Stars n s) (hlt : (starRows s).card < n) :
    ∃ i j, i < n ∧ j < n ∧ (∀ j', s.mark i j' ≠ 1) ∧ (∀ i', s.mark i' j ≠ 1) := by
  classical
  have h1 : ∃ i, i < n ∧ i ∉ starRows s := by
    by_contra hcon
    push Not at hcon
    have : Finset.range n ⊆ starRows s := fun i hi => hcon i (Finset.mem_range.1 hi)
    have := Finset.card_le_card this
    simp at this; omega
  obtain ⟨i, hi, hi'⟩ := h1
  have h2 : ∃ j, j < n ∧ ∀ i', s.mark i' j ≠ 1 := by
    by_contra hcon
    push Not at hcon
    choose! g hg using hcon
    have hinj : Set.InjOn g (Finset.range n) := by
      intro a ha b hb hab
      have ha' := hg a (Finset.mem_range.1 ha)
      have hb' := hg b (Finset.mem_range.1 hb)
      rw [hab] at ha'
      exact hs.ind.row _ _ _ ha' hb'
    have : (Finset.range n).image g ⊆ starRows s := by
      intro x hx
      rw [Finset.mem_image] at hx
      obtain ⟨j, hj, rfl⟩ := hx
      exact (mem_starRows hn hs _).2 ⟨j, hg j (Finset.mem_range.1 hj)⟩
    have := Finset.card_le_card this
    rw [Finset.card_image_of_injOn hinj] at this
    simp at this; omega
  obtain ⟨j, hj, hj'⟩ := h2
  refine ⟨i, j, hi, hj, fun j' h => hi' ((mem_starRows hn hs i).2 ⟨j', h⟩), hj'⟩

/-- Lines without a star are not covered. -/
theorem free_uncovered {n : Nat} {s : St} (hc : Cov n s) {i j : Nat} (hi : ∀ j', s.mark i j' ≠ 1)
    (hj : ∀ i', s.mark i' j ≠ 1) : s.rowC i = false ∧ s.colC j = false := by
  constructor
  · rcases h : s.rowC i with _ | _
    · rfl
    · obtain ⟨j', hj'⟩ := hc.row i h; exact absurd hj' (hi j')
  · rcases h : s.colC j with _ | _
    · rfl
    · obtain ⟨i', hi'⟩ := hc.col j h; exact absurd hi' (hj i')

/-! ### Rounded costs -/

/-- The costs are rounded and not negative, and those of lines without a star are at most B. -/
structure FBase (fl : ℚ → ℚ) (n : Nat) (B : ℚ) (s : St) : Prop where
  hn : s.n = n
  nonneg : ∀ i j, i < n → j < n → 0 ≤ s.C i j
  rep : ∀ i j, i < n → j < n → fl (s.C i j) = s.C i j
  free : ∀ i j, i < n → j < n → (∀ j', s.mark i j' ≠ 1) → (∀ i', s.mark i' j ≠ 1) → s.C i j ≤ B

theorem FBase.base {fl n B s} (h : FBase fl n B s) : ∃ D, Base s.C n D s := by
  obtain ⟨D, _, hint⟩ := exists_den s.C n
  exact ⟨D, h.hn, ⟨fun _ => 0, fun _ => 0, by simp⟩, h.nonneg, hint⟩

theorem FBase.grow {fl n B} {s s' : St} (h : FBase fl n B s) (hn : s'.n = n) (hC : s'.C = s.C) (hg : Grow s s') :
    FBase fl n B s' := by
  refine ⟨hn, by rw [hC]; exact h.nonneg, by rw [hC]; exact h.rep, ?_⟩
  intro i j hi hj h1 h2
  rw [hC]
  refine h.free i j hi hj (fun j' hj' => ?_) (fun i' hi' => ?_)
  · obtain ⟨j'', h⟩ := hg.row i ⟨j', hj'⟩; exact h1 _ h
  · obtain ⟨i'', h⟩ := hg.col j ⟨i', hi'⟩; exact h2 _ h

/-- The smallest uncovered cost is that of an uncovered entry, if free entries are at most B. -/
theorem smallest_entry {n : Nat} {B : ℚ} {s : St} (hB : B ≤ maxint) (hn : s.n = n) (hs : Stars n s)
    (hfree : ∀ i j, i < n → j < n → (∀ j', s.mark i j' ≠ 1) → (∀ i', s.mark i' j ≠ 1) → s.C i j ≤ B)
    (hc : Cov n s) (hlt : (starRows s).card < n) :
    (∃ i j, i < n ∧ j < n ∧ s.rowC i = false ∧ s.colC j = false ∧ findSmallest s = s.C i j) ∧
    (∀ i j, i < n → j < n → s.rowC i = false → s.colC j = false → findSmallest s ≤ s.C i j) := by
  obtain ⟨m1, m2, m3⟩ := findSmallest_aux s (cells s.n s.n) maxint
  change findSmallest s ≤ maxint at m1
  change ∀ p ∈ cells s.n s.n, _ → _ → findSmallest s ≤ _ at m2
  change findSmallest s = maxint ∨ ∃ p ∈ cells s.n s.n, _ ∧ _ ∧ findSmallest s = _ at m3
  have hle : ∀ i j, i < n → j < n → s.rowC i = false → s.colC j = false → findSmallest s ≤ s.C i j :=
    fun i j hi hj h1 h2 => m2 (i, j) (mem_cells.2 ⟨hn ▸ hi, hn ▸ hj⟩) h1 h2
  refine ⟨?_, hle⟩
  rcases m3 with h | ⟨p, hp, a, b, h⟩
  · obtain ⟨i, j, hi, hj, h1, h2⟩ := exists_free hn hs hlt
    obtain ⟨u1, u2⟩ := free_uncovered hc h1 h2
    refine ⟨i, j, hi, hj, u1, u2, ?_⟩
    have e1 := hle i j hi hj u1 u2
    have e2 := hfree i j hi hj h1 h2
    linarith
  · have hp := mem_cells.1 hp
    exact ⟨p.1, p.2, hn ▸ hp.1, hn ▸ hp.2, a, b, h⟩

theorem step6Fl_ok {fl : ℚ → ℚ} (hfl : Rounding fl) {n : Nat} {B : ℚ} {s : St} (hB : B ≤ maxint) (hb : FBase fl n B s)
    (hs : Stars n s) (hc : Cov n s) (hlt : (starRows s).card < n) :
    FBase fl n B (step6Fl fl s) ∧ Stars n (step6Fl fl s) ∧ Cov n (step6Fl fl s) ∧ findAZero (step6Fl fl s) ≠ none := by
  have hn := hb.hn
  obtain ⟨⟨p, q, hp, hq, p1, p2, hm⟩, hle⟩ := smallest_entry hB hn hs hb.free hc hlt
  have hrep : fl (findSmallest s) = findSmallest s := by rw [hm]; exact hb.rep p q hp hq
  have hpos : 0 ≤ findSmallest s := by rw [hm]; exact hb.nonneg p q hp hq
  set m := findSmallest s with hmdef
  have hC : ∀ i j, (step6Fl fl s).C i j =
      if s.colC j = false then fl ((if s.rowC i = true then fl (s.C i j + m) else s.C i j) - m)
      else (if s.rowC i = true then fl (s.C i j + m) else s.C i j) := by
    intro i j
    simp only [step6Fl, ← hmdef, hrep]
  have hnn : ∀ x, 0 ≤ x → 0 ≤ fl x := fun x hx => by rw [← hfl.zero]; exact hfl.mono hx
  refine ⟨⟨hn, ?_, ?_, ?_⟩, ⟨hs.ind, hs.rng, ?_⟩, ⟨hc.star, hc.col, hc.row, ?_, hc.primeEx, hc.order⟩, ?_⟩
  · intro i j hi hj
    have h1 := hb.nonneg i j hi hj
    rw [hC]
    by_cases hr : s.rowC i = true
    · have h2 : m ≤ fl (s.C i j + m) := by
        rw [← hrep]
        have : m ≤ s.C i j + m := by linarith
        calc fl m ≤ fl (s.C i j + m) := hfl.mono this
          _ = _ := by rw [hrep]
      by_cases hcc : s.colC j = false
      · rw [if_pos hcc, if_pos hr]; exact hnn _ (by linarith)
      · rw [if_neg hcc, if_pos hr]; linarith
    · by_cases hcc : s.colC j = false
      · have := hle i j hi hj (by simpa using hr) hcc
        rw [if_pos hcc, if_neg hr]; exact hnn _ (by linarith)
      · rw [if_neg hcc, if_neg hr]; exact h1
  · intro i j hi hj
    rw [hC]
    split_ifs
    · exact hfl.idem _
    · exact hfl.idem _
    · exact hfl.idem _
    · exact hb.rep i j hi hj
  · intro i j hi hj h1 h2
    obtain ⟨u1, u2⟩ := free_uncovered hc h1 h2
    rw [hC]
    simp only [u1, u2, if_true]
    have h3 := hb.free i j hi hj h1 h2
    have h4 : fl (s.C i j - m) ≤ fl (s.C i j) := hfl.mono (by linarith)
    rw [hb.rep i j hi hj] at h4
    simpa using h4.trans h3
  · intro i j h
    have h0 := hs.zero i j h
    have := hc.star i j h
    rw [hC]
    cases hr : s.rowC i
    · simp only [hr, Bool.not_false] at this
      simp [this, h0]
    · simp only [hr, Bool.not_true] at this
      simp [this, h0, hrep, hfl.zero]
  · intro i j h
    obtain ⟨a, b, d⟩ := hc.prime i j h
    refine ⟨a, b, ?_⟩
    rw [hC]
    simp [a, b, d, hrep, hfl.zero]
  · intro hnone
    refine findAZero_none hnone p q (hn ▸ hp) (hn ▸ hq) p1 p2 ?_
    rw [hC]
    simp [p1, p2, ← hm, hfl.zero]

/-! ### The main loop -/

/-- Invariant of the main loop from step 3 on. -/
def MainInvF (fl : ℚ → ℚ) (n : Nat) (B : ℚ) (a : St × Nat) : Prop :=
  FBase fl n B a.1 ∧ Stars n a.1 ∧
  ((a.2 = 3 ∧ Clean a.1) ∨ (a.2 = 4 ∧ Cov n a.1 ∧ (starRows a.1).card < n) ∨
   (a.2 = 5 ∧ Aug n a.1) ∨
   (a.2 = 6 ∧ Cov n a.1 ∧ (starRows a.1).card < n) ∨
   (a.2 = 7 ∧ (starRows a.1).card = n))

/-- The number of rows that are not covered. -/
def openRows (s : St) : Nat := s.n - ((Finset.range s.n).filter fun i => s.rowC i = true).card

/-- The part of the measure that depends on the step. -/
def weightF (s : St) : Nat → Nat
  | 3 => 2 * s.n + 3
  | 4 => 2 * openRows s + (if findAZero s = none then 2 else 0)
  | 6 => 2 * openRows s + 1
  | _ => 0

/-- Termination measure. -/
def measF (a : St × Nat) : Nat := (a.1.n - (starRows a.1).card) * (2 * a.1.n + 4) + weightF a.1 a.2

theorem measF_le (a : St × Nat) (n : Nat) (hn : a.1.n = n) : measF a ≤ n * (2 * n + 4) + 2 * n + 3 := by
  unfold measF
  rw [hn]
  have h1 : (n - (starRows a.1).card) * (2 * n + 4) ≤ n * (2 * n + 4) := Nat.mul_le_mul_right _ (Nat.sub_le _ _)
  have h2 : weightF a.1 a.2 ≤ 2 * n + 3 := by
    have : openRows a.1 ≤ n := by unfold openRows; omega
    unfold weightF
    split
    · omega
    · split <;> omega
    · omega
    · omega
  omega

/-- A step keeps the costs and the lines with a star, or is step 6. -/
def Moved (fl : ℚ → ℚ) (n : Nat) (a a' : St × Nat) : Prop :=
  (a'.1.n = n ∧ a'.1.C = a.1.C ∧ Grow a.1 a'.1) ∨
  (a'.1 = step6Fl fl a.1 ∧ Cov n a.1 ∧ (starRows a.1).card < n)

theorem main_stepF {fl : ℚ → ℚ} (hfl : Rounding fl) {n : Nat} {B : ℚ} (hB : B ≤ maxint) (a : St × Nat)
    (h : MainInvF fl n B a) :
    ((.ok (decide (1 ≤ a.2 ∧ a.2 ≤ 6)) : Py Bool) = .ok false ∧
      (FBase fl n B a.1 ∧ Stars n a.1 ∧ (starRows a.1).card = n)) ∨
    ((.ok (decide (1 ≤ a.2 ∧ a.2 ≤ 6)) : Py Bool) = .ok true ∧
      ∃ a', runStepFl fl a = .ok a' ∧ MainInvF fl n B a' ∧ measF a' < measF a ∧ Moved fl n a a') := by
  obtain ⟨s, k⟩ := a
  obtain ⟨hb, hs, h⟩ := h
  dsimp only at hb hs h ⊢
  have hn := hb.hn
  obtain ⟨D, hbase⟩ := hb.base
  rcases h with ⟨rfl, h⟩ | ⟨rfl, h, hlt⟩ | ⟨rfl, h⟩ | ⟨rfl, h, hlt⟩ | ⟨rfl, h⟩
  · right
    refine ⟨by simp, _, rfl, ?_⟩
    obtain ⟨g1, g2, g3, g4, g5⟩ := step3_ok hbase hs h
    have hmark : (step3 s).1.mark = s.mark := by unfold step3; rw [step3_fold]
    have hgr : Grow s (step3 s).1 := ⟨by rw [hmark]; exact fun _ h => h, by rw [hmark]; exact fun _ h => h⟩
    have hf : FBase fl n B (step3 s).1 := hb.grow g1.hn g3 hgr
    have hw : ∀ q, q ≠ 3 → weightF (step3 s).1 q < weightF s 3 := by
      intro q hq
      have : openRows (step3 s).1 ≤ n := by unfold openRows; rw [g1.hn]; omega
      have h3 : weightF s 3 = 2 * n + 3 := by simp [weightF, hn]
      rw [h3]
      unfold weightF
      split
      · exact absurd rfl hq
      · split <;> omega
      · omega
      · omega
    rcases g5 with ⟨e, g5⟩ | ⟨e, g5, g6⟩
    · refine ⟨⟨hf, g2, ?_⟩, ?_, .inl ⟨g1.hn, g3, hgr⟩⟩
      · right; right; right; right; exact ⟨e, by rw [g4]; exact g5⟩
      · unfold measF; dsimp only; rw [g4, g1.hn, hn]
        have := hw (step3 s).2 (by rw [e]; decide)
        omega
    · refine ⟨⟨hf, g2, ?_⟩, ?_, .inl ⟨g1.hn, g3, hgr⟩⟩
      · right; left; exact ⟨e, g5, by rw [g4]; exact g6⟩
      · unfold measF; dsimp only; rw [g4, g1.hn, hn]
        have := hw (step3 s).2 (by rw [e]; decide)
        omega
  · right
    refine ⟨by simp, ?_⟩
    have hk : n < (s.n + 1) + ((Finset.range n).filter fun i => s.rowC i = true).card := by
      rw [hn]; omega
    rcases step4_ok (s.n + 1) s hbase hs h hk with ⟨s', a1, a2, a3, a4, a5, a6, a7⟩ | ⟨s', a1, a2, a3, a4, a5, a6⟩
    · have hg := step4_grow hn a2.hn hs a3 a6 a1
      refine ⟨(s', 6), a1, ⟨hb.grow a2.hn a5 hg, a3, ?_⟩, ?_, .inl ⟨a2.hn, a5, hg⟩⟩
      · right; right; right; left; exact ⟨rfl, a4, by rw [a6]; exact hlt⟩
      · obtain ⟨b1, b2, b3⟩ := step4Loop_mono _ _ _ _ a1
        unfold measF; dsimp only; rw [a6, a2.hn, hn]
        have h5 : ((Finset.range n).filter fun i => s'.rowC i = true).card ≤ n := by
          have := Finset.card_filter_le (Finset.range n) (fun i => s'.rowC i = true)
          simpa using this
        have : weightF s' 6 < weightF s 4 := by
          simp only [weightF, openRows]
          rw [a2.hn, hn]
          by_cases hz : findAZero s = none
          · have := card_rows_mono (n := n) b1
            rw [if_pos hz]; omega
          · obtain ⟨r, r1, r2, r3⟩ := b3 rfl hz
            have := card_rows_lt (n := n) b1 (hn ▸ r1) r2 r3
            rw [if_neg hz]; omega
        omega
    · have hg := step4_grow hn a2.hn hs a3 a6 a1
      refine ⟨(s', 5), a1, ⟨hb.grow a2.hn a5 hg, a3, ?_⟩, ?_, .inl ⟨a2.hn, a5, hg⟩⟩
      · right; right; left; exact ⟨rfl, a4⟩
      · unfold measF; dsimp only; rw [a6, a2.hn, hn]
        have : weightF s' 5 < weightF s 4 := by
          simp only [weightF, openRows]
          rw [hn]
          by_cases hz : findAZero s = none
          · rw [if_pos hz]; omega
          · obtain ⟨⟨r, c⟩, hrc⟩ := Option.ne_none_iff_exists'.1 hz
            obtain ⟨z1, z2, z3, z4, z5⟩ := findAZero_some hrc
            have : ((Finset.range n).filter fun i => s.rowC i = true).card < n := by
              have hss : ((Finset.range n).filter fun i => s.rowC i = true) ⊂ Finset.range n := by
                rw [Finset.ssubset_iff_of_subset (Finset.filter_subset _ _)]
                exact ⟨r, by simpa using hn ▸ z1, by simp [z4]⟩
              simpa using Finset.card_lt_card hss
            omega
        omega
  · right
    refine ⟨by simp, ?_⟩
    obtain ⟨s', e, g1, g2, g3, g4, g5⟩ := step5_ok hbase hs h
    refine ⟨(s', 3), by simp [runStepFl, runStep, e], ⟨hb.grow g1.hn g4 (step5_grow hn hs h e), g2, .inl ⟨rfl, g3⟩⟩, ?_,
      .inl ⟨g1.hn, g4, step5_grow hn hs h e⟩⟩
    have := starRows_le g1.hn
    unfold measF; dsimp only; rw [g5, g1.hn, hn]
    have e1 : n - (starRows s).card = (n - ((starRows s).card + 1)) + 1 := by omega
    rw [e1, Nat.add_mul]
    simp only [weightF]
    rw [g1.hn]
    omega
  · right
    refine ⟨by simp, _, rfl, ?_⟩
    obtain ⟨g1, g2, g3, g4⟩ := step6Fl_ok hfl hB hb hs h hlt
    refine ⟨⟨g1, g2, .inr (.inl ⟨rfl, g3, hlt⟩)⟩, ?_, .inr ⟨rfl, h, hlt⟩⟩
    unfold measF; dsimp only
    have e1 : starRows (step6Fl fl s) = starRows s := rfl
    have e2 : openRows (step6Fl fl s) = openRows s := rfl
    have e3 : (step6Fl fl s).n = s.n := rfl
    rw [e1, e3]
    simp only [weightF, if_neg g4, e2]
    omega
  · left
    exact ⟨by simp, hb, hs, h⟩

end Verif.Munkres
