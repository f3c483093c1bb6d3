import Verif.Model.PgcTools
import Verif.Lemmas.Base

/-! Lemmas about the corpus tools. -/
set_option linter.unusedSectionVars false
namespace Verif.PgcTools
open Verif Verif.Corpus Verif.Etree

theorem pyRound_half (q : Int) : pyRound ((q : ℚ) + 1/2) = if 0 ≤ q then q + 1 else q := by
  unfold pyRound
  by_cases h : 0 ≤ q
  · have h1 : (0:ℚ) ≤ (q:ℚ) + 1/2 := by
      have : (0:ℚ) ≤ q := by exact_mod_cast h
      linarith
    rw [if_pos h1, if_pos h]
    have : (q:ℚ) + 1/2 + 1/2 = ((q + 1 : Int) : ℚ) := by push_cast; ring
    rw [this, Int.floor_intCast]
  · have h1 : ¬ (0:ℚ) ≤ (q:ℚ) + 1/2 := by
      have : (q:ℚ) ≤ -1 := by exact_mod_cast (by omega : q ≤ -1)
      linarith
    rw [if_neg h1, if_neg h]
    have : (q:ℚ) + 1/2 - 1/2 = ((q : Int) : ℚ) := by ring
    rw [this, Int.ceil_intCast]

/-- Cutting a list into pieces of a fixed size. -/
theorem chunks (s : Nat) (hs : 0 < s) (k : Nat) : ∀ (l : List Nat), l.length ≤ k * s → (k - 1) * s < l.length ∨ k = 0 →
    ((List.range k).map fun i => sliceList l (i * s) (min (i * s + s) l.length)).flatten = l := by
  induction k with
  | zero => intro l h _; simp at h; simp [h]
  | succ k ih =>
    intro l h1 h2
    rw [List.range_succ, List.map_append, List.flatten_append]
    have h2' : k * s < l.length := by rcases h2 with h2 | h2 <;> simp_all
    have hk : (k + 1) * s = k * s + s := by ring
    have hih := ih (l.take (k * s)) (by simp) (by
      rcases Nat.eq_zero_or_pos k with h | h
      · exact Or.inr h
      · left
        simp only [List.length_take]
        have : (k - 1) * s + s = k * s := by
          obtain ⟨j, rfl⟩ : ∃ j, k = j + 1 := ⟨k - 1, by omega⟩
          simp; ring
        omega)
    have hpre : ((List.range k).map fun i => sliceList l (i * s) (min (i * s + s) l.length)) =
        (List.range k).map fun i => sliceList (l.take (k * s)) (i * s) (min (i * s + s) (l.take (k * s)).length) := by
      refine List.map_congr_left fun i hi => ?_
      have hi' : i < k := by simpa using hi
      have h3 : i * s + s ≤ k * s := by
        have := Nat.mul_le_mul_right s (show i + 1 ≤ k by omega)
        have h4 : (i + 1) * s = i * s + s := by ring
        omega
      have e1 : min (i * s + s) l.length = i * s + s := by omega
      have e2 : min (i * s + s) (l.take (k * s)).length = i * s + s := by simp; omega
      rw [e1, e2]
      unfold sliceList
      rw [List.take_take, min_eq_left h3]
    rw [hpre, hih]
    have e3 : min (k * s + s) l.length = l.length := by omega
    simp only [List.map_cons, List.map_nil, List.flatten_cons, List.flatten_nil, List.append_nil, e3, sliceList,
      List.take_length]
    exact List.take_append_drop _ _

/-- Leading zeros do not count. -/
theorem ofDigits_zeros (k : Nat) (l : List Char) :
    Nat.ofDigitChars 10 (List.replicate k '0' ++ l) 0 = Nat.ofDigitChars 10 l 0 := by
  induction k with
  | zero => simp
  | succ k ih =>
    rw [List.replicate_succ, List.cons_append, Nat.ofDigitChars_cons]
    simpa using ih

theorem pad4_value (n : Nat) : Nat.ofDigitChars 10 (pad4 n) 0 = n := by
  unfold pad4
  rw [ofDigits_zeros]
  exact Nat.ofDigitChars_toDigits (by decide) (by decide)

theorem pad4_inj {m n : Nat} (h : pad4 m = pad4 n) : m = n := by
  rw [← pad4_value m, ← pad4_value n, h]

theorem pad4_no_dash (n : Nat) : '-' ∉ pad4 n := by
  unfold pad4
  intro h
  rcases List.mem_append.1 h with h | h
  · have := List.eq_of_mem_replicate h; simp at this
  · have := Nat.isDigit_of_mem_toDigits (by decide) (by decide) h; simp at this

theorem split_at_dash : ∀ (a b c d : List Char), '-' ∉ a → '-' ∉ b → a ++ '-' :: c = b ++ '-' :: d → a = b ∧ c = d
  | [], [], c, d, _, _, h => by simpa using h
  | [], y :: b, c, d, _, hb, h => by simp at h hb; exact absurd h.1 hb.1
  | x :: a, [], c, d, ha, _, h => by simp at h ha; exact absurd h.1.symm ha.1
  | x :: a, y :: b, c, d, ha, hb, h => by
    simp only [List.cons_append, List.cons.injEq] at h
    obtain ⟨h1, h2⟩ := split_at_dash a b c d (fun hc => ha (by simp [hc])) (fun hc => hb (by simp [hc])) h.2
    exact ⟨by rw [h.1, h1], h2⟩

theorem partName_inj {root ext : List Char} {i j i' j' : Nat} (h : partName root ext i j = partName root ext i' j') :
    i = i' ∧ j = j' := by
  unfold partName at h
  have h1 := List.append_cancel_left h
  simp only [List.cons.injEq, true_and] at h1
  obtain ⟨h2, h3⟩ := split_at_dash _ _ _ _ (pad4_no_dash _) (pad4_no_dash _) h1
  have h4 := pad4_inj h2
  have h5 := pad4_inj (List.append_cancel_right h3)
  exact ⟨by omega, h5⟩

end Verif.PgcTools
