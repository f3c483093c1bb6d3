import Verif.Lemmas.NumberWords

/-! Property C19 (lib/daeso/string/number.py). -/
namespace Verif.Props.Number
open Verif Verif.Number

/-- C19: the words are those of the specification, group by group of three digits, unless hundreds are preferred and the
number has four digits of which the second is not 0. -/
theorem spell_words (fuel : Nat) (hf : 9 ≤ fuel) (preferHundreds : Bool) (n k : Nat) (hk : k ≤ 8)
    (hn : Spec.Number.GroupCount n k) (hh : ¬ (Spec.Number.hasHundreds n ∧ preferHundreds = true)) :
    spell fuel preferHundreds n = .ok (Spec.Number.groups k n).toList :=
  spell_groups fuel hf preferHundreds n k hk hn hh

/-- C19: in that case the words are the number of hundreds, "honderd" and the rest. -/
theorem spell_words_hundreds (fuel n : Nat) (h : Spec.Number.hasHundreds n) :
    spell fuel true n =
      .ok (Spec.Number.below100 (n / 100) ++ "honderd" ++ Spec.Number.below100 (n % 100)).toList :=
  spell_hundreds fuel n h

/-- C19: exactly which numbers are spelled alike: from a million on, numbers that differ only in having no thousands or one
thousand.  So numbers below a million are all spelled differently. -/
theorem spell_injective_iff (fuel : Nat) (hf : 9 ≤ fuel) (preferHundreds : Bool) (m n : Nat)
    (hm : m < 10 ^ 24) (hn : n < 10 ^ 24) :
    spell fuel preferHundreds m = spell fuel preferHundreds n ↔
      m = n ∨ (1000000 ≤ m ∧ 1000000 ≤ n ∧ m / 1000000 = n / 1000000 ∧ m % 1000 = n % 1000 ∧
        m / 1000 % 1000 ≤ 1 ∧ n / 1000 % 1000 ≤ 1) := by
  rw [spell_alike fuel hf preferHundreds m n hm hn]
  unfold Alike
  constructor
  · rintro (h | ⟨h1, h2, h3, h4, h5 | h5⟩)
    · exact .inl h
    · left; omega
    · exact .inr ⟨h1, h2, h3, h4, h5⟩
  · rintro (h | ⟨h1, h2, h3, h4, h5⟩)
    · exact .inl h
    · exact .inr ⟨h1, h2, h3, h4, .inr h5⟩

/-- C19: different numbers below a million are spelled differently, with or without `prefer_hundreds`. -/
theorem spell_injective (fuel : Nat) (hf : 3 ≤ fuel) (preferHundreds : Bool) (m n : Nat)
    (hm : m < 1000000) (hn : n < 1000000)
    (h : spell fuel preferHundreds m = spell fuel preferHundreds n) : m = n := by
  rw [spell_eq fuel hf _ m hm, spell_eq fuel hf _ n hn] at h
  exact form_inj preferHundreds m n hm hn (by simpa using h)

/-- C19: spelling succeeds for every number below 10^24 and raises IndexError for every other. -/
theorem spell_domain (fuel : Nat) (hf : 10 ≤ fuel) (preferHundreds : Bool) (n : Nat) :
    (n < 10 ^ 24 → ∃ w, spell fuel preferHundreds n = .ok w) ∧
    (10 ^ 24 ≤ n → spell fuel preferHundreds n = .error .indexError) := by
  have hp : (1000 : Nat) ^ 8 = 10 ^ 24 := by norm_num
  obtain ⟨h1, h2⟩ := loop_total 8 n 0 fuel [] rfl (by omega) (by omega)
  unfold loop at h1 h2
  rw [hp] at h1 h2
  unfold spell
  by_cases hc : (Nat.toDigits 10 n).length = 4 ∧ (Nat.toDigits 10 n)[1]? ≠ some '0' ∧
      preferHundreds = true
  · obtain ⟨g1, g2⟩ := length_four n hc.1
    obtain ⟨t1, t2, _, _⟩ := trip_cons n g1 g2
    refine ⟨fun _ => ?_, fun h => by omega⟩
    simp only []
    rw [if_pos hc]
    simp only [t1, t2, T_ok (n / 100) (by omega), T_ok (n % 100) (by omega), bind, Except.bind]
    exact ⟨_, rfl⟩
  · simp only [hc, if_false]
    refine ⟨fun h => ?_, fun h => ?_⟩
    · obtain ⟨st, e⟩ := h1 h
      exact ⟨strip st.words, by simp only [e, bind, Except.bind]⟩
    · simp only [h2 h, bind, Except.bind]

/-- C19 is violated above: one million and one million one thousand are spelled alike, and so are
1000001 and 1001001; and 1000 is spelled "duizend nul". -/
theorem spell_not_injective :
    spell 10 true 1000000 = spell 10 true 1001000 ∧
    spell 10 true 1000000 = .ok "een miljoen duizend nul".toList ∧
    spell 10 true 1000001 = spell 10 true 1001001 ∧
    spell 10 true 1000 = .ok "duizend nul".toList := by
  refine ⟨?_, ?_, ?_, ?_⟩ <;> decide +kernel

/-- Non-vacuity: concrete spellings of all three shapes. -/
example : spell 10 true 21 = .ok "eenentwintig".toList ∧
    spell 10 true 1999 = .ok "negentienhonderdnegenennegentig".toList ∧
    spell 10 false 1999 = .ok "duizend negenhonderdnegenennegentig".toList ∧
    spell 10 true (10 ^ 24) = .error .indexError := by
  refine ⟨?_, ?_, ?_, ?_⟩ <;> decide +kernel

/-- Non-vacuity of `spell_words`: group counts, and the words they give. -/
example : Spec.Number.GroupCount 2071021 3 ∧
    Spec.Number.groups 3 2071021 = "twee miljoen eenenzeventigduizend eenentwintig" := by
  refine ⟨⟨by norm_num, .inr ⟨by norm_num, by norm_num⟩⟩, by decide +kernel⟩

end Verif.Props.Number
