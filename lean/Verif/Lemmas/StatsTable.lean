import Verif.Lemmas.Base
import Verif.Lemmas.DaesoGraph
import Verif.Spec.StatsTable
import Mathlib.Data.List.TakeWhile

/-! Lemmas about tables of statistics: numbers and lines. -/
set_option linter.unusedSectionVars false
namespace Verif.StatsTable
open Verif Verif.Etree Verif.DaesoGraph Verif.Spec.StatsTable

/-! ### Numbers -/

theorem digit_toDigits (n : Nat) : ∀ c ∈ Nat.toDigits 10 n, c.isDigit = true := fun _ h =>
  Nat.isDigit_of_mem_toDigits (by decide) (by decide) h

theorem digitChar_digit {m : Nat} (h : m < 10) : (Nat.digitChar m).isDigit = true := by
  have : ∀ m < 10, (Nat.digitChar m).isDigit = true := by decide
  exact this m h

theorem twoDigits_digit (h : Nat) : ∀ c ∈ twoDigits h, c.isDigit = true := by
  intro c hc
  simp only [twoDigits, List.mem_cons, List.not_mem_nil, or_false] at hc
  rcases hc with rfl | rfl
  · exact digitChar_digit (Nat.mod_lt _ (by decide))
  · exact digitChar_digit (Nat.mod_lt _ (by decide))

theorem signOf_digits {s : Text} (h : ∀ c ∈ s, c.isDigit = true ∨ c = '.') : signOf s = (1, s) := by
  unfold signOf
  split
  · rcases h '-' (by simp) with h | h <;> simp at h
  · rcases h '+' (by simp) with h | h <;> simp at h
  · rfl

theorem allDigits_iff (s : Text) : allDigits s = true ↔ s ≠ [] ∧ ∀ c ∈ s, c.isDigit = true := by
  simp [allDigits]

theorem parseInt_showInt (n : Int) : parseInt (showInt n) = .ok n := by
  have hd := (allDigits_iff (Nat.toDigits 10 n.natAbs)).2 ⟨Nat.toDigits_ne_nil, digit_toDigits _⟩
  unfold parseInt showInt
  split
  · simp only [signOf, hd, if_true, Nat.ofDigitChars_ten_toDigits]
    congr 1; omega
  · rw [signOf_digits fun c hc => Or.inl (digit_toDigits _ c hc)]
    simp only [hd, if_true, Nat.ofDigitChars_ten_toDigits]
    congr 1; omega

theorem roundEven_spec {q : ℚ} (hq : 0 ≤ q) :
    |q - roundEven q| ≤ 1/2 ∧ (|q - roundEven q| = 1/2 → Even (roundEven q)) := by
  have h1 := Nat.floor_le hq
  have h2 := Nat.lt_floor_add_one q
  unfold roundEven
  dsimp only
  split
  · rename_i h
    rw [abs_of_nonneg (by linarith)]
    exact ⟨by linarith, fun h' => by linarith⟩
  · split
    · rename_i h
      push_cast
      rw [abs_of_neg (by linarith)]
      exact ⟨by linarith, fun h' => by linarith⟩
    · have he : q - ⌊q⌋₊ = 1/2 := by linarith
      split
      · rename_i h
        rw [he, abs_of_nonneg (by norm_num)]
        exact ⟨le_refl _, fun _ => Nat.even_iff.2 h⟩
      · rename_i h
        push_cast
        rw [abs_of_neg (by linarith)]
        exact ⟨by linarith, fun _ => Nat.even_iff.2 (by omega)⟩

/-- The value that is read for a number. -/
def readBack (q : ℚ) : ℚ := (if q < 0 then -1 else 1) * (roundEven (|q| * 100) : ℚ) / 100

theorem readBack_rounded (q : ℚ) : Rounded q (readBack q) := by
  obtain ⟨h1, h2⟩ := roundEven_spec (q := |q| * 100) (by positivity)
  have key : |q - readBack q| = |(|q| * 100) - roundEven (|q| * 100)| / 100 := by
    unfold readBack
    split
    · rename_i h
      rw [show |q| = -q from abs_of_neg h]
      rw [← abs_neg, show -(q - -1 * (roundEven (-q * 100) : ℚ) / 100) = (-q * 100 - roundEven (-q * 100)) / 100 by ring,
        abs_div]
      norm_num
    · rename_i h
      rw [abs_of_nonneg (not_lt.1 h)]
      rw [show q - 1 * (roundEven (q * 100) : ℚ) / 100 = (q * 100 - roundEven (q * 100)) / 100 by ring, abs_div]
      norm_num
  refine ⟨(if q < 0 then -1 else 1) * (roundEven (|q| * 100) : ℤ), ?_, ?_, ?_⟩
  · unfold readBack; split <;> push_cast <;> ring
  · rw [key]; linarith
  · intro h
    rw [key] at h
    have := h2 (by linarith)
    have he : Even ((roundEven (|q| * 100) : ℕ) : ℤ) := by exact_mod_cast this
    exact he.mul_left _

theorem ofDigits_two (h : Nat) : Nat.ofDigitChars 10 (Nat.toDigits 10 (h / 100) ++ twoDigits h) 0 = h := by
  rw [Nat.ofDigitChars_append, Nat.ofDigitChars_ten_toDigits]
  unfold twoDigits
  rw [Nat.ofDigitChars_cons_digitChar_of_lt_ten (Nat.mod_lt _ (by decide)),
    Nat.ofDigitChars_cons_digitChar_of_lt_ten (Nat.mod_lt _ (by decide)), Nat.ofDigitChars_nil]
  omega

theorem digit_ne_point {c : Char} (h : c.isDigit = true) : c ≠ '.' := by rintro rfl; simp at h

theorem parseFloat_showFixed (q : ℚ) : parseFloat (showFixed q) = .ok (readBack q) := by
  have hsign : signOf (showFixed q) = (if q < 0 then -1 else 1,
      Nat.toDigits 10 (roundEven (|q| * 100) / 100) ++ '.' :: twoDigits (roundEven (|q| * 100))) := by
    unfold showFixed
    dsimp only
    split
    · rfl
    · rw [List.nil_append]
      refine signOf_digits fun c hc => ?_
      rcases List.mem_append.1 hc with h | h
      · exact Or.inl (digit_toDigits _ c h)
      · rcases List.mem_cons.1 h with h | h
        · exact Or.inr h
        · exact Or.inl (twoDigits_digit _ c h)
  unfold parseFloat
  rw [hsign]
  dsimp only
  obtain ⟨h, hh⟩ : ∃ h, h = roundEven (|q| * 100) := ⟨_, rfl⟩
  rw [← hh]
  have ht : (Nat.toDigits 10 (h / 100) ++ '.' :: twoDigits h).takeWhile (· ≠ '.') = Nat.toDigits 10 (h / 100) := by
    rw [List.takeWhile_append_of_pos (fun c hc => by simpa using digit_ne_point (digit_toDigits _ c hc))]
    simp
  have hd : (Nat.toDigits 10 (h / 100) ++ '.' :: twoDigits h).dropWhile (· ≠ '.') = '.' :: twoDigits h := by
    rw [List.dropWhile_append_of_pos (fun c hc => by simpa using digit_ne_point (digit_toDigits _ c hc))]
    simp
  rw [ht, hd]
  simp only [List.drop_succ_cons, List.drop_zero]
  rw [if_pos, ofDigits_two]
  · congr 1
    unfold readBack
    rw [← hh]
    simp only [twoDigits, List.length_cons, List.length_nil]
    split <;> push_cast <;> norm_num
  · rw [allDigits_iff]
    refine ⟨by simp [twoDigits], fun c hc => ?_⟩
    rcases List.mem_append.1 hc with h | h
    · exact digit_toDigits _ c h
    · exact twoDigits_digit _ c h

theorem showInt_ne (n : Int) : showInt n ≠ [] := by
  unfold showInt; split <;> simp

theorem showFixed_ne (q : ℚ) : showFixed q ≠ [] := by
  unfold showFixed; simp

theorem showInt_ws {ws : Char → Bool} (hw : Blanks ws) (n : Int) : ∀ c ∈ showInt n, ws c = false := by
  intro c hc
  unfold showInt at hc
  split at hc
  · rcases List.mem_cons.1 hc with rfl | hc
    · exact hw.dash
    · exact hw.digit c (digit_toDigits _ c hc)
  · exact hw.digit c (digit_toDigits _ c hc)

theorem showFixed_ws {ws : Char → Bool} (hw : Blanks ws) (q : ℚ) : ∀ c ∈ showFixed q, ws c = false := by
  intro c hc
  unfold showFixed at hc
  dsimp only at hc
  rcases List.mem_append.1 hc with hc | hc
  · rcases List.mem_append.1 hc with hc | hc
    · split at hc
      · rw [List.mem_singleton] at hc; subst hc; exact hw.dash
      · simp at hc
    · exact hw.digit c (digit_toDigits _ c hc)
  · rcases List.mem_cons.1 hc with rfl | hc
    · exact hw.point
    · exact hw.digit c (twoDigits_digit _ c hc)

theorem showInt_dashes (n : Int) (r : Text) : ¬ "----".toList <+: showInt n ++ r := by
  have hne := Nat.toDigits_ne_nil (n := n.natAbs) (b := 10)
  obtain ⟨d, ds, hds⟩ := List.exists_cons_of_ne_nil hne
  have hd : d.isDigit = true := digit_toDigits n.natAbs d (by rw [hds]; simp)
  have hd' : '-' ≠ d := by rintro rfl; simp at hd
  unfold showInt
  rw [hds]
  split <;> simp [hd']

theorem showFixed_dashes (q : ℚ) (r : Text) : ¬ "----".toList <+: showFixed q ++ r := by
  unfold showFixed
  dsimp only
  obtain ⟨d, ds, hds⟩ := List.exists_cons_of_ne_nil (Nat.toDigits_ne_nil (n := roundEven (|q| * 100) / 100) (b := 10))
  have hd : d.isDigit = true := digit_toDigits _ d (by rw [hds]; simp)
  have hd' : '-' ≠ d := by rintro rfl; simp at hd
  rw [hds]
  split <;> simp [hd']

theorem showInt_length {n : Int} (h1 : -999999 ≤ n) (h2 : n ≤ 9999999) : (showInt n).length ≤ 7 := by
  unfold showInt
  split
  · rw [List.length_cons]
    have := (Nat.length_toDigits_le_iff (b := 10) (n := n.natAbs) (k := 6) (by decide) (by decide)).2 (by norm_num; omega)
    omega
  · exact (Nat.length_toDigits_le_iff (b := 10) (n := n.natAbs) (k := 7) (by decide) (by decide)).2 (by norm_num; omega)

theorem showFixed_length {q : ℚ} (h1 : -999995/1000 < q) (h2 : q < 9999995/1000) : (showFixed q).length ≤ 7 := by
  have h3 := (roundEven_spec (q := |q| * 100) (by positivity)).1
  have h4 := (abs_le.1 h3).1
  unfold showFixed
  dsimp only
  obtain ⟨h, hh⟩ : ∃ h, h = roundEven (|q| * 100) := ⟨_, rfl⟩
  rw [← hh] at h4 ⊢
  simp only [List.length_append, List.length_cons, twoDigits, List.length_nil]
  split
  · rename_i hq
    rw [abs_of_neg hq] at h4
    have h5 : (h : ℚ) < 100000 := by linarith
    have h6 : h < 100000 := by exact_mod_cast h5
    have := (Nat.length_toDigits_le_iff (b := 10) (n := h / 100) (k := 3) (by decide) (by decide)).2 (by norm_num; omega)
    simp only [List.length_cons, List.length_nil]
    omega
  · rename_i hq
    rw [abs_of_nonneg (not_lt.1 hq)] at h4
    have h5 : (h : ℚ) < 1000000 := by linarith
    have h6 : h < 1000000 := by exact_mod_cast h5
    have := (Nat.length_toDigits_le_iff (b := 10) (n := h / 100) (k := 4) (by decide) (by decide)).2 (by norm_num; omega)
    simp only [List.length_nil]
    omega

/-! ### Lines -/

theorem fileLines_line {l : Text} (h : '\n' ∉ l) (r : Text) :
    fileLines (l ++ '\n' :: r) = (l ++ ['\n']) :: fileLines r := by
  induction l with
  | nil => simp [fileLines]
  | cons c l ih =>
    simp only [List.mem_cons, not_or] at h
    rw [List.cons_append, fileLines, if_neg (fun hc => h.1 hc.symm), ih h.2]
    rfl

/-- How many lines begin like a separator, counted on the text. -/
def seps : Bool → Text → Nat
  | _, [] => 0
  | b, c :: cs => (if b && "----".toList.isPrefixOf (c :: cs) then 1 else 0) + seps (decide (c = '\n')) cs

theorem seps_prefix : ∀ (b : Bool) (p s : Text), p <+: s → seps b p ≤ seps b s
  | _, [], _, _ => by simp [seps]
  | b, c :: p, s, h => by
    obtain ⟨r, rfl⟩ := h
    rw [List.cons_append, seps, seps]
    have h1 := seps_prefix (decide (c = '\n')) p (p ++ r) ⟨r, rfl⟩
    have h2 : ("----".toList.isPrefixOf (c :: p)) = true → ("----".toList.isPrefixOf (c :: (p ++ r))) = true := by
      rw [List.isPrefixOf_iff_prefix, List.isPrefixOf_iff_prefix]
      intro h
      exact h.trans ⟨r, rfl⟩
    split
    · rename_i h
      simp only [Bool.and_eq_true] at h
      rw [if_pos (by simp only [h.1, Bool.true_and]; exact h2 h.2)]
      omega
    · omega

theorem fileLines_prefix (s : Text) : ∀ (p : Text), '\n' ∉ p → (p <+: s ↔ p <+: (fileLines s).headD []) := by
  induction s with
  | nil => intro p _; simp [fileLines]
  | cons c cs ih =>
    intro p hp
    cases p with
    | nil => simp
    | cons d p =>
      simp only [List.mem_cons, not_or] at hp
      rw [fileLines]
      split
      · rename_i hc
        subst hc
        simp [List.cons_prefix_cons, Ne.symm hp.1]
      · have := ih p hp.2
        cases h : fileLines cs with
        | nil => rw [h] at this; simpa [List.cons_prefix_cons] using fun _ => this
        | cons l ls =>
          rw [h] at this
          simpa [List.cons_prefix_cons] using fun _ => this

theorem fileLines_nil {s : Text} (h : fileLines s = []) : s = [] := by
  cases s with
  | nil => rfl
  | cons c cs =>
    rw [fileLines] at h
    split at h
    · simp at h
    · cases h' : fileLines cs <;> rw [h'] at h <;> simp at h

theorem seps_count (s : Text) : seps true s = (fileLines s).countP isSeparator ∧
    seps false s = (fileLines s).tail.countP isSeparator := by
  induction s with
  | nil => simp [seps, fileLines]
  | cons c cs ih =>
    have hp := fileLines_prefix (c :: cs) "----".toList (by decide)
    have hsep : ("----".toList.isPrefixOf (c :: cs)) = isSeparator ((fileLines (c :: cs)).headD []) := by
      unfold isSeparator
      rw [Bool.eq_iff_iff, List.isPrefixOf_iff_prefix, List.isPrefixOf_iff_prefix]
      exact hp
    rw [seps, seps, hsep]
    by_cases hc : c = '\n'
    · subst hc
      simp only [fileLines, if_true, decide_true, List.headD_cons, ih.1, List.countP_cons, List.tail_cons,
        Bool.true_and, Bool.false_and, Bool.false_eq_true, if_false]
      exact ⟨by omega, by omega⟩
    · have h : fileLines (c :: cs) = (c :: (fileLines cs).headD []) :: (fileLines cs).tail := by
        rw [fileLines, if_neg hc]
        cases fileLines cs <;> rfl
      rw [h]
      simp only [hc, decide_false, List.headD_cons, ih.2, List.countP_cons, List.tail_cons,
        Bool.true_and, Bool.false_and, Bool.false_eq_true, if_false]
      exact ⟨by omega, by omega⟩

/-! ### White space -/

theorem splitWs_blank {ws : Char → Bool} {s : Text} (h : ∀ c ∈ s, ws c = true) : splitWs ws s = [] := by
  induction s with
  | nil => rfl
  | cons c s ih =>
    rw [splitWs_skip (h c (by simp))]
    exact ih fun d hd => h d (by simp [hd])

/-- The words of `word ++ blanks`, and what follows. -/
theorem splitWs_next {ws : Char → Bool} {w : Text} (hne : w ≠ []) (hw : ∀ c ∈ w, ws c = false) (r : Text)
    (hr : ∀ c, r.head? = some c → ws c = true) : splitWs ws (w ++ r) = w :: splitWs ws r := by
  induction w with
  | nil => exact absurd rfl hne
  | cons c w ih =>
    have hc := hw c (by simp)
    cases w with
    | nil =>
      cases r with
      | nil => simp [splitWs, hc]
      | cons d r =>
        have hd := hr d rfl
        simp only [List.cons_append, List.nil_append]
        rw [splitWs.eq_def]
        simp [hc, hd]
    | cons e w =>
      have he := hw e (by simp)
      have := ih (by simp) (fun x hx => hw x (by simp [hx]))
      simp only [List.cons_append] at this ⊢
      rw [splitWs.eq_def]
      simp [hc, he, this]

theorem splitWs_skips {ws : Char → Bool} {s : Text} (h : ∀ c ∈ s, ws c = true) (r : Text) :
    splitWs ws (s ++ r) = splitWs ws r := by
  induction s with
  | nil => rfl
  | cons c s ih =>
    rw [List.cons_append, splitWs_skip (h c (by simp))]
    exact ih fun d hd => h d (by simp [hd])

theorem dropWhile_blank {ws : Char → Bool} (s : Text) : ∃ a, s = a ++ s.dropWhile ws ∧ ∀ c ∈ a, ws c = true :=
  ⟨s.takeWhile ws, (List.takeWhile_append_dropWhile).symm, fun _ hc => List.mem_takeWhile_imp hc⟩

theorem splitWs_end {ws : Char → Bool} (s b : Text) (h : ∀ c ∈ b, ws c = true) : splitWs ws (s ++ b) = splitWs ws s := by
  induction s with
  | nil => simpa [splitWs] using splitWs_blank h
  | cons c s ih =>
    rw [List.cons_append]
    by_cases hc : ws c = true
    · rw [splitWs_skip hc, splitWs_skip hc, ih]
    · cases s with
      | nil =>
        cases b with
        | nil => rfl
        | cons d b =>
          rw [List.nil_append, splitWs.eq_def]
          simp only [hc, h d (by simp), Bool.false_eq_true, if_false, if_true]
          rw [splitWs_blank h]
          simp [splitWs, hc]
      | cons d s =>
        rw [List.cons_append] at ih ⊢
        rw [splitWs.eq_def, splitWs.eq_def ws (c :: d :: s)]
        simp only [ih]

theorem splitWs_strip (ws : Char → Bool) (s : Text) : splitWs ws (strip ws s) = splitWs ws s := by
  obtain ⟨a, h1, h2⟩ := dropWhile_blank (ws := ws) s
  obtain ⟨b, h3, h4⟩ := dropWhile_blank (ws := ws) (s.dropWhile ws).reverse
  have h5 : s.dropWhile ws = strip ws s ++ b.reverse := by
    unfold strip
    rw [← List.reverse_append, ← h3, List.reverse_reverse]
  conv_rhs => rw [h1, splitWs_skips h2, h5, splitWs_end _ _ (fun c hc => h4 c (by simpa using hc))]

theorem strip_nil {ws : Char → Bool} {s : Text} : strip ws s = [] ↔ ∀ c ∈ s, ws c = true := by
  constructor
  · intro h
    by_contra hc
    push Not at hc
    obtain ⟨c, hc, hn⟩ := hc
    obtain ⟨a, h1, h2⟩ := dropWhile_blank (ws := ws) s
    obtain ⟨b, h3, h4⟩ := dropWhile_blank (ws := ws) (s.dropWhile ws).reverse
    unfold strip at h
    rw [List.reverse_eq_nil_iff] at h
    rw [h, List.append_nil] at h3
    rw [h1] at hc
    rcases List.mem_append.1 hc with hc | hc
    · exact hn (h2 c hc)
    · have : c ∈ b := by rw [← h3]; simpa using hc
      exact hn (h4 c this)
  · intro h
    unfold strip
    rw [List.dropWhile_eq_nil_iff.2 h]
    rfl

end Verif.StatsTable
