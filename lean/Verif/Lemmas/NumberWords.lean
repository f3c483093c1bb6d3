import Verif.Lemmas.Number
import Verif.Spec.Number

set_option linter.unusedSectionVars false
namespace Verif.Number
open Verif

theorem T_below100 : ∀ b < 100, T b = (Spec.Number.below100 b).toList := by
  have h : ∀ b < 100, (decide (T b = (Spec.Number.below100 b).toList)) = true := by decide +kernel
  intro b hb; simpa using h b hb

theorem small_below100 (b : Nat) (h : b < 10) : (Spec.Number.small.getD b "") = Spec.Number.below100 b := by
  unfold Spec.Number.below100; rw [if_pos (by omega)]

theorem T_spec (b : Nat) (h : b < 1000) : T b = (Spec.Number.below1000 b).toList := by
  unfold Spec.Number.below1000
  by_cases hb : b < 100
  · rw [if_pos hb, T_below100 b hb]
  · rw [if_neg hb, T_hundreds b (by omega) h, small_below100 _ (by omega)]
    rw [T_below100 _ (show b % 100 < 100 by omega), T_below100 _ (show b / 100 < 100 by omega)]
    by_cases h1 : b / 100 = 1
    · simp [h1, H]
    · simp [h1, H]

/-- The words of a group. -/
def G (i b : Nat) : List Char := (Spec.Number.group i b).toList

/-- The words of the lowest groups. -/
def Gs (k n : Nat) : List Char := (Spec.Number.groups k n).toList

theorem Gs_succ (k n : Nat) : Gs (k + 1) n = G k (n / 1000 ^ k % 1000) ++ Gs k n := by
  simp [Gs, G, Spec.Number.groups]

theorem scale_eq : ∀ i, (h : i < 8) → (modifiers[i]'(by simpa [modifiers] using h)) = (Spec.Number.scale.getD i "").toList := by
  decide +kernel

theorem body_group (m i : Nat) (w : List Char) (hi : i < 8) (h0 : i = 0 → w = []) :
    body { s := Nat.toDigits 10 m, i := i, words := w } =
      .ok { s := if m < 1000 then [] else Nat.toDigits 10 (m / 1000), i := i + 1, words := G i (m % 1000) ++ w } := by
  have hm : m % 1000 < 1000 := Nat.mod_lt _ (by norm_num)
  have hget : Py.get modifiers i = .ok (modifiers[i]'(by simpa [modifiers] using hi)) := Py.get_ok _
  rw [scale_eq i hi] at hget
  simp only [body, lastTriple_digits, take_digits, bind, Except.bind, trip_eq_zero _ hm, trip_eq_one _ hm]
  unfold G Spec.Number.group
  by_cases h1 : i = 0 ∧ m % 1000 = 0
  · rw [if_pos h1, if_pos h1, h0 h1.1]; rfl
  · rw [if_neg h1, if_neg h1]
    by_cases h2 : i = 1 ∧ m % 1000 = 1
    · rw [if_pos h2, if_pos h2]
      simp only [hget]
      obtain ⟨rfl, _⟩ := h2
      rfl
    · rw [if_neg h2, if_neg h2]
      simp only [hget, T_ok _ hm, T_spec _ hm, String.toList_append]

theorem loop_groups (n k : Nat) (hk : k ≤ 8) (hn : Spec.Number.GroupCount n k) : ∀ (d i fuel : Nat), i + d + 1 = k → d + 2 ≤ fuel →
    (loop fuel { s := Nat.toDigits 10 (n / 1000 ^ i), i := i, words := Gs i n }).map St.words = .ok (Gs k n) := by
  intro d
  induction d with
  | zero =>
    intro i fuel hi hf
    obtain ⟨fuel, rfl⟩ : ∃ f, fuel = f + 2 := ⟨fuel - 2, by omega⟩
    have hlt : n / 1000 ^ i < 1000 := by
      rw [Nat.div_lt_iff_lt_mul (by positivity), mul_comm, ← pow_succ]
      rw [show i + 1 = k by omega]; exact hn.1
    have hb := body_group (n / 1000 ^ i) i (Gs i n) (by omega) (by rintro rfl; rfl)
    rw [if_pos hlt, ← Gs_succ] at hb
    simp only [loop, Py.whileLoop, digits_ne_nil, Bool.not_false, hb, List.isEmpty_nil, Bool.not_true, Except.map]
    rw [← hi]
  | succ d ih =>
    intro i fuel hi hf
    obtain ⟨fuel, rfl⟩ : ∃ f, fuel = f + 1 := ⟨fuel - 1, by omega⟩
    have hge : ¬ n / 1000 ^ i < 1000 := by
      rw [Nat.div_lt_iff_lt_mul (by positivity), mul_comm, ← pow_succ]
      have h2 := hn.2.resolve_left (by omega)
      have : 1000 ^ (i + 1) ≤ 1000 ^ (k - 1) := Nat.pow_le_pow_right (by norm_num) (by omega)
      omega
    have hb := body_group (n / 1000 ^ i) i (Gs i n) (by omega) (by rintro rfl; rfl)
    rw [if_neg hge, ← Gs_succ, Nat.div_div_eq_div_mul, ← pow_succ] at hb
    simp only [loop, Py.whileLoop, digits_ne_nil, Bool.not_false, hb]
    exact ih (i + 1) fuel (by omega) (by omega)

theorem G_first (i b : Nat) (hi : i < 8) (hb : b < 1000) (h : i = 0 ∨ 0 < b) :
    ∃ c w, G i b = c :: w ∧ c ≠ ' ' := by
  unfold G Spec.Number.group
  split
  · exact ⟨'n', ['u', 'l'], rfl, by decide⟩
  · rename_i h0
    split
    · exact ⟨'d', "uizend ".toList, rfl, by decide⟩
    · have : 0 < b := by
        rcases Nat.eq_zero_or_pos b with h' | h'
        · exact absurd ⟨h.resolve_right (by omega), h'⟩ h0
        · exact h'
      rw [String.toList_append, ← T_spec b hb]
      obtain ⟨x, xs, hx⟩ := List.exists_cons_of_ne_nil (T_ne_nil b this hb)
      refine ⟨x, xs ++ (Spec.Number.scale.getD i "").toList, by rw [hx]; rfl, T_no_space b hb x (by rw [hx]; simp)⟩

theorem G_zero (b : Nat) (hb : b < 1000) : G 0 b = W b := by
  unfold G Spec.Number.group W
  by_cases h : b = 0
  · simp [h, nul]
  · simp [h, T_spec b hb, Spec.Number.scale]

theorem strip_eq (c : Char) (w v : List Char) (d : Char) (hc : c ≠ ' ') (hd : d ≠ ' ')
    (h : c :: w = v ++ [d]) : strip (c :: w) = c :: w := by
  have : (c :: w).dropWhile (· == ' ') = c :: w := by simp [hc]
  unfold strip
  rw [this, h]
  simp [hd]

theorem Gs_last (k n : Nat) : ∃ v d, Gs (k + 1) n = v ++ [d] ∧ d ≠ ' ' := by
  induction k with
  | zero =>
    have hb : n / 1000 ^ 0 % 1000 < 1000 := Nat.mod_lt _ (by norm_num)
    rw [Gs_succ, show Gs 0 n = [] from rfl, List.append_nil, G_zero _ hb]
    rcases List.eq_nil_or_concat (W (n / 1000 ^ 0 % 1000)) with h | ⟨v, d, h⟩
    · exact absurd h (W_ne_nil _ hb)
    · exact ⟨v, d, by simpa using h, W_no_space _ hb d (by rw [h]; simp)⟩
  | succ k ih =>
    obtain ⟨v, d, h, hd⟩ := ih
    rw [Gs_succ, h]
    exact ⟨_ ++ v, d, by rw [List.append_assoc], hd⟩

theorem strip_Gs (k n : Nat) (hk : 1 ≤ k ∧ k ≤ 8) (hn : Spec.Number.GroupCount n k) : strip (Gs k n) = Gs k n := by
  obtain ⟨k, rfl⟩ : ∃ j, k = j + 1 := ⟨k - 1, by omega⟩
  have hb : n / 1000 ^ k % 1000 < 1000 := Nat.mod_lt _ (by norm_num)
  have hlt : n / 1000 ^ k < 1000 := by
    rw [Nat.div_lt_iff_lt_mul (by positivity), mul_comm, ← pow_succ]; exact hn.1
  have h0 : k = 0 ∨ 0 < n / 1000 ^ k % 1000 := by
    rcases hn.2 with h | h
    · left; omega
    · right
      rw [Nat.mod_eq_of_lt hlt]
      exact Nat.div_pos h.2 (by positivity)
  obtain ⟨c, w, h1, hc⟩ := G_first k _ (by omega) hb h0
  obtain ⟨v, d, h2, hd⟩ := Gs_last k n
  have h3 := Gs_succ k n
  rw [h1, List.cons_append] at h3
  rw [h3]
  exact strip_eq c _ v d hc hd (by rw [← h3, h2])

theorem hundreds_iff (n : Nat) (ph : Bool) :
    ((Nat.toDigits 10 n).length = 4 ∧ (Nat.toDigits 10 n)[1]? ≠ some '0' ∧ ph = true) ↔
      Spec.Number.hasHundreds n ∧ ph = true := by
  constructor
  · rintro ⟨h1, h2, h3⟩
    obtain ⟨g1, g2⟩ := length_four n h1
    obtain ⟨_, _, _, t4⟩ := trip_cons n g1 g2
    exact ⟨⟨g1, g2, t4.1 h2⟩, h3⟩
  · rintro ⟨⟨g1, g2, g3⟩, h3⟩
    obtain ⟨_, _, t3, t4⟩ := trip_cons n g1 g2
    exact ⟨t3, t4.2 g3, h3⟩

theorem spell_groups (fuel : Nat) (hf : 9 ≤ fuel) (ph : Bool) (n k : Nat) (hk : k ≤ 8)
    (hn : Spec.Number.GroupCount n k) (hh : ¬ (Spec.Number.hasHundreds n ∧ ph = true)) :
    spell fuel ph n = .ok (Gs k n) := by
  have hk1 : 1 ≤ k := by rcases hn.2 with h | h <;> omega
  unfold spell
  simp only [(hundreds_iff n ph).not.2 hh, if_false]
  have hl := loop_groups n k hk hn (k - 1) 0 fuel (by omega) (by omega)
  rw [show n / 1000 ^ 0 = n by simp, show Gs 0 n = [] from rfl] at hl
  unfold loop at hl
  cases hw : Py.whileLoop (fun st => .ok (!st.s.isEmpty)) body fuel
      { s := Nat.toDigits 10 n, i := 0, words := [] } with
  | error e => rw [hw] at hl; simp [Except.map] at hl
  | ok st =>
    rw [hw] at hl
    simp only [Except.map, Except.ok.injEq] at hl
    simp only [bind, Except.bind, hl, strip_Gs k n ⟨hk1, hk⟩ hn]

theorem spell_hundreds (fuel n : Nat) (h : Spec.Number.hasHundreds n) :
    spell fuel true n =
      .ok (Spec.Number.below100 (n / 100) ++ "honderd" ++ Spec.Number.below100 (n % 100)).toList := by
  obtain ⟨t1, t2, _, _⟩ := trip_cons n h.1 h.2.1
  have h1 := h.1
  have h2 := h.2.1
  have hc := (hundreds_iff n true).2 ⟨h, rfl⟩
  unfold spell
  extract_lets s
  rw [if_pos hc]
  subst s
  simp only [t1, t2, T_ok (n / 100) (by omega), T_ok (n % 100) (by omega), bind, Except.bind]
  rw [T_below100 _ (by omega), T_below100 _ (by omega)]
  simp

theorem groupCount_exists (n : Nat) (h : n < 10 ^ 24) : ∃ k, 1 ≤ k ∧ k ≤ 8 ∧ Spec.Number.GroupCount n k := by
  unfold Spec.Number.GroupCount
  have : (10 : Nat) ^ 24 = 1000 ^ 8 := by norm_num
  by_cases h1 : n < 1000 ^ 1; · exact ⟨1, by omega, by omega, h1, .inl rfl⟩
  by_cases h2 : n < 1000 ^ 2; · exact ⟨2, by omega, by omega, h2, .inr ⟨by omega, by simpa using h1⟩⟩
  by_cases h3 : n < 1000 ^ 3; · exact ⟨3, by omega, by omega, h3, .inr ⟨by omega, by simpa using h2⟩⟩
  by_cases h4 : n < 1000 ^ 4; · exact ⟨4, by omega, by omega, h4, .inr ⟨by omega, by simpa using h3⟩⟩
  by_cases h5 : n < 1000 ^ 5; · exact ⟨5, by omega, by omega, h5, .inr ⟨by omega, by simpa using h4⟩⟩
  by_cases h6 : n < 1000 ^ 6; · exact ⟨6, by omega, by omega, h6, .inr ⟨by omega, by simpa using h5⟩⟩
  by_cases h7 : n < 1000 ^ 7; · exact ⟨7, by omega, by omega, h7, .inr ⟨by omega, by simpa using h6⟩⟩
  exact ⟨8, by omega, by omega, by omega, .inr ⟨by omega, by simpa using h7⟩⟩

/-! ### Which numbers are spelled alike -/

/-- The second word. -/
def sw (s : List Char) : List Char := ((s.dropWhile (· != ' ')).drop 1).takeWhile (· != ' ')

theorem sw_none (s : List Char) (h : ∀ c ∈ s, c ≠ ' ') : sw s = [] := by
  have : s.dropWhile (· != ' ') = [] := by
    induction s with
    | nil => rfl
    | cons x xs ih => simp [h x (by simp), ih fun c hc => h c (by simp [hc])]
  simp [sw, this]

theorem dropWhile_pre (p q : List Char) (h : ∀ c ∈ p, c ≠ ' ') :
    (p ++ [' '] ++ q).dropWhile (· != ' ') = ' ' :: q := by
  induction p with
  | nil => simp
  | cons x xs ih =>
    have hx : x ≠ ' ' := h x (by simp)
    simp only [List.cons_append, List.dropWhile_cons, bne_iff_ne, ne_eq, hx, not_false_eq_true, if_true]
    exact ih fun c hc => h c (by simp [hc])

theorem sw_last (p q : List Char) (h : ∀ c ∈ p, c ≠ ' ') (h' : ∀ c ∈ q, c ≠ ' ') :
    sw (p ++ [' '] ++ q) = q := by
  unfold sw
  rw [dropWhile_pre p q h]
  simp only [List.drop_succ_cons, List.drop_zero]
  clear h
  induction q with
  | nil => rfl
  | cons x xs ih => simp [h' x (by simp), ih fun c hc => h' c (by simp [hc])]

theorem sw_mid (p q r : List Char) (h : ∀ c ∈ p, c ≠ ' ') (h' : ∀ c ∈ q, c ≠ ' ') :
    sw (p ++ [' '] ++ (q ++ [' '] ++ r)) = q := by
  unfold sw
  rw [dropWhile_pre p _ h]
  simp only [List.drop_succ_cons, List.drop_zero]
  exact takeWhile_pre q r h'

/-- The names of the powers of a thousand from a million on. -/
def name (i : Nat) : List Char :=
  (["", "", "miljoen", "miljard", "biljoen", "biljard", "triljoen", "triljard"].getD i "").toList

theorem name_inj : ∀ i, ∀ j, 2 ≤ i → i < 8 → 2 ≤ j → j < 8 → name i = name j → i = j := by
  intro i j h1 h2 h3 h4 h
  interval_cases i <;> interval_cases j <;> first | rfl | (exact absurd h (by decide))

theorem name_ok (i : Nat) (h1 : 2 ≤ i) (h2 : i < 8) : (∀ c ∈ name i, c ≠ ' ') ∧ name i ≠ [] ∧
    (name i).take 2 ∈ [['m', 'i'], ['b', 'i'], ['t', 'r']] ∧ ∀ b, b < 1000 → G i b = T b ++ [' '] ++ (name i ++ [' ']) := by
  refine ⟨?_, ?_, ?_, ?_⟩
  · interval_cases i <;> decide
  · interval_cases i <;> decide
  · interval_cases i <;> decide
  · intro b hb
    unfold G Spec.Number.group
    rw [if_neg (by omega), if_neg (by omega), String.toList_append, ← T_spec b hb, List.append_assoc]
    congr 1
    interval_cases i <;> rfl

theorem G_one (b : Nat) (hb : b < 1000) : G 1 b = pre b ++ [' '] := by
  unfold G Spec.Number.group pre
  rw [if_neg (by omega)]
  by_cases h : b = 1
  · simp [h]
  · simp [h, T_spec b hb, Spec.Number.scale]

theorem T_take (b : Nat) (hb : b < 1000) : (T b).take 2 ∉ [['m', 'i'], ['b', 'i'], ['t', 'r']] := by
  have h : ∀ b < 100, (decide ((T b).take 2 ∉ [['m', 'i'], ['b', 'i'], ['t', 'r']] ∧ (b = 0 ∨ 2 ≤ (T b).length))) = true := by
    decide +kernel
  by_cases h1 : b < 100
  · have := h b h1; simp only [decide_eq_true_eq] at this; exact this.1
  · rw [T_hundreds b (by omega) hb]
    by_cases h2 : b / 100 = 1
    · simp only [h2, if_true, H]; simp
    · simp only [h2, if_false]
      have := h (b / 100) (by omega)
      simp only [decide_eq_true_eq] at this
      rw [List.append_assoc, List.take_append_of_le_length (by have := this.2; omega)]
      exact this.1

theorem W_ne_name (b i : Nat) (hb : b < 1000) (h1 : 2 ≤ i) (h2 : i < 8) : W b ≠ name i := by
  intro h
  have h3 := (name_ok i h1 h2).2.2.1
  rw [← h] at h3
  unfold W at h3
  split at h3
  · revert h3; decide
  · exact T_take b hb h3

theorem Gs_two (n : Nat) : Gs 2 n = pre (n / 1000 % 1000) ++ [' '] ++ W (n % 1000) := by
  rw [Gs_succ, Gs_succ, show Gs 0 n = [] from rfl, G_one _ (Nat.mod_lt _ (by norm_num)), G_zero _ (Nat.mod_lt _ (by norm_num))]
  simp

theorem Gs_ge (k n : Nat) (h : 2 ≤ k) (hk : k < 8) :
    Gs (k + 1) n = T (n / 1000 ^ k % 1000) ++ [' '] ++ (name k ++ [' '] ++ Gs k n) := by
  rw [Gs_succ, (name_ok k h hk).2.2.2 _ (Nat.mod_lt _ (by norm_num))]
  simp

theorem sw_ge (k n : Nat) (h : 2 ≤ k) (hk : k < 8) : sw (Gs (k + 1) n) = name k := by
  rw [Gs_ge k n h hk]
  exact sw_mid _ _ _ (T_no_space _ (Nat.mod_lt _ (by norm_num))) (name_ok k h hk).1

/-- The second word below a million is not the name of a power of a thousand. -/
theorem sw_form (ph : Bool) (n k : Nat) (hn : n < 1000000) (h : 2 ≤ k) (hk : k < 8) :
    sw (form ph n) ≠ name k := by
  by_cases h1 : n < 1000 ∨ (n < 10000 ∧ n / 100 % 10 ≠ 0 ∧ ph = true)
  · have := no_space_forms ph n h1
    rw [sw_none _ fun c hc hcc => this (hcc ▸ hc)]
    exact fun e => (name_ok k h hk).2.1 e.symm
  · push Not at h1
    unfold form
    rw [if_neg (by omega), if_neg (by rintro ⟨a, b, c⟩; exact absurd c (by simpa using h1.2 a b))]
    rw [sw_last _ _ (pre_no_space _ (by omega)) (W_no_space _ (by omega))]
    exact W_ne_name _ k (by omega) h hk

theorem pre_zero : pre 0 = pre 1 := by decide +kernel

/-- Spelled alike: the same but for a thousand more or less, under a number of millions. -/
def Alike (m n : Nat) : Prop :=
  m / 1000000 = n / 1000000 ∧ m % 1000 = n % 1000 ∧
    (m / 1000 % 1000 = n / 1000 % 1000 ∨ m / 1000 % 1000 ≤ 1 ∧ n / 1000 % 1000 ≤ 1)

theorem pre_alike (a b : Nat) (ha : a < 1000) (hb : b < 1000) : pre a = pre b ↔ a = b ∨ a ≤ 1 ∧ b ≤ 1 := by
  constructor
  · intro h
    by_cases h0 : a = 0
    · by_cases h1 : b = 0
      · left; omega
      · subst h0
        rw [pre_zero] at h
        have := pre_inj 1 b (by omega) (by omega) (by omega) hb h
        right; omega
    · by_cases h1 : b = 0
      · subst h1
        rw [pre_zero] at h
        have := pre_inj a 1 (by omega) (by omega) ha (by omega) h
        right; omega
      · left; exact pre_inj a b (by omega) (by omega) ha hb h
  · rintro (h | ⟨h1, h2⟩)
    · rw [h]
    · interval_cases a <;> interval_cases b <;> first | rfl | exact pre_zero | exact pre_zero.symm

theorem Gs_alike (k : Nat) (h2 : 2 ≤ k) (hk : k ≤ 8) (m n : Nat) :
    Gs k m = Gs k n ↔ Alike (m % 1000 ^ k) (n % 1000 ^ k) := by
  induction k, h2 using Nat.le_induction with
  | base =>
    rw [Gs_two, Gs_two]
    unfold Alike
    have e1 : m % 1000 ^ 2 / 1000000 = n % 1000 ^ 2 / 1000000 := by omega
    have e2 : ∀ x, x % 1000 ^ 2 % 1000 = x % 1000 := fun x => by omega
    have e3 : ∀ x, x % 1000 ^ 2 / 1000 % 1000 = x / 1000 % 1000 := fun x => by omega
    simp only [e1, e2, e3, true_and]
    have hm := pre_no_space (m / 1000 % 1000) (Nat.mod_lt _ (by norm_num))
    have hn := pre_no_space (n / 1000 % 1000) (Nat.mod_lt _ (by norm_num))
    rw [← pre_alike _ _ (Nat.mod_lt _ (by norm_num)) (Nat.mod_lt _ (by norm_num))]
    constructor
    · intro h
      have ht := congrArg (List.takeWhile (· != ' ')) h
      rw [takeWhile_pre _ _ hm, takeWhile_pre _ _ hn] at ht
      rw [ht] at h
      exact ⟨W_inj _ _ (Nat.mod_lt _ (by norm_num)) (Nat.mod_lt _ (by norm_num)) (List.append_cancel_left h), ht⟩
    · rintro ⟨h, h'⟩; rw [h, h']
  | succ k h2 ih =>
    rw [Gs_ge k m h2 (by omega), Gs_ge k n h2 (by omega)]
    have hm := T_no_space (m / 1000 ^ k % 1000) (Nat.mod_lt _ (by norm_num))
    have hn := T_no_space (n / 1000 ^ k % 1000) (Nat.mod_lt _ (by norm_num))
    have key : (T (m / 1000 ^ k % 1000) ++ [' '] ++ (name k ++ [' '] ++ Gs k m) =
        T (n / 1000 ^ k % 1000) ++ [' '] ++ (name k ++ [' '] ++ Gs k n)) ↔
        (m / 1000 ^ k % 1000 = n / 1000 ^ k % 1000 ∧ Gs k m = Gs k n) := by
      constructor
      · intro h
        have ht := congrArg (List.takeWhile (· != ' ')) h
        rw [takeWhile_pre _ _ hm, takeWhile_pre _ _ hn] at ht
        rw [ht] at h
        exact ⟨T_inj _ _ (Nat.mod_lt _ (by norm_num)) (Nat.mod_lt _ (by norm_num)) ht,
          List.append_cancel_left (List.append_cancel_left h)⟩
      · rintro ⟨h, h'⟩; rw [h, h']
    rw [key, ih (by omega)]
    unfold Alike
    have h8 : k < 8 := by omega
    clear ih key hm hn
    rw [Nat.mod_pow_succ, Nat.mod_pow_succ]
    have hM : m % 1000 ^ k < 1000 ^ k := Nat.mod_lt _ (by positivity)
    have hN : n % 1000 ^ k < 1000 ^ k := Nat.mod_lt _ (by positivity)
    have ha : m / 1000 ^ k % 1000 < 1000 := Nat.mod_lt _ (by norm_num)
    have hb : n / 1000 ^ k % 1000 < 1000 := Nat.mod_lt _ (by norm_num)
    generalize m % 1000 ^ k = M at *
    generalize n % 1000 ^ k = N at *
    generalize m / 1000 ^ k % 1000 = a at *
    generalize n / 1000 ^ k % 1000 = b at *
    obtain ⟨j, rfl⟩ : ∃ j, k = j + 2 := ⟨k - 2, by omega⟩
    have e : 1000 ^ (j + 2) = 1000000 * 1000 ^ j := by ring
    rw [e] at hM hN ⊢
    have d1 : ∀ X y : Nat, (X + 1000000 * 1000 ^ j * y) / 1000000 = X / 1000000 + 1000 ^ j * y := fun X y => by
      rw [mul_assoc, Nat.add_mul_div_left _ _ (by norm_num)]
    have d2 : ∀ X y : Nat, (X + 1000000 * 1000 ^ j * y) % 1000 = X % 1000 := fun X y => by
      rw [show 1000000 * 1000 ^ j * y = 1000 * (1000 * 1000 ^ j * y) by ring, Nat.add_mul_mod_self_left]
    have d3 : ∀ X y : Nat, (X + 1000000 * 1000 ^ j * y) / 1000 % 1000 = X / 1000 % 1000 := fun X y => by
      rw [show 1000000 * 1000 ^ j * y = 1000 * (1000 * (1000 ^ j * y)) by ring,
        Nat.add_mul_div_left _ _ (by norm_num), Nat.add_mul_mod_self_left]
    simp only [d1, d2, d3]
    have q1 : M / 1000000 < 1000 ^ j := by rw [Nat.div_lt_iff_lt_mul (by norm_num), mul_comm]; exact hM
    have q2 : N / 1000000 < 1000 ^ j := by rw [Nat.div_lt_iff_lt_mul (by norm_num), mul_comm]; exact hN
    have q3 : M / 1000000 + 1000 ^ j * a = N / 1000000 + 1000 ^ j * b ↔ a = b ∧ M / 1000000 = N / 1000000 := by
      constructor
      · intro h
        have h1 := congrArg (· % 1000 ^ j) h
        simp only [Nat.add_mul_mod_self_left, Nat.mod_eq_of_lt q1, Nat.mod_eq_of_lt q2] at h1
        rw [h1] at h
        exact ⟨Nat.eq_of_mul_eq_mul_left (by positivity : 0 < 1000 ^ j) (Nat.add_left_cancel h), h1⟩
      · rintro ⟨h, h'⟩; rw [h, h']
    rw [q3, and_assoc]

theorem spell_alike (fuel : Nat) (hf : 9 ≤ fuel) (ph : Bool) (m n : Nat) (hm : m < 10 ^ 24) (hn : n < 10 ^ 24) :
    spell fuel ph m = spell fuel ph n ↔ m = n ∨ (1000000 ≤ m ∧ 1000000 ≤ n ∧ Alike m n) := by
  obtain ⟨k, k1, k2, hk⟩ := groupCount_exists m hm
  obtain ⟨l, l1, l2, hl⟩ := groupCount_exists n hn
  have big : ∀ x j, Spec.Number.GroupCount x j → 1000000 ≤ x → 1 ≤ j → j ≤ 8 →
      3 ≤ j ∧ spell fuel ph x = .ok (Gs j x) := by
    intro x j hj hx h1 h2
    have h3 : 3 ≤ j := by
      by_contra h
      have := hj.1
      interval_cases j <;> omega
    exact ⟨h3, spell_groups fuel hf ph x j h2 hj (by rintro ⟨⟨_, h, _⟩, _⟩; omega)⟩
  have clash : ∀ x y j, Spec.Number.GroupCount x j → 1000000 ≤ x → 1 ≤ j → j ≤ 8 → y < 1000000 →
      spell fuel ph x ≠ spell fuel ph y := by
    intro x y j hj hx h1 h2 hy he
    obtain ⟨h3, e⟩ := big x j hj hx h1 h2
    rw [e, spell_eq fuel (by omega) ph y hy] at he
    simp only [Except.ok.injEq] at he
    obtain ⟨j, rfl⟩ : ∃ i, j = i + 1 := ⟨j - 1, by omega⟩
    apply sw_form ph y j hy (by omega) (by omega)
    rw [← he, sw_ge j x (by omega) (by omega)]
  by_cases cm : m < 1000000 <;> by_cases cn : n < 1000000
  · constructor
    · intro h
      rw [spell_eq fuel (by omega) _ m cm, spell_eq fuel (by omega) _ n cn] at h
      exact .inl (form_inj ph m n cm cn (by simpa using h))
    · rintro (h | h)
      · rw [h]
      · omega
  · refine ⟨fun h => absurd h.symm (clash n m l hl (by omega) l1 l2 cm), ?_⟩
    rintro (h | h)
    · omega
    · omega
  · refine ⟨fun h => absurd h (clash m n k hk (by omega) k1 k2 cn), ?_⟩
    rintro (h | h)
    · omega
    · omega
  · obtain ⟨k3, ek⟩ := big m k hk (by omega) k1 k2
    obtain ⟨l3, el⟩ := big n l hl (by omega) l1 l2
    rw [ek, el]
    simp only [Except.ok.injEq]
    constructor
    · intro h
      have hkl : k = l := by
        obtain ⟨k, rfl⟩ : ∃ i, k = i + 1 := ⟨k - 1, by omega⟩
        obtain ⟨l, rfl⟩ : ∃ i, l = i + 1 := ⟨l - 1, by omega⟩
        have := congrArg sw h
        rw [sw_ge k m (by omega) (by omega), sw_ge l n (by omega) (by omega)] at this
        rw [name_inj k l (by omega) (by omega) (by omega) (by omega) this]
      subst hkl
      rw [Gs_alike k (by omega) k2, Nat.mod_eq_of_lt hk.1, Nat.mod_eq_of_lt hl.1] at h
      exact .inr ⟨by omega, by omega, h⟩
    · have hA : (m = n ∨ 1000000 ≤ m ∧ 1000000 ≤ n ∧ Alike m n) → Alike m n := by
        rintro (h | h)
        · subst h; exact ⟨rfl, rfl, .inl rfl⟩
        · exact h.2.2
      intro h
      have h := hA h
      have hkl : k = l := by
        have a1 := hk.1
        have a2 := hl.1
        have a3 := hk.2.resolve_left (by omega)
        have a4 := hl.2.resolve_left (by omega)
        obtain ⟨b1, _, _⟩ := h
        clear ek el big clash
        interval_cases k <;> interval_cases l <;> first | rfl | (exfalso; omega)
      subst hkl
      rw [Gs_alike k (by omega) k2, Nat.mod_eq_of_lt hk.1, Nat.mod_eq_of_lt hl.1]
      exact h

end Verif.Number
