import Verif.Model.Number
import Verif.Lemmas.Base
import Mathlib.Tactic.IntervalCases

namespace Verif.Number
open Verif

/-- The three digits of `b < 1000`. -/
def trip (b : Nat) : List Char :=
  [Nat.digitChar (b / 100), Nat.digitChar (b / 10 % 10), Nat.digitChar (b % 10)]

/-- The words for `b < 1000`. -/
def T (b : Nat) : List Char := match tripleWords 1 (trip b) with | .ok w => w | .error _ => []

/-- "honderd" -/
def H : List Char := ['h', 'o', 'n', 'd', 'e', 'r', 'd']

/-- Split at the first "honderd". -/
def splitH : List Char → Option (List Char × List Char)
  | [] => none
  | c :: cs => if H.isPrefixOf (c :: cs) then some ([], (c :: cs).drop 7)
    else (splitH cs).map fun r => (c :: r.1, r.2)

/-- Every 'h' is followed by something other than 'o'. -/
def noHo : List Char → Bool
  | [] => true
  | [c] => c != 'h'
  | c :: d :: cs => (c != 'h' || d != 'o') && noHo (d :: cs)

theorem splitH_none (p : List Char) (h : noHo p = true) : splitH p = none := by
  induction p with
  | nil => rfl
  | cons c cs ih =>
    cases cs with
    | nil =>
      simp [noHo] at h
      have : ¬ 'h' = c := fun e => h e.symm
      simp [splitH, H, List.isPrefixOf]
    | cons d cs =>
      simp only [noHo, Bool.and_eq_true, Bool.or_eq_true, bne_iff_ne, ne_eq] at h
      unfold splitH
      rw [ih h.2]
      have : H.isPrefixOf (c :: d :: cs) = false := by
        simp only [H, List.isPrefixOf]
        rcases h.1 with h1 | h1
        · have : ('h' == c) = false := by simpa using fun e => h1 (Eq.symm e)
          simp [this]
        · have : ('o' == d) = false := by simpa using fun e => h1 (Eq.symm e)
          simp [this]
      simp [this]

theorem splitH_append (p q : List Char) (h : noHo p = true) : splitH (p ++ H ++ q) = some (p, q) := by
  induction p with
  | nil => simp [splitH, H, List.isPrefixOf]
  | cons c cs ih =>
    have hh : noHo cs = true := by
      cases cs with
      | nil => rfl
      | cons d cs => simp only [noHo, Bool.and_eq_true] at h; exact h.2
    simp only [List.cons_append]
    unfold splitH
    rw [ih hh]
    have : H.isPrefixOf (c :: (cs ++ H ++ q)) = false := by
      cases cs with
      | nil =>
        simp [noHo] at h
        have : ('h' == c) = false := by simpa using fun e => h (Eq.symm e)
        simp [H, List.isPrefixOf]
      | cons d cs =>
        simp only [noHo, Bool.and_eq_true, Bool.or_eq_true, bne_iff_ne, ne_eq] at h
        simp only [H, List.cons_append, List.isPrefixOf]
        rcases h.1 with h1 | h1
        · have : ('h' == c) = false := by simpa using fun e => h1 (Eq.symm e)
          simp [this]
        · have : ('o' == d) = false := by simpa using fun e => h1 (Eq.symm e)
          simp [this]
    rw [if_neg (by rw [this]; simp)]
    rfl

/-- A numeric fingerprint. -/
def code (w : List Char) : Nat := w.foldl (fun a c => a * 131 + c.toNat) 0

/-- Everything that is checked by evaluation about the numbers below 100. -/
def chk (b : Nat) : Bool :=
  match tripleWords 0 (trip b) with
  | .ok w => noHo w && w.all (fun c => c != ' ') &&
    (match tripleWords 1 (trip b) with
      | .ok w' => w' == w
      | .error _ => false)
  | .error _ => false

theorem chk_all : ∀ b < 100, chk b = true := by decide +kernel

theorem T_small (b : Nat) (hb : b < 100) :
    tripleWords 0 (trip b) = .ok (T b) ∧ tripleWords 1 (trip b) = .ok (T b) ∧ noHo (T b) = true ∧
      ∀ c ∈ T b, c ≠ ' ' := by
  have h := chk_all b hb
  unfold chk at h
  split at h
  · rename_i w hw
    simp only [Bool.and_eq_true] at h
    obtain ⟨⟨h1, h2⟩, h3⟩ := h
    split at h3
    · rename_i w' hw'
      have : w' = w := by simpa using h3
      subst this
      have hT : T b = w' := by simp [T, hw']
      rw [hT]
      exact ⟨hw, hw', h1, by simpa using h2⟩
    · simp at h3
  · simp at h

theorem codes_nodup : ((List.range 100).map fun b => code (T b)).Nodup := by
  have h : ((List.range 100).map fun b => code (T b)) =
    [0, 1746602, 262834047, 226779310, 267089988, 267090631, 2106988, 36158085892, 219777506,
    32623829425, 262593802, 1747511, 4510486033809, 509321678467647, 78637764975907626,
    78658169991933953, 620508062141750, 10648553438967808334, 64724458417170828, 9607715188642569227,
    590876055791314, 19844301069126209083654607, 2986230207944066084962150702,
    2576588665383938580111766875, 3034584748327619336595090013, 3034592053872848141397788166,
    23938883064193157178797013, 410815757195481455191863319197, 2497036572374255247683868791,
    370660748688693945679256337540, 3887951744029, 151483214267516448139932, 22795650442320492599884177,
    19668615766288984929270560, 23164769071202578490211958, 23164824838723409061224921,
    182739565374897731308958, 3135998146530392165171648822, 19061347880718883155011796,
    2829471364035831023854038275, 600288282258838, 19844301069135621310122131,
    2986230207944075497188618226, 2576588665383947992338234399, 3034584748327628748821557537,
    3034592053872857553624255690, 23938883064202569405264537, 410815757195481464604089786721,
    2497036572374264659910336315, 370660748688693955091482805064, 600444045739955,
    19844301069135777073603248, 2986230207944075652952099343, 2576588665383948148101715516,
    3034584748327628904585038654, 3034592053872857709387736807, 23938883064202725168745654,
    410815757195481464759853267838, 2497036572374264815673817432, 370660748688693955247246286181,
    4736702764442, 151483214268365199160345, 22795650442321341350904590, 19668615766289833680290973,
    23164769071203427241232371, 23164824838724257812245334, 182739565375746482329371,
    3135998146530393013922669235, 19061347880719731906032209, 2829471364035831872605058688,
    81286667473036706, 2599603440059415294123128089, 391196157240676539034206116534,
    337533115165299835898805835197, 397530602030922014998121166275, 397531559057346988427274624318,
    3135993681413185494586783275, 53816864192608074512038259189379, 327111790981031319350751186193,
    48556558078218910765886744592312, 590025526530920, 19844301069125358554394213,
    2986230207944065234432890308, 2576588665383937729582506481, 3034584748327618486065829619,
    3034592053872847290868527772, 23938883064192306649536619, 410815757195481454341334058803,
    2497036572374254397154608397, 370660748688693944828727077146, 73341337317882209,
    2599603440051469963967973592, 391196157240668593704050962037, 337533115165291890568650680700,
    397530602030914069667966011778, 397531559057339043097119469821, 3135993681405240164431628778,
    53816864192608066566708104034882, 327111790981023374020596031696, 48556558078218902820556589437815] := by decide +kernel
  rw [h]
  decide +kernel

theorem T_small_inj (a b : Nat) (ha : a < 100) (hb : b < 100) (h : T a = T b) : a = b := by
  have := List.nodup_iff_injective_getElem.1 codes_nodup
  have := @this ⟨a, by simpa using ha⟩ ⟨b, by simpa using hb⟩ (by simp [h])
  simpa using this

/-! ### Three digits -/

theorem get_none (d1 d2 d3 : Char) (h : d1 ≠ '0') : tripleToWord.get? [d1, d2, d3] = none := by
  simp [tripleToWord, AD.get?_cons, Ne.symm h]

theorem digitChar_ne_zero (d : Nat) (h : 0 < d) (h' : d < 10) : Nat.digitChar d ≠ '0' := by
  interval_cases d <;> decide

theorem T_big (b : Nat) (h1 : 100 ≤ b) (h2 : b < 1000) :
    tripleWords 1 (trip b) =
      .ok ((if b / 100 = 1 then [] else T (b / 100)) ++ H ++ T (b % 100)) := by
  have hr : b % 100 < 100 := Nat.mod_lt _ (by norm_num)
  have hd : trip (b % 100) = ['0', Nat.digitChar (b / 10 % 10), Nat.digitChar (b % 10)] := by
    unfold trip
    have e1 : b % 100 / 100 = 0 := by omega
    have e2 : b % 100 / 10 % 10 = b / 10 % 10 := by omega
    have e3 : b % 100 % 10 = b % 10 := by omega
    rw [e1, e2, e3]; rfl
  have h0 := (T_small (b % 100) hr).1
  rw [hd] at h0
  have hne := digitChar_ne_zero (b / 100) (by omega) (by omega)
  conv_lhs => unfold tripleWords trip
  simp only [get_none _ _ _ hne]
  have hu : hundredsWord (Nat.digitChar (b / 100)) =
      .ok (if b / 100 = 1 then [] else T (b / 100)) := by
    have : b / 100 < 10 := by omega
    have : 1 ≤ b / 100 := by omega
    have hall : ∀ u < 10, 1 ≤ u → hundredsWord (Nat.digitChar u) = .ok (if u = 1 then [] else T u) := by
      intro u h1 h2
      interval_cases u <;> rfl
    exact hall _ (by omega) (by omega)
  simp only [hu, bind, Except.bind, if_pos hne, h0]
  rfl

theorem T_ok (b : Nat) (h : b < 1000) : tripleWords 1 (trip b) = .ok (T b) := by
  by_cases hb : b < 100
  · exact (T_small b hb).2.1
  · have := T_big b (by omega) h
    rw [this]; simp [T, this]

theorem T_hundreds (b : Nat) (h1 : 100 ≤ b) (h2 : b < 1000) :
    T b = (if b / 100 = 1 then [] else T (b / 100)) ++ H ++ T (b % 100) := by
  have := T_big b h1 h2
  rw [T_ok b h2] at this
  simpa using this

theorem noHo_unit (u : Nat) (h : u < 100) : noHo (if u = 1 then [] else T u) = true := by
  split
  · rfl
  · exact (T_small u h).2.2.1

theorem T_no_space (b : Nat) (h : b < 1000) : ∀ c ∈ T b, c ≠ ' ' := by
  by_cases hb : b < 100
  · exact (T_small b hb).2.2.2
  · rw [T_hundreds b (by omega) h]
    intro c hc
    rcases List.mem_append.1 hc with hc | hc
    · rcases List.mem_append.1 hc with hc | hc
      · split at hc
        · simp at hc
        · exact (T_small (b / 100) (by omega)).2.2.2 c hc
      · rintro rfl; revert hc; decide
    · exact (T_small (b % 100) (by omega)).2.2.2 c hc

theorem T_zero : T 0 = [] := by decide +kernel

theorem splitH_T (b : Nat) (h : b < 1000) :
    splitH (T b) = if b < 100 then none
      else some ((if b / 100 = 1 then [] else T (b / 100)), T (b % 100)) := by
  split
  · rename_i hb; exact splitH_none _ (T_small b hb).2.2.1
  · rename_i hb
    rw [T_hundreds b (by omega) h, splitH_append _ _ (noHo_unit _ (by omega))]

theorem unit_inj (a b : Nat) (ha : 0 < a) (hb : 0 < b) (ha' : a < 100) (hb' : b < 100)
    (h : (if a = 1 then [] else T a) = (if b = 1 then [] else T b)) : a = b := by
  by_cases h1 : a = 1 <;> by_cases h2 : b = 1
  · omega
  · simp only [h1, if_true, h2, if_false] at h
    have := T_small_inj 0 b (by omega) hb' (by rw [T_zero]; exact h)
    omega
  · simp only [h1, if_false, h2, if_true] at h
    have := T_small_inj a 0 ha' (by omega) (by rw [T_zero]; exact h)
    omega
  · simp only [h1, if_false, h2] at h
    exact T_small_inj a b ha' hb' h

theorem T_inj (a b : Nat) (ha : a < 1000) (hb : b < 1000) (h : T a = T b) : a = b := by
  have h' : splitH (T a) = splitH (T b) := by rw [h]
  rw [splitH_T a ha, splitH_T b hb] at h'
  by_cases h1 : a < 100 <;> by_cases h2 : b < 100
  · exact T_small_inj a b h1 h2 h
  · simp [h1, h2] at h'
  · simp [h1, h2] at h'
  · simp only [h1, h2, if_false, Option.some.injEq, Prod.mk.injEq] at h'
    have e1 := unit_inj (a / 100) (b / 100) (by omega) (by omega) (by omega) (by omega) h'.1
    have e2 := T_small_inj (a % 100) (b % 100) (by omega) (by omega) h'.2
    omega

/-- "nul" -/
def nul : List Char := ['n', 'u', 'l']

/-- Words of a final triple. -/
def W (b : Nat) : List Char := if b = 0 then nul else T b

theorem nul_ne_T (b : Nat) (hb : b < 1000) : nul ≠ T b := by
  intro h
  have h' : splitH nul = splitH (T b) := by rw [h]
  rw [splitH_T b hb] at h'
  by_cases h1 : b < 100
  · have hc : code nul ∈ (List.range 100).map (fun b => code (T b)) :=
      List.mem_map.2 ⟨b, List.mem_range.2 h1, by rw [h]⟩
    revert hc; decide +kernel
  · have : splitH nul = none := splitH_none _ (by decide)
    rw [this] at h'; simp [h1] at h'

theorem W_inj (a b : Nat) (ha : a < 1000) (hb : b < 1000) (h : W a = W b) : a = b := by
  unfold W at h
  by_cases h1 : a = 0 <;> by_cases h2 : b = 0
  · omega
  · simp [h1, h2] at h; exact absurd h (nul_ne_T b hb)
  · simp [h1, h2] at h; exact absurd h.symm (nul_ne_T a ha)
  · simp [h1, h2] at h; exact T_inj a b ha hb h

theorem W_no_space (b : Nat) (h : b < 1000) : ∀ c ∈ W b, c ≠ ' ' := by
  unfold W
  split
  · decide
  · exact T_no_space b h

theorem T_ne_nil (b : Nat) (h0 : 0 < b) (h : b < 1000) : T b ≠ [] := by
  intro e
  have := T_inj b 0 h (by omega) (by rw [e, T_zero])
  omega

theorem W_ne_nil (b : Nat) (h : b < 1000) : W b ≠ [] := by
  unfold W
  split
  · decide
  · exact T_ne_nil b (by omega) h

/-! ### Decimal digits -/

theorem digits_small (n : Nat) (h : n < 1000) :
    lastTriple (Nat.toDigits 10 n) = trip n ∧
    (Nat.toDigits 10 n).take ((Nat.toDigits 10 n).length - 3) = [] ∧
    (Nat.toDigits 10 n).length ≤ 3 := by
  by_cases h1 : n < 10
  · rw [Nat.toDigits_of_lt_base h1]
    refine ⟨?_, by simp, by simp⟩
    unfold trip
    have e1 : n / 100 = 0 := by omega
    have e2 : n / 10 % 10 = 0 := by omega
    have e3 : n % 10 = n := by omega
    rw [e1, e2, e3]; rfl
  · by_cases h2 : n < 100
    · rw [Nat.toDigits_of_base_le (by norm_num) (by omega), Nat.toDigits_of_lt_base (by omega)]
      refine ⟨?_, by simp, by simp⟩
      unfold trip
      have e1 : n / 100 = 0 := by omega
      have e2 : n / 10 % 10 = n / 10 := by omega
      rw [e1, e2]; rfl
    · rw [Nat.toDigits_of_base_le (by norm_num) (by omega),
        Nat.toDigits_of_base_le (by norm_num) (by omega), Nat.toDigits_of_lt_base (by omega)]
      refine ⟨?_, by simp, by simp⟩
      unfold trip
      have e1 : n / 10 / 10 = n / 100 := by omega
      rw [e1]; rfl

theorem digits_big (n : Nat) (h : 1000 ≤ n) :
    Nat.toDigits 10 n = Nat.toDigits 10 (n / 1000) ++ trip (n % 1000) := by
  rw [Nat.toDigits_of_base_le (by norm_num) (by omega),
    Nat.toDigits_of_base_le (by norm_num) (by omega), Nat.toDigits_of_base_le (by norm_num) (by omega)]
  unfold trip
  have e1 : n / 10 / 10 / 10 = n / 1000 := by omega
  have e2 : n % 1000 / 100 = n / 10 / 10 % 10 := by omega
  have e3 : n % 1000 / 10 % 10 = n / 10 % 10 := by omega
  have e4 : n % 1000 % 10 = n % 10 := by omega
  rw [e1, e2, e3, e4]
  simp

theorem lastTriple_digits (n : Nat) : lastTriple (Nat.toDigits 10 n) = trip (n % 1000) := by
  by_cases h : n < 1000
  · rw [(digits_small n h).1, Nat.mod_eq_of_lt h]
  · rw [digits_big n (by omega)]
    unfold lastTriple
    have : (Nat.toDigits 10 (n / 1000) ++ trip (n % 1000)).length - 3 =
        (Nat.toDigits 10 (n / 1000)).length := by simp [trip]
    rw [this, List.drop_left]
    simp [trip]

theorem take_digits (n : Nat) : (Nat.toDigits 10 n).take ((Nat.toDigits 10 n).length - 3) =
    if n < 1000 then [] else Nat.toDigits 10 (n / 1000) := by
  by_cases h : n < 1000
  · rw [(digits_small n h).2.1]; simp [h]
  · rw [digits_big n (by omega)]
    have : (Nat.toDigits 10 (n / 1000) ++ trip (n % 1000)).length - 3 =
        (Nat.toDigits 10 (n / 1000)).length := by simp [trip]
    rw [this, List.take_left]
    simp [h]

theorem trip_eq_zero (b : Nat) (h : b < 1000) : trip b = ['0', '0', '0'] ↔ b = 0 := by
  constructor
  · intro e
    simp only [trip, List.cons.injEq, and_true] at e
    obtain ⟨e1, e2, e3⟩ := e
    have z : ∀ d, d < 10 → Nat.digitChar d = '0' → d = 0 := by
      intro d hd he
      by_contra hne
      exact digitChar_ne_zero d (by omega) hd he
    have := z _ (by omega) e1
    have := z _ (by omega) e2
    have := z _ (by omega) e3
    omega
  · rintro rfl; rfl

theorem trip_eq_one (b : Nat) (h : b < 1000) : trip b = ['0', '0', '1'] ↔ b = 1 := by
  constructor
  · intro e
    simp only [trip, List.cons.injEq, and_true] at e
    obtain ⟨e1, e2, e3⟩ := e
    have z : ∀ d, d < 10 → Nat.digitChar d = '0' → d = 0 := by
      intro d hd he
      by_contra hne
      exact digitChar_ne_zero d (by omega) hd he
    have z1 : ∀ d, d < 10 → Nat.digitChar d = '1' → d = 1 := by
      intro d hd he
      interval_cases d <;> revert he <;> decide
    have := z _ (by omega) e1
    have := z _ (by omega) e2
    have := z1 _ (by omega) e3
    omega
  · rintro rfl; rfl

theorem digits_ne_nil (n : Nat) : (Nat.toDigits 10 n).isEmpty = false := by
  have := @Nat.toDigits_ne_nil n 10
  simpa using this

/-! ### The loop -/

/-- One round of the loop on the digits of `m`. -/
theorem body_ok (m i : Nat) (w : List Char) (hi : i < 8) :
    ∃ w', body { s := Nat.toDigits 10 m, i := i, words := w } =
      .ok { s := if m < 1000 then [] else Nat.toDigits 10 (m / 1000), i := i + 1, words := w' } ∧
      (i = 0 → w = [] → w' = W (m % 1000)) ∧
      (i = 1 → w' = (if m % 1000 = 1 then [] else T (m % 1000)) ++
        ['d', 'u', 'i', 'z', 'e', 'n', 'd', ' '] ++ w) := by
  have hm : m % 1000 < 1000 := Nat.mod_lt _ (by norm_num)
  have hget : Py.get modifiers i = .ok (modifiers[i]'(by simpa [modifiers] using hi)) := Py.get_ok _
  simp only [body, lastTriple_digits, take_digits, bind, Except.bind]
  by_cases h1 : i = 0 ∧ trip (m % 1000) = ['0', '0', '0']
  · refine ⟨_, by rw [if_pos h1], ?_, by intro h; omega⟩
    intro _ _
    have := (trip_eq_zero _ hm).1 h1.2
    simp [W, this, nul]
  · rw [if_neg h1]
    by_cases h2 : i = 1 ∧ trip (m % 1000) = ['0', '0', '1']
    · rw [if_pos h2]
      simp only [hget]
      refine ⟨_, rfl, by intro h; omega, ?_⟩
      rintro rfl
      have := (trip_eq_one _ hm).1 h2.2
      simp [this, modifiers]
    · rw [if_neg h2]
      simp only [hget, T_ok _ hm]
      refine ⟨_, rfl, ?_, ?_⟩
      · rintro rfl rfl
        have : m % 1000 ≠ 0 := fun h => h1 ⟨rfl, (trip_eq_zero _ hm).2 h⟩
        simp [W, this, modifiers]
      · rintro rfl
        have : m % 1000 ≠ 1 := fun h => h2 ⟨rfl, (trip_eq_one _ hm).2 h⟩
        simp [this, modifiers]

theorem body_error (m : Nat) (w : List Char) :
    body { s := Nat.toDigits 10 m, i := 8, words := w } = .error .indexError := by
  have hm : m % 1000 < 1000 := Nat.mod_lt _ (by norm_num)
  simp [body, lastTriple_digits, bind, Except.bind, T_ok _ hm, modifiers, Py.get]

/-- The loop. -/
def loop (fuel : Nat) (st : St) : Py St :=
  Py.whileLoop (fun st => .ok (!st.s.isEmpty)) body fuel st

theorem loop_total (k : Nat) : ∀ (m i fuel : Nat) (w : List Char), i + k = 8 → k + 1 < fuel → (0 < k ∨ 0 < m) →
    (m < 1000 ^ k → ∃ st, loop fuel { s := Nat.toDigits 10 m, i := i, words := w } = .ok st) ∧
    (1000 ^ k ≤ m → loop fuel { s := Nat.toDigits 10 m, i := i, words := w } = .error .indexError) := by
  induction k with
  | zero =>
    intro m i fuel w hi hf hkm
    have : i = 8 := by omega
    subst this
    obtain ⟨fuel, rfl⟩ : ∃ f, fuel = f + 1 := ⟨fuel - 1, by omega⟩
    refine ⟨?_, fun _ => ?_⟩
    · intro h
      simp at h; omega
    · simp [loop, Py.whileLoop, digits_ne_nil, body_error]
  | succ k ih =>
    intro m i fuel w hi hf hkm
    obtain ⟨fuel, rfl⟩ : ∃ f, fuel = f + 1 := ⟨fuel - 1, by omega⟩
    obtain ⟨w', e, _, _⟩ := body_ok m i w (by omega)
    simp only [loop, Py.whileLoop, digits_ne_nil, Bool.not_false, e]
    by_cases hm : m < 1000
    · simp only [hm, if_true]
      refine ⟨fun _ => ?_, ?_⟩
      · obtain ⟨fuel, rfl⟩ : ∃ f, fuel = f + 1 := ⟨fuel - 1, by omega⟩
        exact ⟨_, by simp [Py.whileLoop]; rfl⟩
      · intro h
        have : 1000 ≤ 1000 ^ (k + 1) := by
          rw [pow_succ]; have := Nat.one_le_pow k 1000 (by norm_num); omega
        omega
    · simp only [hm, if_false]
      obtain ⟨h1, h2⟩ := ih (m / 1000) (i + 1) fuel w' (by omega) (by omega) (by right; omega)
      refine ⟨fun h => h1 ?_, fun h => h2 ?_⟩
      · rw [Nat.div_lt_iff_lt_mul (by norm_num), ← pow_succ]; exact h
      · rw [Nat.le_div_iff_mul_le (by norm_num), ← pow_succ]; exact h

theorem strip_id (a b : List Char) (h : ∀ c ∈ a, c ≠ ' ') (hb : ∀ c ∈ b, c ≠ ' ') (m : List Char)
    (ha : a ≠ []) (hb' : b ≠ []) : strip (a ++ m ++ b) = a ++ m ++ b := by
  obtain ⟨x, xs, rfl⟩ := List.exists_cons_of_ne_nil ha
  obtain ⟨ys, y, rfl⟩ := (List.eq_nil_or_concat b).resolve_left hb' |>.imp fun _ h => h
  have hx : x ≠ ' ' := h x (by simp)
  have hy : y ≠ ' ' := hb y (by simp)
  unfold strip
  simp [hx, hy]

/-- The words of a number below a million (or the error), in terms of its triples. -/
theorem loop_value (n fuel : Nat) (hf : 3 ≤ fuel) (hn : n < 1000000) :
    (loop fuel { s := Nat.toDigits 10 n, i := 0, words := [] }).map St.words = .ok
      (if n < 1000 then W n
        else (if n / 1000 = 1 then [] else T (n / 1000)) ++ ['d', 'u', 'i', 'z', 'e', 'n', 'd', ' '] ++
          W (n % 1000)) := by
  obtain ⟨fuel, rfl⟩ : ∃ f, fuel = f + 3 := ⟨fuel - 3, by omega⟩
  obtain ⟨w', e, h0, _⟩ := body_ok n 0 [] (by omega)
  have h0 := h0 rfl rfl
  by_cases hm : n < 1000
  · simp only [hm, if_true] at e
    simp [loop, Py.whileLoop, digits_ne_nil, e, hm, h0, Except.map, Nat.mod_eq_of_lt hm]
  · simp only [hm, if_false] at e
    obtain ⟨w2, e2, _, h1⟩ := body_ok (n / 1000) 1 w' (by omega)
    have h1 := h1 rfl
    have hq : n / 1000 < 1000 := by omega
    simp only [hq, if_true] at e2
    subst h0
    simp only [Nat.zero_add] at e
    simp only [loop, Py.whileLoop, digits_ne_nil, e, e2, Bool.not_false, List.isEmpty_nil,
      Bool.not_true, Except.map, hm, if_false, h1, Nat.mod_eq_of_lt hq]

/-- The part before the first blank. -/
def pre (a : Nat) : List Char :=
  (if a = 1 then [] else T a) ++ ['d', 'u', 'i', 'z', 'e', 'n', 'd']

theorem pre_no_space (a : Nat) (h : a < 1000) : ∀ c ∈ pre a, c ≠ ' ' := by
  intro c hc
  rcases List.mem_append.1 hc with hc | hc
  · split at hc
    · simp at hc
    · exact T_no_space a h c hc
  · rintro rfl; revert hc; decide

theorem pre_inj (a b : Nat) (ha : 0 < a) (hb : 0 < b) (ha' : a < 1000) (hb' : b < 1000)
    (h : pre a = pre b) : a = b := by
  have h := List.append_cancel_right h
  by_cases h1 : a = 1 <;> by_cases h2 : b = 1
  · omega
  · simp only [h1, if_true, h2, if_false] at h
    exact absurd h.symm (T_ne_nil b hb hb')
  · simp only [h1, if_false, h2, if_true] at h
    exact absurd h (T_ne_nil a ha ha')
  · simp only [h1, if_false, h2] at h
    exact T_inj a b ha' hb' h

/-- The three forms of the words of a number below a million. -/
def form (ph : Bool) (n : Nat) : List Char :=
  if n < 1000 then W n
  else if n < 10000 ∧ n / 100 % 10 ≠ 0 ∧ ph = true then T (n / 100) ++ H ++ T (n % 100)
  else pre (n / 1000) ++ [' '] ++ W (n % 1000)

theorem trip_cons (n : Nat) (h1 : 1000 ≤ n) (h2 : n < 10000) :
    '0' :: (Nat.toDigits 10 n).take 2 = trip (n / 100) ∧
    '0' :: (Nat.toDigits 10 n).drop 2 = trip (n % 100) ∧
    (Nat.toDigits 10 n).length = 4 ∧ ((Nat.toDigits 10 n)[1]? ≠ some '0' ↔ n / 100 % 10 ≠ 0) := by
  rw [digits_big n h1, Nat.toDigits_of_lt_base (show n / 1000 < 10 by omega)]
  unfold trip
  have e1 : n / 100 / 100 = 0 := by omega
  have e2 : n / 100 / 10 % 10 = n / 1000 := by omega
  have e3 : n % 1000 / 100 = n / 100 % 10 := by omega
  have e4 : n % 100 / 100 = 0 := by omega
  have e5 : n % 100 / 10 % 10 = n % 1000 / 10 % 10 := by omega
  have e6 : n % 100 % 10 = n % 1000 % 10 := by omega
  rw [e1, e2, e3, e4, e5, e6]
  refine ⟨by rfl, by rfl, by rfl, ?_⟩
  simp only [List.cons_append, List.nil_append, List.getElem?_cons_succ, List.getElem?_cons_zero, ne_eq,
    Option.some.injEq]
  constructor
  · intro h h'; rw [h'] at h; exact h rfl
  · intro h; exact digitChar_ne_zero _ (by omega) (by omega)

theorem length_four (n : Nat) (h : (Nat.toDigits 10 n).length = 4) : 1000 ≤ n ∧ n < 10000 := by
  constructor
  · by_contra hc
    have := (digits_small n (by omega)).2.2
    omega
  · by_contra hc
    rw [digits_big n (by omega)] at h
    simp [trip] at h
    have := @Nat.length_toDigits_le_iff 10 (n / 1000) 1 (by norm_num) (by norm_num)
    rw [h] at this
    simp at this
    omega

theorem spell_eq (fuel : Nat) (hf : 3 ≤ fuel) (ph : Bool) (n : Nat) (hn : n < 1000000) :
    spell fuel ph n = .ok (form ph n) := by
  unfold spell
  by_cases hc : (Nat.toDigits 10 n).length = 4 ∧ (Nat.toDigits 10 n)[1]? ≠ some '0' ∧ ph = true
  · obtain ⟨h1, h2⟩ := length_four n hc.1
    obtain ⟨t1, t2, t3, t4⟩ := trip_cons n h1 h2
    have hh : n < 10000 ∧ n / 100 % 10 ≠ 0 ∧ ph = true := ⟨h2, t4.1 hc.2.1, hc.2.2⟩
    simp only []
    rw [if_pos hc]
    unfold form
    rw [if_neg (show ¬ n < 1000 by omega), if_pos hh]
    simp only [t1, t2, T_ok (n / 100) (by omega), T_ok (n % 100) (by omega), bind, Except.bind]
    rfl
  · simp only [hc, if_false]
    have hl := loop_value n fuel hf hn
    unfold loop at hl
    cases hw : Py.whileLoop (fun st => .ok (!st.s.isEmpty)) body fuel
        { s := Nat.toDigits 10 n, i := 0, words := [] } with
    | error e => rw [hw] at hl; simp [Except.map] at hl
    | ok st =>
      rw [hw] at hl
      simp only [Except.map, Except.ok.injEq] at hl
      simp only [bind, Except.bind, hl, form]
      by_cases hs : n < 1000
      · simp only [hs, if_true]
        obtain ⟨x, xs, hx⟩ := List.exists_cons_of_ne_nil (W_ne_nil n hs)
        have hsp := W_no_space n hs
        congr 1
        unfold strip
        rcases List.eq_nil_or_concat (W n) with he | ⟨ys, y, he⟩
        · rw [he] at hx; simp at hx
        · have hy : y ≠ ' ' := hsp y (by rw [he]; simp)
          have hx' : x ≠ ' ' := hsp x (by rw [hx]; simp)
          have : (W n).dropWhile (· == ' ') = W n := by rw [hx]; simp [hx']
          rw [this, he]
          simp [hy]
      · have hh : ¬ (n < 10000 ∧ n / 100 % 10 ≠ 0 ∧ ph = true) := by
          rintro ⟨g1, g2, g3⟩
          obtain ⟨_, _, t3, t4⟩ := trip_cons n (by omega) g1
          exact hc ⟨t3, t4.2 g2, g3⟩
        simp only [hs, if_false, hh]
        congr 1
        have := strip_id (pre (n / 1000)) (W (n % 1000)) (pre_no_space _ (by omega))
          (W_no_space _ (by omega)) [' '] (by simp [pre]) (W_ne_nil _ (by omega))
        rw [← this]
        simp [pre]

theorem takeWhile_pre (p q : List Char) (h : ∀ c ∈ p, c ≠ ' ') :
    (p ++ [' '] ++ q).takeWhile (· != ' ') = p := by
  induction p with
  | nil => simp
  | cons x xs ih =>
    have hx : x ≠ ' ' := h x (by simp)
    simp only [List.cons_append, List.takeWhile_cons, bne_iff_ne, ne_eq, hx, not_false_eq_true, if_true]
    rw [ih fun c hc => h c (by simp [hc])]

theorem no_space_forms (ph : Bool) (n : Nat) (h : n < 1000 ∨ (n < 10000 ∧ n / 100 % 10 ≠ 0 ∧ ph = true)) :
    ' ' ∉ form ph n := by
  intro hm
  unfold form at hm
  by_cases h1 : n < 1000
  · simp only [h1, if_true] at hm
    exact W_no_space n h1 _ hm rfl
  · have h2 := h.resolve_left h1
    simp only [h1, if_false, if_pos h2] at hm
    rcases List.mem_append.1 hm with hm | hm
    · rcases List.mem_append.1 hm with hm | hm
      · exact T_no_space _ (by omega) _ hm rfl
      · revert hm; decide
    · exact T_no_space _ (by omega) _ hm rfl

theorem form_inj (ph : Bool) (m n : Nat) (hm : m < 1000000) (hn : n < 1000000)
    (h : form ph m = form ph n) : m = n := by
  -- the class of `m` and `n`
  by_cases cm : m < 1000 ∨ (m < 10000 ∧ m / 100 % 10 ≠ 0 ∧ ph = true) <;>
  by_cases cn : n < 1000 ∨ (n < 10000 ∧ n / 100 % 10 ≠ 0 ∧ ph = true)
  · by_cases m1 : m < 1000 <;> by_cases n1 : n < 1000
    · simp only [form, m1, n1, if_true] at h
      exact W_inj m n m1 n1 h
    · have n2 := cn.resolve_left n1
      simp only [form, m1, n1, if_true, if_false, if_pos n2] at h
      have hs : splitH (W m) = some (T (n / 100), T (n % 100)) := by
        rw [h, splitH_append _ _ (T_small _ (by omega)).2.2.1]
      exfalso
      by_cases m0 : m = 0
      · subst m0
        have : splitH (W 0) = none := by rw [W]; exact splitH_none _ (by decide)
        rw [this] at hs; simp at hs
      · simp only [W, m0, if_false] at hs
        rw [splitH_T m m1] at hs
        split at hs
        · simp at hs
        · simp only [Option.some.injEq, Prod.mk.injEq] at hs
          have h1 := hs.1
          by_cases hu : m / 100 = 1
          · simp only [hu, if_true] at h1
            exact absurd h1.symm (T_ne_nil _ (by omega) (by omega))
          · simp only [hu, if_false] at h1
            have := T_inj _ _ (by omega) (by omega) h1
            omega
    · have m2 := cm.resolve_left m1
      simp only [form, m1, n1, if_true, if_false, if_pos m2] at h
      have hs : splitH (W n) = some (T (m / 100), T (m % 100)) := by
        rw [← h, splitH_append _ _ (T_small _ (by omega)).2.2.1]
      exfalso
      by_cases n0 : n = 0
      · subst n0
        have : splitH (W 0) = none := by rw [W]; exact splitH_none _ (by decide)
        rw [this] at hs; simp at hs
      · simp only [W, n0, if_false] at hs
        rw [splitH_T n n1] at hs
        split at hs
        · simp at hs
        · simp only [Option.some.injEq, Prod.mk.injEq] at hs
          have h1 := hs.1
          by_cases hu : n / 100 = 1
          · simp only [hu, if_true] at h1
            exact absurd h1.symm (T_ne_nil _ (by omega) (by omega))
          · simp only [hu, if_false] at h1
            have := T_inj _ _ (by omega) (by omega) h1
            omega
    · have m2 := cm.resolve_left m1
      have n2 := cn.resolve_left n1
      simp only [form, m1, n1, if_false, if_pos m2, if_pos n2] at h
      have hs : splitH (T (m / 100) ++ H ++ T (m % 100)) = splitH (T (n / 100) ++ H ++ T (n % 100)) := by
        rw [h]
      rw [splitH_append _ _ (T_small _ (by omega)).2.2.1,
        splitH_append _ _ (T_small _ (by omega)).2.2.1] at hs
      simp only [Option.some.injEq, Prod.mk.injEq] at hs
      have := T_inj _ _ (by omega) (by omega) hs.1
      have := T_inj _ _ (by omega) (by omega) hs.2
      omega
  · exfalso
    apply no_space_forms ph m cm
    rw [h]
    push Not at cn
    unfold form
    rw [if_neg (by omega), if_neg (by rintro ⟨a, b, c⟩; exact absurd c (by simpa using cn.2 a b))]
    simp
  · exfalso
    apply no_space_forms ph n cn
    rw [← h]
    push Not at cm
    unfold form
    rw [if_neg (by omega), if_neg (by rintro ⟨a, b, c⟩; exact absurd c (by simpa using cm.2 a b))]
    simp
  · push Not at cm cn
    unfold form at h
    rw [if_neg (by omega), if_neg (by rintro ⟨a, b, c⟩; exact absurd c (by simpa using cm.2 a b)),
      if_neg (by omega), if_neg (by rintro ⟨a, b, c⟩; exact absurd c (by simpa using cn.2 a b))] at h
    have ht := congrArg (List.takeWhile (· != ' ')) h
    rw [takeWhile_pre _ _ (pre_no_space _ (by omega)), takeWhile_pre _ _ (pre_no_space _ (by omega))] at ht
    have h1 := pre_inj _ _ (by omega) (by omega) (by omega) (by omega) ht
    rw [ht] at h
    have h2 := W_inj _ _ (by omega) (by omega) (List.append_cancel_left h)
    omega

end Verif.Number
