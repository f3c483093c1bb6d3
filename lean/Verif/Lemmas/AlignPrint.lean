import Verif.Lemmas.StatsTableRun
import Verif.Spec.AlignPrint

/-! Layout of printed matrices (C75). -/
set_option linter.unusedSectionVars false
namespace Verif.AlignPrint
open Verif Verif.Etree Verif.Align Verif.StatsTable Verif.Spec.AlignPrint

theorem str_decimal (n : Nat) : str n = decimal n := by
  unfold str decimal showInt
  rw [if_neg (by simp), Nat.toString_eq_ofList_toDigits]
  simp

theorem str_length_pos (n : Nat) : 0 < (str n).length := by
  unfold str
  exact List.length_pos_iff.2 (showInt_ne _)

theorem str_length_mono {i n : Nat} (h : i ≤ n) : (str i).length ≤ (str n).length := by
  have hp := str_length_pos n
  unfold str showInt at hp ⊢
  rw [if_neg (by simp)] at hp ⊢
  rw [if_neg (by simp)]
  simp only [Int.natAbs_natCast] at hp ⊢
  rw [Nat.length_toDigits_le_iff (by decide) hp]
  exact Nat.lt_of_le_of_lt h ((Nat.length_toDigits_le_iff (by decide) hp).1 (Nat.le_refl _))

theorem foldl_max_ge (l : List Nat) (n : Nat) : n ≤ l.foldl max n ∧ ∀ x ∈ l, x ≤ l.foldl max n := by
  induction l generalizing n with
  | nil => simp
  | cons y l ih =>
    obtain ⟨h1, h2⟩ := ih (max n y)
    rw [List.foldl_cons]
    refine ⟨by omega, fun x hx => ?_⟩
    rcases List.mem_cons.1 hx with rfl | hx
    · omega
    · exact h2 x hx

theorem widest_ge {l : List Text} {n : Nat} (h : widest l = .ok n) : ∀ x ∈ l, x.length ≤ n := by
  cases l with
  | nil => simp
  | cons y l =>
    simp only [widest, Except.ok.injEq] at h
    obtain ⟨h1, h2⟩ := foldl_max_ge (l.map List.length) y.length
    rw [h] at h1 h2
    intro x hx
    rcases List.mem_cons.1 hx with rfl | hx
    · exact h1
    · exact h2 _ (List.mem_map_of_mem hx)

theorem widest_ok {l : List Text} (h : l ≠ []) : ∃ n, widest l = .ok n := by
  cases l with
  | nil => exact absurd rfl h
  | cons y l => exact ⟨_, rfl⟩

theorem widths_empty {seq1 seq2 : List Text} (h : seq1 = [] ∨ seq2 = []) : widths seq1 seq2 = .error .valueError := by
  unfold widths
  rcases h with rfl | rfl
  · rfl
  · cases seq1 <;> rfl

theorem widths_ok {seq1 seq2 : List Text} (h1 : seq1 ≠ []) (h2 : seq2 ≠ []) : ∃ a b w, widths seq1 seq2 = .ok (a, b, w) ∧
    (∀ i ≤ seq1.length, (str i).length < a) ∧ (∀ x ∈ seq1, x.length < b) ∧ 0 < b ∧ (∀ y ∈ seq2, y.length < w) := by
  obtain ⟨b, hb⟩ := widest_ok h1
  obtain ⟨w, hw⟩ := widest_ok h2
  refine ⟨_, b + 1, w + 1, by unfold widths; rw [hb, hw]; rfl, ?_, ?_, by omega, ?_⟩
  · intro i hi
    have := str_length_mono hi
    omega
  · intro x hx; have := widest_ge hb x hx; omega
  · intro x hx; have := widest_ge hw x hx; omega

theorem rjust_length {w : Nat} {s : Text} (h : s.length ≤ w) : (rjust w s).length = w := by
  unfold rjust; simp; omega

theorem ljust_length {w : Nat} {s : Text} (h : s.length ≤ w) : (ljust w s).length = w := by
  unfold ljust; simp; omega

theorem flatten_drop {w : Nat} : ∀ {xs : List Text}, (∀ x ∈ xs, x.length = w) → ∀ (j : Nat) x, xs[j]? = some x →
    (xs.flatten.drop (j * w)).take w = x
  | [], _, j, x, h => by simp at h
  | y :: xs, hw, 0, x, h => by
    simp at h; subst h
    have := hw y (by simp)
    simp [this]
  | y :: xs, hw, j + 1, x, h => by
    have hy := hw y (by simp)
    rw [List.flatten_cons, show (j + 1) * w = y.length + j * w by rw [hy]; ring, List.drop_append]
    simp only [Nat.add_sub_cancel_left]
    rw [List.drop_eq_nil_of_le (by omega), List.nil_append]
    exact flatten_drop (fun x hx => hw x (by simp [hx])) j x (by simpa using h)

theorem flatten_length {w : Nat} {xs : List Text} (h : ∀ x ∈ xs, x.length = w) : xs.flatten.length = xs.length * w := by
  induction xs with
  | nil => simp
  | cons y xs ih =>
    rw [List.flatten_cons, List.length_append, ih fun x hx => h x (by simp [hx]), h y (by simp), List.length_cons]
    ring

theorem line_of {a b w : Nat} {s1 s2 : Text} {xs : List Text} (h1 : s1.length ≤ a) (h2 : s2.length ≤ b)
    (h3 : ∀ x ∈ xs, x.length ≤ w) : Line a b w s1 s2 xs (ljust a s1 ++ ljust b s2 ++ (xs.map (rjust w)).flatten) := by
  have e1 := ljust_length h1
  have e2 := ljust_length h2
  have e3 : ∀ x ∈ xs.map (rjust w), x.length = w := by
    intro x hx
    obtain ⟨y, hy, rfl⟩ := List.mem_map.1 hx
    exact rjust_length (h3 y hy)
  refine ⟨?_, ?_, ?_, ?_⟩
  · rw [List.length_append, List.length_append, flatten_length e3, e1, e2, List.length_map]
  · rw [List.append_assoc, List.take_append_of_le_length (by omega), List.take_of_length_le (by omega)]; rfl
  · rw [List.append_assoc, List.drop_append, List.drop_eq_nil_of_le (by omega), e1]
    simp only [Nat.sub_self, List.drop_zero, List.nil_append]
    rw [List.take_append_of_le_length (by omega), List.take_of_length_le (by omega)]; rfl
  · intro j x hj
    have hlen : (ljust a s1 ++ ljust b s2).length = a + b := by rw [List.length_append, e1, e2]
    rw [List.drop_append, List.drop_eq_nil_of_le (by omega), List.nil_append, hlen, Nat.add_sub_cancel_left]
    exact flatten_drop e3 j _ (by rw [List.getElem?_map, hj]; rfl)

theorem spaces_just (a b : Nat) : spaces (a + b) = ljust a [] ++ ljust b [] := by
  unfold spaces ljust
  simp only [List.length_nil, Nat.sub_zero, List.nil_append, List.replicate_add]

/-! ### Reading cells -/

theorem showInt_inj {m n : Int} (h : showInt m = showInt n) : m = n := by
  have := parseInt_showInt m
  rw [h, parseInt_showInt] at this
  simpa using this.symm

theorem letter_inj {d e : Dir} (h : letter d = letter e) : d = e := by
  cases d <;> cases e <;> first | rfl | (simp [letter] at h)

theorem showInt_chars (n : Int) : ∀ c ∈ showInt n, c ≠ ':' ∧ c ≠ ' ' := by
  intro c hc
  unfold showInt at hc
  have hd : ∀ c ∈ Nat.toDigits 10 n.natAbs, c ≠ ':' ∧ c ≠ ' ' := by
    intro c hc
    have := digit_toDigits _ c hc
    constructor <;> rintro rfl <;> simp at this
  split at hc
  · rcases List.mem_cons.1 hc with rfl | hc
    · decide
    · exact hd c hc
  · exact hd c hc

theorem colon_split {a b r s : Text} {x y : Char} (ha : ':' ∉ a) (hb : ':' ∉ b) (h : a ++ [':', x] ++ r = b ++ [':', y] ++ s) :
    a = b ∧ x = y ∧ r = s := by
  induction a generalizing b with
  | nil =>
    cases b with
    | nil => simpa using h
    | cons c b => simp at h; simp [← h.1] at hb
  | cons c a ih =>
    cases b with
    | nil => simp at h; simp [h.1] at ha
    | cons d b =>
      simp only [List.cons_append, List.cons.injEq] at h
      rw [List.mem_cons, not_or] at ha hb
      obtain ⟨h1, h2⟩ := ih ha.2 hb.2 h.2
      exact ⟨by rw [h.1, h1], h2⟩

theorem spaces_strip {m n : Nat} {a b : Text} (ha : ∀ c ∈ a, c ≠ ' ') (hb : ∀ c ∈ b, c ≠ ' ')
    (h : List.replicate m ' ' ++ a = List.replicate n ' ' ++ b) : a = b := by
  have key : ∀ (m : Nat) (a : Text), (∀ c ∈ a, c ≠ ' ') → (List.replicate m ' ' ++ a).dropWhile (· = ' ') = a := by
    intro m a ha
    induction m with
    | zero =>
      cases a with
      | nil => rfl
      | cons c a => simp [List.dropWhile_cons, ha c (by simp)]
    | succ m ih => rw [List.replicate_succ, List.cons_append, List.dropWhile_cons]; simpa using ih
  rw [← key m a ha, ← key n b hb, h]

/-- A cell that is read after any others: the same text gives the same number and letter. -/
theorem cell_split {w w' : Nat} {c d : Cell} {r s : Text} (h : rjust w (cellText c) ++ r = rjust w' (cellText d) ++ s) :
    (truncate c.1 = truncate d.1 ∧ c.2 = d.2) ∧ r = s := by
  unfold rjust cellText at h
  have hx : ∀ (k : Nat) (n : Int), ':' ∉ List.replicate k ' ' ++ showInt n := by
    intro k n hm
    rcases List.mem_append.1 hm with hm | hm
    · have := List.eq_of_mem_replicate hm; simp at this
    · exact (showInt_chars n ':' hm).1 rfl
  rw [← List.append_assoc (List.replicate _ ' '), ← List.append_assoc (List.replicate _ ' ')] at h
  obtain ⟨h1, h2, h3⟩ := colon_split (hx _ _) (hx _ _) h
  have h4 := spaces_strip (fun c hc => (showInt_chars _ c hc).2) (fun c hc => (showInt_chars _ c hc).2) h1
  exact ⟨⟨showInt_inj h4, letter_inj h2⟩, h3⟩

/-! ### Writing -/

theorem writeAll_ok {ι : Type} {f : ι → Out} {g : ι → Text} : ∀ {l : List ι}, (∀ i ∈ l, f i = (g i, none)) →
    writeAll f l = ((l.map g).flatten, none)
  | [], _ => rfl
  | i :: l, h => by
    rw [writeAll, h i (by simp), writeAll_ok fun j hj => h j (by simp [hj])]
    rfl

theorem writeAll_error {ι : Type} {f : ι → Out} {e : Err} : ∀ {l : List ι}, (∀ i ∈ l, (f i).2 = none ∨ (f i).2 = some e) →
    (∃ i ∈ l, (f i).2 = some e) → (writeAll f l).2 = some e
  | [], _, ⟨i, hi, _⟩ => by simp at hi
  | i :: l, h, ⟨j, hj, he⟩ => by
    rw [writeAll]
    unfold Out.andThen
    rcases hf : f i with ⟨t, _ | e'⟩
    · dsimp only
      rcases List.mem_cons.1 hj with rfl | hj
      · rw [hf] at he; simp at he
      · exact writeAll_error (fun k hk => h k (by simp [hk])) ⟨j, hj, he⟩
    · have := h i (by simp)
      rw [hf] at this
      simpa using this

/-- All cells are there. -/
def Full (n m : Nat) (t : Matrix) : Prop := ∀ i ≤ n, ∀ j ≤ m, (t (i, j)).isSome

/-- The cell. -/
def cellAt (t : Matrix) (i j : Nat) : Cell := (t (i, j)).getD (0, .T)

theorem scoreCell_ok {n m : Nat} {t : Matrix} (h : Full n m t) (w : Nat) {i j : Nat} (hi : i ≤ n) (hj : j ≤ m) :
    scoreCell w t i j = (rjust w (cellText (cellAt t i j)), none) := by
  have := h i hi j hj
  unfold scoreCell cellAt
  cases hc : t (i, j) with
  | none => rw [hc] at this; simp at this
  | some c => rfl

/-- The label of a row. -/
def rowLabel (seq1 : List Text) (i : Nat) : Text := if i > 0 then seq1.getD (i - 1) [] else []

theorem scoreRow_ok {n m : Nat} {t : Matrix} (h : Full n m t) (seq1 : List Text) (a b w : Nat) {i : Nat} (hi : i ≤ n) :
    scoreRow seq1 m a b w t i = (ljust a (str i) ++ ljust b (rowLabel seq1 i) ++
      ((List.range (m + 1)).map fun j => rjust w (cellText (cellAt t i j))).flatten ++ ['\n'], none) := by
  unfold scoreRow
  rw [writeAll_ok (g := fun j => rjust w (cellText (cellAt t i j))) fun j hj =>
    scoreCell_ok h w hi (by rw [List.mem_range] at hj; omega)]
  simp only [Out.andThen, List.append_assoc]
  rfl

theorem printScores_ok {seq1 seq2 : List Text} {t : Matrix} (h : Full seq1.length seq2.length t) {a b w : Nat}
    (hw : widths seq1 seq2 = .ok (a, b, w)) (header trailer : Text) :
    printScores seq1 seq2 t header trailer = (header ++ scoreHead seq2 a b (max w 7) ++
      ((List.range (seq1.length + 1)).map fun i => ljust a (str i) ++ ljust b (rowLabel seq1 i) ++
        ((List.range (seq2.length + 1)).map fun j => rjust (max w 7) (cellText (cellAt t i j))).flatten ++ ['\n']).flatten ++
      trailer, none) := by
  unfold printScores
  rw [hw]
  dsimp only
  rw [writeAll_ok fun i hi => scoreRow_ok h seq1 a b (max w 7) (by rw [List.mem_range] at hi; omega)]
  simp only [Out.andThen, List.append_assoc]

/-- Rows of cells with the same margins: the same text gives the same cells. -/
theorem cells_inj {w : Nat} {c d : Nat → Cell} {r s : Text} : ∀ {l : List Nat},
    (l.map fun j => rjust w (cellText (c j))).flatten ++ r = (l.map fun j => rjust w (cellText (d j))).flatten ++ s →
    (∀ j ∈ l, truncate (c j).1 = truncate (d j).1 ∧ (c j).2 = (d j).2) ∧ r = s
  | [], h => ⟨by simp, by simpa using h⟩
  | j :: l, h => by
    simp only [List.map_cons, List.flatten_cons, List.append_assoc] at h
    obtain ⟨h1, h2⟩ := cell_split h
    obtain ⟨h3, h4⟩ := cells_inj h2
    refine ⟨fun k hk => ?_, h4⟩
    rcases List.mem_cons.1 hk with rfl | hk
    · exact h1
    · exact h3 k hk

theorem rows_inj {w : Nat} {p : Nat → Text} {c d : Nat → Nat → Cell} {m : List Nat} {r s : Text} : ∀ {l : List Nat},
    (l.map fun i => p i ++ (m.map fun j => rjust w (cellText (c i j))).flatten ++ ['\n']).flatten ++ r =
      (l.map fun i => p i ++ (m.map fun j => rjust w (cellText (d i j))).flatten ++ ['\n']).flatten ++ s →
    ∀ i ∈ l, ∀ j ∈ m, truncate (c i j).1 = truncate (d i j).1 ∧ (c i j).2 = (d i j).2
  | [], _ => by simp
  | i :: l, h => by
    simp only [List.map_cons, List.flatten_cons, List.append_assoc] at h
    obtain ⟨h1, h2⟩ := cells_inj ((List.append_cancel_left_eq _ _ _).mp h)
    simp only [List.cons_append, List.nil_append, List.cons.injEq, true_and] at h2
    intro k hk
    rcases List.mem_cons.1 hk with rfl | hk
    · exact h1
    · exact rows_inj (by simpa only [List.append_assoc] using h2) k hk

end Verif.AlignPrint
