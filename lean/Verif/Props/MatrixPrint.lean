import Verif.Lemmas.MatrixPrint

/-! C88: printing a matrix. -/
namespace Verif.Props.MatrixPrint
open Verif Verif.Etree Verif.MatrixPrint Verif.Spec.MatrixPrint

/-- Whether printing raises: just if an entry is zero or negative, whatever the logarithm gives; it is a ValueError then, and only the
message has been written. -/
theorem raises (lg : Nat → Nat) (rows : List (List Int)) (msg : Option Text) :
    (Positive rows → (printMatrix lg rows msg).2 = none) ∧
    (¬ Positive rows → printMatrix lg rows msg = ((msg.map (· ++ ['\n'])).getD [], some .valueError)) := by
  constructor
  · intro h
    obtain ⟨r, h1, -⟩ := width_ok (lg := lg) (l := rows.flatten) (w := 0) (by
      intro v hv
      obtain ⟨row, hr, hv⟩ := List.mem_flatten.1 hv
      exact h row hr v hv)
    unfold printMatrix
    rw [h1]
  · intro h
    unfold Positive at h
    push Not at h
    obtain ⟨row, hr, v, hv, h⟩ := h
    unfold printMatrix
    rw [width_error ⟨v, List.mem_flatten.2 ⟨row, hr, hv⟩, h⟩]
    cases msg <;> rfl

/-- What is printed: the message on a line, and a line for each row, with the numbers in fields of one width, if no logarithm is too
small. The width is what one of the logarithms says, so that with exact logarithms no field is wider than the longest number. Lines of
rows with the same number of entries are equally long. -/
theorem shows {lg : Nat → Nat} {rows : List (List Int)} (hp : Positive rows)
    (hlg : ∀ row ∈ rows, ∀ v ∈ row, v.toNat < 10 ^ (lg v.toNat + 1)) (msg : Option Text) :
    ∃ w ts, (printMatrix lg rows msg).1 = (msg.map (· ++ ['\n'])).getD [] ++ ts.flatten ∧ List.Forall₂ (Line w) rows ts ∧
      (rows.flatten ≠ [] → ∃ row ∈ rows, ∃ v ∈ row, w = lg v.toNat + 1) ∧
      ∀ (i j : Nat) (r r' : List Int) (t t' : Text), rows[i]? = some r → rows[j]? = some r' → r.length = r'.length → ts[i]? = some t →
        ts[j]? = some t' → t.length = t'.length := by
  have hp' : ∀ v ∈ rows.flatten, 0 < v := by
    intro v hv
    obtain ⟨row, hr, hv⟩ := List.mem_flatten.1 hv
    exact hp row hr v hv
  obtain ⟨w, h1, -, h3, h4⟩ := width_ok (lg := lg) (w := 0) hp'
  have hlines : List.Forall₂ (Line w) rows (rows.map (line w)) := by
    rw [List.forall₂_map_right_iff, List.forall₂_same]
    intro row hr
    refine line_of fun v hv => ?_
    have h5 := h3 v (List.mem_flatten.2 ⟨row, hr, hv⟩)
    exact ⟨hp row hr v hv, lt_of_lt_of_le (hlg row hr v hv) (Nat.pow_le_pow_right (by decide) h5), by omega⟩
  refine ⟨w, rows.map (line w), ?_, hlines, ?_, ?_⟩
  · unfold printMatrix
    rw [h1]
    cases msg <;> rfl
  · intro hne
    rcases h4 with h4 | ⟨v, hv, h4⟩
    · obtain ⟨v, l, hvl⟩ := List.exists_cons_of_ne_nil hne
      have := h3 v (by rw [hvl]; simp)
      omega
    · obtain ⟨row, hr, hv⟩ := List.mem_flatten.1 hv
      exact ⟨row, hr, v, hv, h4⟩
  · intro i j r r' t t' hi hj hl ht ht'
    rw [List.getElem?_map, hi] at ht
    rw [List.getElem?_map, hj] at ht'
    cases ht
    cases ht'
    have e : ∀ row ∈ rows, Line w row (line w row) := by
      rw [List.forall₂_map_right_iff, List.forall₂_same] at hlines
      exact hlines
    rw [line_length (e r (List.mem_of_getElem? hi)), line_length (e r' (List.mem_of_getElem? hj)), hl]
    have : r = [] ↔ r' = [] := by rw [← List.length_eq_zero_iff, ← List.length_eq_zero_iff, hl]
    simp only [this]

/-- The print tells the matrix, whatever the logarithms give. -/
theorem told {lg lg' : Nat → Nat} {rows rows' : List (List Int)} (hp : Positive rows) (hp' : Positive rows') {msg : Option Text}
    (h : (printMatrix lg rows msg).1 = (printMatrix lg' rows' msg).1) : rows = rows' := by
  have key : ∀ (lg : Nat → Nat) (rows : List (List Int)), Positive rows →
      ∃ w, (printMatrix lg rows msg).1 = (msg.map (· ++ ['\n'])).getD [] ++ (rows.map (line w)).flatten := by
    intro lg rows hp
    obtain ⟨w, h1, -⟩ := width_ok (lg := lg) (w := 0) (l := rows.flatten) (by
      intro v hv
      obtain ⟨row, hr, hv⟩ := List.mem_flatten.1 hv
      exact hp row hr v hv)
    refine ⟨w, ?_⟩
    unfold printMatrix
    rw [h1]
    cases msg <;> rfl
  obtain ⟨w, h1⟩ := key lg rows hp
  obtain ⟨w', h2⟩ := key lg' rows' hp'
  rw [h1, h2] at h
  exact lines_inj (congrArg dense (List.append_cancel_left h))

/-! ### Examples -/

/-- The exact logarithm, cut off. -/
def lg (n : Nat) : Nat := (Nat.toDigits 10 n).length - 1

/-- The example of the documentation. -/
example : printMatrix lg [[5, 9, 1], [10, 3, 2], [8, 7, 4]] (some "Lowest cost:".toList) =
    ("Lowest cost:\n[ 5,  9,  1]\n[10,  3,  2]\n[ 8,  7,  4]\n".toList, none) := by decide +kernel

/-- It meets the hypotheses. -/
example : Positive [[5, 9, 1], [10, 3, 2], [8, 7, 4]] ∧
    ∀ row ∈ [[(5 : Int), 9, 1], [10, 3, 2], [8, 7, 4]], ∀ v ∈ row, v.toNat < 10 ^ (lg v.toNat + 1) := by
  unfold Positive
  decide +kernel

/-- A logarithm that is too large gives wider fields. -/
example : printMatrix (fun n => lg n + 1) [[5, 10]] none = ("[  5,  10]\n".toList, none) := by decide +kernel

/-- A matrix with a zero cannot be printed. -/
example : printMatrix lg [[5, 0]] (some "m".toList) = ("m\n".toList, some .valueError) := by decide +kernel

/-- An empty row has one bracket. -/
example : printMatrix lg [[12], []] none = ("[12]\n]\n".toList, none) := by decide +kernel

end Verif.Props.MatrixPrint
