import Verif.Lemmas.AlignPrint
import Verif.Model.MatrixPrint
import Verif.Spec.MatrixPrint

/-! Lemmas for C88. -/
set_option linter.unusedSectionVars false
namespace Verif.MatrixPrint
open Verif Verif.Etree Verif.StatsTable Verif.Spec.MatrixPrint

theorem width_error {lg : Nat → Nat} : ∀ {l : List Int} {w : Nat}, (∃ v ∈ l, v ≤ 0) → width lg w l = .error .valueError
  | [], _, ⟨v, hv, _⟩ => by cases hv
  | u :: l, w, ⟨v, hv, h⟩ => by
    unfold width
    split
    · rfl
    · rename_i hu
      refine width_error ?_
      rcases List.mem_cons.1 hv with rfl | hv
      · exact absurd h hu
      · exact ⟨v, hv, h⟩

theorem width_ok {lg : Nat → Nat} : ∀ {l : List Int} {w : Nat}, (∀ v ∈ l, 0 < v) → ∃ r, width lg w l = .ok r ∧ w ≤ r ∧
    (∀ v ∈ l, lg v.toNat + 1 ≤ r) ∧ (r = w ∨ ∃ v ∈ l, r = lg v.toNat + 1)
  | [], w, _ => ⟨w, rfl, le_refl _, by simp, .inl rfl⟩
  | u :: l, w, h => by
    obtain ⟨r, h1, h2, h3, h4⟩ := width_ok (lg := lg) (l := l) (w := max w (lg u.toNat + 1)) fun v hv => h v (List.mem_cons_of_mem _ hv)
    refine ⟨r, ?_, by omega, ?_, ?_⟩
    · unfold width
      rw [if_neg (by have := h u (by simp); omega)]
      exact h1
    · intro v hv
      rcases List.mem_cons.1 hv with rfl | hv
      · omega
      · exact h3 v hv
    · rcases h4 with h4 | ⟨v, hv, h4⟩
      · rcases le_total (lg u.toNat + 1) w with hw | hw
        · exact .inl (by omega)
        · exact .inr ⟨u, by simp, by omega⟩
      · exact .inr ⟨v, List.mem_cons_of_mem _ hv, h4⟩

theorem showInt_pos {v : Int} (h : 0 < v) : showInt v = Nat.toDigits 10 v.toNat := by
  unfold showInt
  rw [if_neg (by omega)]
  congr 1
  omega

theorem field_of {w : Nat} {v : Int} (hv : 0 < v) (hw : v.toNat < 10 ^ w) (h0 : 0 < w) : Field w v (rjust w (showInt v)) := by
  have := (Nat.length_toDigits_le_iff (b := 10) (n := v.toNat) (k := w) (by decide) h0).2 hw
  rw [showInt_pos hv]
  unfold rjust
  exact ⟨by rw [List.length_append, List.length_replicate]; omega, _, rfl⟩

theorem cells_eq (w : Nat) : ∀ (sep : Text) (v : Int) (l : List Int),
    cells w sep (v :: l) = sep ++ List.intercalate [',', ' '] ((v :: l).map fun v => rjust w (showInt v))
  | sep, v, [] => by simp [cells, List.intercalate]
  | sep, v, u :: l => by
    rw [cells, cells_eq w [',', ' '] u l]
    simp [List.intercalate, List.intersperse]

theorem line_of {w : Nat} {row : List Int} (h : ∀ v ∈ row, 0 < v ∧ v.toNat < 10 ^ w ∧ 0 < w) : Line w row (line w row) := by
  refine ⟨row.map fun v => rjust w (showInt v), ?_, ?_⟩
  · rw [List.forall₂_map_right_iff, List.forall₂_same]
    exact fun v hv => field_of (h v hv).1 (h v hv).2.1 (h v hv).2.2
  · unfold line
    cases row with
    | nil => rfl
    | cons v l =>
      rw [cells_eq, if_neg (by simp)]

/-! ### Without blanks -/

/-- What is not a blank. -/
def dense (t : Text) : Text := t.filter (· ≠ ' ')

theorem dense_append (s t : Text) : dense (s ++ t) = dense s ++ dense t := List.filter_append _ _

theorem dense_rjust {w : Nat} (v : Int) : dense (rjust w (showInt v)) = showInt v := by
  unfold rjust
  rw [dense_append]
  have h1 : dense (List.replicate (w - (showInt v).length) ' ') = [] := by simp [dense]
  have h2 : dense (showInt v) = showInt v := by
    unfold dense
    rw [List.filter_eq_self]
    intro c hc
    simpa using (AlignPrint.showInt_chars v c hc).2
  rw [h1, h2]
  rfl

/-- Rows without blanks. -/
def short : Text → List Int → Text
  | _, [] => [']', '\n']
  | sep, v :: l => sep ++ showInt v ++ short [','] l

theorem dense_cells {w : Nat} : ∀ (row : List Int) (sep : Text), dense (cells w sep row ++ [']', '\n']) = short (dense sep) row
  | [], _ => rfl
  | v :: l, sep => by
    have h := dense_cells (w := w) l [',', ' ']
    rw [dense_append] at h
    rw [cells, dense_append, dense_append, dense_append, dense_rjust, short, List.append_assoc, List.append_assoc]
    rw [h]
    rw [List.append_assoc]
    rfl

theorem showInt_noSep {v : Int} (c : Char) (hc : c ∈ showInt v) : c ≠ ',' ∧ c ≠ ']' := by
  unfold showInt at hc
  have hd : ∀ c ∈ Nat.toDigits 10 v.natAbs, c ≠ ',' ∧ c ≠ ']' := by
    intro c hc
    have := digit_toDigits _ c hc
    constructor <;> rintro rfl <;> simp at this
  split at hc
  · rcases List.mem_cons.1 hc with rfl | hc
    · decide
    · exact hd c hc
  · exact hd c hc

theorem until_inj {p : Char → Prop} : ∀ {a b : Text} {c d : Char} {r s : Text}, (∀ x ∈ a, ¬ p x) → (∀ x ∈ b, ¬ p x) → p c → p d →
    a ++ c :: r = b ++ d :: s → a = b ∧ c = d ∧ r = s
  | [], [], c, d, r, s, _, _, _, _, h => by simp at h; exact ⟨rfl, h⟩
  | [], x :: b, c, d, r, s, _, hb, hc, _, h => by
    simp at h
    exact absurd (h.1 ▸ hc) (hb x (by simp))
  | x :: a, [], c, d, r, s, ha, _, _, hd, h => by
    simp at h
    exact absurd (h.1 ▸ hd) (ha x (by simp))
  | x :: a, y :: b, c, d, r, s, ha, hb, hc, hd, h => by
    simp only [List.cons_append, List.cons.injEq] at h
    obtain ⟨h1, h2⟩ := until_inj (fun z hz => ha z (List.mem_cons_of_mem _ hz)) (fun z hz => hb z (List.mem_cons_of_mem _ hz)) hc hd h.2
    exact ⟨by rw [h.1, h1], h2⟩

theorem short_cons (l : List Int) : ∃ c r, short [','] l = c :: r ∧ (c = ',' ∨ c = ']') := by
  cases l with
  | nil => exact ⟨_, _, rfl, .inr rfl⟩
  | cons v l => exact ⟨_, _, rfl, .inl rfl⟩

theorem short_inj {x : Char} (hx : x ≠ ']') : ∀ {k l : List Int} {r s : Text}, short [x] k ++ r = short [x] l ++ s → k = l ∧ r = s
  | [], [], r, s, h => by simpa [short] using h
  | [], v :: l, r, s, h => by
    simp [short] at h
    exact absurd h.1.symm hx
  | u :: k, [], r, s, h => by
    simp [short] at h
    exact absurd h.1 hx
  | u :: k, v :: l, r, s, h => by
    simp only [short, List.singleton_append, List.cons_append, List.cons.injEq, true_and, List.append_assoc] at h
    obtain ⟨c, a, h1, h2⟩ := short_cons k
    obtain ⟨d, b, h3, h4⟩ := short_cons l
    have h' := h
    rw [h1, h3] at h
    obtain ⟨e1, e2, e3⟩ := until_inj (p := fun c => c = ',' ∨ c = ']')
      (fun z hz hp => by have := showInt_noSep z hz; rcases hp with hp | hp <;> simp [hp] at this)
      (fun z hz hp => by have := showInt_noSep z hz; rcases hp with hp | hp <;> simp [hp] at this) h2 h4 h
    rw [e1] at h'
    obtain ⟨f1, f2⟩ := short_inj (x := ',') (by decide) (List.append_cancel_left h')
    exact ⟨by rw [AlignPrint.showInt_inj e1, f1], f2⟩

theorem dense_line (w : Nat) (row : List Int) : dense (line w row) = short ['['] row := dense_cells row _

theorem lines_inj {w w' : Nat} : ∀ {k l : List (List Int)}, dense (k.map (line w)).flatten = dense (l.map (line w')).flatten → k = l
  | [], [], _ => rfl
  | [], b :: l, h => by
    rw [List.map_cons, List.flatten_cons, dense_append, dense_line] at h
    cases b <;> simp [short, dense] at h
  | a :: k, [], h => by
    rw [List.map_cons, List.flatten_cons, dense_append, dense_line] at h
    cases a <;> simp [short, dense] at h
  | a :: k, b :: l, h => by
    rw [List.map_cons, List.flatten_cons, dense_append, dense_line, List.map_cons, List.flatten_cons, dense_append, dense_line] at h
    obtain ⟨h1, h2⟩ := short_inj (by decide) h
    rw [h1, lines_inj h2]

theorem intercalate_length {w : Nat} : ∀ {fs : List Text}, (∀ f ∈ fs, f.length = w) →
    (List.intercalate [',', ' '] fs).length = fs.length * w + 2 * (fs.length - 1)
  | [], _ => by simp [List.intercalate]
  | [f], h => by simp [List.intercalate, h]
  | f :: g :: fs, h => by
    have := intercalate_length (w := w) (fs := g :: fs) fun f hf => h f (List.mem_cons_of_mem _ hf)
    have h1 := h f (by simp)
    simp [List.intercalate, List.intersperse] at this ⊢
    rw [this, h1]
    ring

theorem line_length {w : Nat} {row : List Int} {t : Text} (h : Line w row t) :
    t.length = (if row = [] then 2 else 3) + row.length * w + 2 * (row.length - 1) := by
  obtain ⟨fs, h1, rfl⟩ := h
  have h2 : ∀ f ∈ fs, f.length = w := by
    intro f hf
    obtain ⟨v, -, h⟩ := List.forall₂_iff_get.1 h1 |> fun ⟨hl, hg⟩ => (by
      obtain ⟨i, hi, rfl⟩ := List.mem_iff_getElem.1 hf
      exact ⟨row[i]'(by omega), List.getElem_mem _, hg i (by omega) hi⟩ : ∃ v ∈ row, Field w v f)
    exact h.1
  rw [List.length_append, List.length_append, intercalate_length h2, h1.length_eq]
  split <;> simp <;> omega

end Verif.MatrixPrint
