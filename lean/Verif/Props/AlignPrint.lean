import Verif.Lemmas.AlignPrint
import Verif.Props.NeedlemanWunsch
import Verif.Props.SmithWaterman

/-! Property C75 (lib/daeso/string/needleman_wunsch.py). -/
namespace Verif.Props.AlignPrint
open Verif Verif.Etree Verif.Align Verif.StatsTable Verif.AlignPrint Verif.Spec.AlignPrint

/-- C75.  Without elements in one of the sequences nothing is printed: ValueError. -/
theorem empty_fails (seq1 seq2 : List Text) (h : seq1 = [] ∨ seq2 = []) (t : Matrix) (al : List (Int × Int))
    (header trailer : Text) : printScores seq1 seq2 t header trailer = ([], some .valueError) ∧
    printAlignment seq1 seq2 al header trailer = ([], some .valueError) := by
  unfold printScores printAlignment
  rw [widths_empty h]
  exact ⟨rfl, rfl⟩

/-- C75.  A printed alignment is a grid: the numbers and then the texts of the second sequence above the columns, the
number and text of an element of the first sequence before each row, and `x` where two elements are aligned.  Margins and
columns are wider than their texts. -/
theorem alignment_grid (seq1 seq2 : List Text) (h1 : seq1 ≠ []) (h2 : seq2 ≠ []) (al : List (Int × Int))
    (header trailer : Text) : ∃ (a b w : Nat) (numbers texts : Text) (rows : List Text),
    printAlignment seq1 seq2 al header trailer = (header ++ ended (numbers :: texts :: rows) ++ trailer, none) ∧
    (∀ i < seq1.length, (decimal i).length < a) ∧ (∀ x ∈ seq1, x.length < b) ∧
    (∀ j < seq2.length, (decimal j).length < w) ∧ (∀ y ∈ seq2, y.length < w) ∧
    Line a b w [] [] ((List.range seq2.length).map decimal) numbers ∧ Line a b w [] [] seq2 texts ∧
    rows.length = seq1.length ∧
    ∀ i x, seq1[i]? = some x → ∃ row, rows[i]? = some row ∧ Line a b w (decimal i) x
      ((List.range seq2.length).map fun j : Nat => if ((i : Int), (j : Int)) ∈ al then ['x'] else ['.']) row := by
  obtain ⟨a, b, w, hw, ha, hb, hb0, hw'⟩ := widths_ok h1 h2
  have hd : ∀ j < seq2.length, (str j).length < max w ((str seq2.length).length + 1) := fun j hj => by
    have := str_length_mono (Nat.le_of_lt hj); omega
  have hw2 : 1 < max w ((str seq2.length).length + 1) := by have := str_length_pos seq2.length; omega
  refine ⟨a, b, max w ((str seq2.length).length + 1),
    ljust a [] ++ ljust b [] ++ (((List.range seq2.length).map decimal).map
      (rjust (max w ((str seq2.length).length + 1)))).flatten,
    ljust a [] ++ ljust b [] ++ (seq2.map (rjust (max w ((str seq2.length).length + 1)))).flatten, seq1.zipIdx.map fun x =>
    ljust a (str x.2) ++ ljust b x.1 ++ ((List.range seq2.length).map
      (mark (max w ((str seq2.length).length + 1)) al x.2)).flatten, ?_, ?_, hb, ?_, ?_, ?_, ?_, ?_, ?_⟩
  rotate_left
  · intro i hi; rw [← str_decimal]; exact ha i (Nat.le_of_lt hi)
  · intro j hj; rw [← str_decimal]; exact hd j hj
  · intro y hy; have := hw' y hy; omega
  · exact line_of (by simp) (by simp) fun x hx => by
      obtain ⟨j, hj, rfl⟩ := List.mem_map.1 hx
      rw [← str_decimal]; exact Nat.le_of_lt (hd j (List.mem_range.1 hj))
  · exact line_of (by simp) (by simp) fun y hy => by have := hw' y hy; omega
  · simp
  · intro i x hx
    refine ⟨ljust a (str i) ++ ljust b x ++ ((List.range seq2.length).map
      (mark (max w ((str seq2.length).length + 1)) al i)).flatten, by simp [hx], ?_⟩
    have hi : i < seq1.length := by
      by_contra hn
      rw [List.getElem?_eq_none (by omega)] at hx; simp at hx
    have := line_of (a := a) (b := b) (w := max w ((str seq2.length).length + 1)) (s1 := str i) (s2 := x)
      (xs := (List.range seq2.length).map fun j : Nat => if ((i : Int), (j : Int)) ∈ al then ['x'] else ['.'])
      (Nat.le_of_lt (ha i (Nat.le_of_lt hi))) (Nat.le_of_lt (hb x (List.mem_of_getElem? hx))) (by
        intro y hy
        obtain ⟨j, -, rfl⟩ := List.mem_map.1 hy
        split <;> simp <;> omega)
    rw [List.map_map] at this
    rw [← str_decimal]
    exact this
  · unfold printAlignment
    rw [hw]
    have hm : (List.range seq2.length).map (fun i => rjust (max w ((str seq2.length).length + 1)) (str i)) =
        ((List.range seq2.length).map decimal).map (rjust (max w ((str seq2.length).length + 1))) := by
      rw [List.map_map]
      refine List.map_congr_left fun j _ => ?_
      simp only [Function.comp, str_decimal]
    dsimp only
    rw [hm, spaces_just]
    unfold ended markRow
    simp only [List.map_cons, List.flatten_cons, List.map_map, Function.comp_def, List.append_assoc]

/-- C75.  What is printed tells which elements are aligned, and nothing else depends on the alignment. -/
theorem alignment_determined (seq1 seq2 : List Text) (h1 : seq1 ≠ []) (h2 : seq2 ≠ []) (al al' : List (Int × Int))
    (header trailer : Text) :
    printAlignment seq1 seq2 al header trailer = printAlignment seq1 seq2 al' header trailer ↔
    ∀ i < seq1.length, ∀ j < seq2.length, (((i : Int), (j : Int)) ∈ al ↔ ((i : Int), (j : Int)) ∈ al') := by
  obtain ⟨a, b, w, hw, -⟩ := widths_ok h1 h2
  unfold printAlignment
  rw [hw]
  dsimp only
  obtain ⟨v, hv⟩ : ∃ v, v = max w ((str seq2.length).length + 1) := ⟨_, rfl⟩
  rw [← hv]
  have hmark : ∀ i j, (mark v al i j).length = (mark v al' i j).length ∧
      (mark v al i j = mark v al' i j ↔ (((i : Int), (j : Int)) ∈ al ↔ ((i : Int), (j : Int)) ∈ al')) := by
    intro i j
    unfold mark rjust
    by_cases hx : ((i : Int), (j : Int)) ∈ al <;> by_cases hy : ((i : Int), (j : Int)) ∈ al' <;> simp [hx, hy]
  simp only [Prod.mk.injEq, and_true]
  rw [List.append_left_inj, List.append_right_inj]
  have hcells : ∀ (i : Nat) (l : List Nat),
      ((l.map (mark v al i)).flatten.length = (l.map (mark v al' i)).flatten.length) ∧
      ((l.map (mark v al i)).flatten = (l.map (mark v al' i)).flatten ↔
        ∀ j ∈ l, (((i : Int), (j : Int)) ∈ al ↔ ((i : Int), (j : Int)) ∈ al')) := by
    intro i l
    induction l with
    | nil => simp
    | cons j l ih =>
      simp only [List.map_cons, List.flatten_cons, List.length_append, List.mem_cons, forall_eq_or_imp]
      refine ⟨by rw [(hmark i j).1, ih.1], ?_⟩
      rw [← (hmark i j).2, ← ih.2]
      constructor
      · intro h
        exact List.append_inj h (hmark i j).1
      · rintro ⟨e1, e2⟩
        rw [e1, e2]
  have hrow : ∀ i e, (markRow seq2.length a b v al i e).length = (markRow seq2.length a b v al' i e).length ∧
      (markRow seq2.length a b v al i e = markRow seq2.length a b v al' i e ↔
        ∀ j < seq2.length, (((i : Int), (j : Int)) ∈ al ↔ ((i : Int), (j : Int)) ∈ al')) := by
    intro i e
    unfold markRow
    constructor
    · simp only [List.length_append, (hcells i _).1]
    · rw [List.append_left_inj, List.append_right_inj, (hcells i _).2]
      simp only [List.mem_range]
  have key : ∀ (l : List Text) (k : Nat),
      ((l.zipIdx k).map fun x => markRow seq2.length a b v al x.2 x.1).flatten =
        ((l.zipIdx k).map fun x => markRow seq2.length a b v al' x.2 x.1).flatten ↔
      ∀ i, k ≤ i → i < k + l.length → ∀ j < seq2.length, (((i : Int), (j : Int)) ∈ al ↔ ((i : Int), (j : Int)) ∈ al') := by
    intro l
    induction l with
    | nil => intro k; simp; intro i hi hi'; omega
    | cons x l ih =>
      intro k
      rw [List.zipIdx_cons, List.map_cons, List.map_cons, List.flatten_cons, List.flatten_cons]
      constructor
      · intro h
        obtain ⟨e1, e2⟩ := List.append_inj h (hrow k x).1
        intro i hi hi'
        rcases Nat.eq_or_lt_of_le hi with rfl | hi
        · exact (hrow k x).2.1 e1
        · exact (ih (k + 1)).1 e2 i hi (by simp at hi'; omega)
      · intro h
        rw [(hrow k x).2.2 (h k (Nat.le_refl _) (by simp)),
          (ih (k + 1)).2 fun i hi hi' => h i (by omega) (by simp; omega)]
  rw [key seq1 0]
  simp

private theorem whole_eq (q : ℚ) : whole q = truncate q := by
  unfold whole truncate
  by_cases h : q < 0
  · rw [if_neg (not_le.2 h), if_pos h, Int.floor_neg, neg_neg]
  · rw [if_pos (not_lt.1 h), if_neg h]

private theorem initial_eq (d : Dir) : initial d = letter d := by cases d <;> rfl

/-- C75.  If all scores of a matrix have at most five characters, the printed matrix is a grid: numbers and texts of the
second sequence above the columns, which start with an empty one, number and text of the first sequence before each row,
which start with an empty one, and in the fields the whole part of the score and the letter of the step. -/
theorem scores_grid (seq1 seq2 : List Text) (h1 : seq1 ≠ []) (h2 : seq2 ≠ []) (t : Matrix) (cell : Nat → Nat → ℚ × Dir)
    (hc : ∀ i ≤ seq1.length, ∀ j ≤ seq2.length, t (i, j) = some (cell i j))
    (hf : ∀ i ≤ seq1.length, ∀ j ≤ seq2.length, -10000 < (cell i j).1 ∧ (cell i j).1 < 100000)
    (hl : seq2.length < 10000000) (header trailer : Text) : ∃ (a b w : Nat) (numbers texts : Text) (rows : List Text),
    printScores seq1 seq2 t header trailer = (header ++ ended (numbers :: texts :: rows) ++ trailer, none) ∧
    Line a b w [] [] ((List.range (seq2.length + 1)).map decimal) numbers ∧ Line a b w [] [] ([] :: seq2) texts ∧
    rows.length = seq1.length + 1 ∧
    ∀ i x, (([] : Text) :: seq1)[i]? = some x → ∃ row, rows[i]? = some row ∧ Line a b w (decimal i) x
      ((List.range (seq2.length + 1)).map fun j : Nat =>
        (toString (whole (cell i j).1)).toList ++ [':', initial (cell i j).2]) row := by
  obtain ⟨a, b, w, hw, ha, hb, hb0, hw'⟩ := widths_ok h1 h2
  have hfull : Full seq1.length seq2.length t := fun i hi j hj => by rw [hc i hi j hj]; rfl
  have hcell : ∀ i ≤ seq1.length, ∀ j ≤ seq2.length, cellAt t i j = cell i j := fun i hi j hj => by
    unfold cellAt; rw [hc i hi j hj]; rfl
  have hstr : ∀ n : Int, showInt n = (toString n).toList := by
    intro n
    unfold showInt
    cases n with
    | ofNat m =>
      rw [if_neg (by simp)]
      show _ = (toString m).toList
      rw [Nat.toString_eq_ofList_toDigits]
      simp
    | negSucc m =>
      rw [if_pos (Int.negSucc_lt_zero m)]
      show _ = ("-" ++ toString (m + 1)).toList
      rw [Nat.toString_eq_ofList_toDigits, String.toList_append]
      simp
  have hd : ∀ j ≤ seq2.length, (str j).length ≤ max w 7 := fun j hj => by
    have : (str j).length ≤ 7 := showInt_length (by omega) (by omega)
    omega
  have htext : ∀ i ≤ seq1.length, ∀ j ≤ seq2.length, (cellText (cell i j)).length ≤ max w 7 := by
    intro i hi j hj
    obtain ⟨hlo, hhi⟩ := hf i hi j hj
    have hnum : (showInt (truncate (cell i j).1)).length ≤ 5 := by
      generalize (cell i j).1 = q at hlo hhi
      have hlo' : -9999 ≤ truncate q := by
        unfold truncate
        split
        · have : -10000 < ⌈q⌉ := Int.lt_ceil.2 (by push_cast; exact hlo)
          omega
        · exact Int.le_floor.2 (by push_cast; linarith)
      have hhi' : truncate q ≤ 99999 := by
        unfold truncate
        split
        · exact Int.ceil_le.2 (by push_cast; linarith)
        · have : ⌊q⌋ < 100000 := Int.floor_lt.2 (by push_cast; exact hhi)
          omega
      generalize truncate q = n at hlo' hhi'
      unfold showInt
      split
      · rw [List.length_cons]
        have := (Nat.length_toDigits_le_iff (b := 10) (n := n.natAbs) (k := 4) (by decide) (by decide)).2 (by norm_num; omega)
        omega
      · exact (Nat.length_toDigits_le_iff (b := 10) (n := n.natAbs) (k := 5) (by decide) (by decide)).2 (by norm_num; omega)
    unfold cellText
    rw [List.length_append]
    simp only [List.length_cons, List.length_nil]
    omega
  refine ⟨a, b, max w 7,
    ljust a [] ++ ljust b [] ++ (((List.range (seq2.length + 1)).map decimal).map (rjust (max w 7))).flatten,
    ljust a [] ++ ljust b [] ++ ((([] : Text) :: seq2).map (rjust (max w 7))).flatten, (List.range (seq1.length + 1)).map fun i => ljust a (str i) ++ ljust b (rowLabel seq1 i) ++
    ((List.range (seq2.length + 1)).map fun j => rjust (max w 7) (cellText (cellAt t i j))).flatten, ?_, ?_, ?_, ?_, ?_⟩
  rotate_left
  · exact line_of (by simp) (by simp) fun x hx => by
      obtain ⟨j, hj, rfl⟩ := List.mem_map.1 hx
      rw [← str_decimal]; exact hd j (by rw [List.mem_range] at hj; omega)
  · exact line_of (by simp) (by simp) fun y hy => by
      rcases List.mem_cons.1 hy with rfl | hy
      · simp
      · have := hw' y hy; omega
  · simp
  · intro i x hx
    have hi : i < seq1.length + 1 := by
      by_contra hn
      rw [List.getElem?_eq_none (by simp; omega)] at hx; simp at hx
    refine ⟨ljust a (str i) ++ ljust b (rowLabel seq1 i) ++ ((List.range (seq2.length + 1)).map fun j =>
      rjust (max w 7) (cellText (cellAt t i j))).flatten, by simp [hi], ?_⟩
    have hx' : rowLabel seq1 i = x := by
      unfold rowLabel
      cases i with
      | zero => simpa using hx
      | succ i =>
        simp only [List.getElem?_cons_succ] at hx
        simp [List.getD, hx]
    have hxb : x.length ≤ b := by
      cases i with
      | zero => simp at hx; subst hx; simp
      | succ i =>
        simp only [List.getElem?_cons_succ] at hx
        exact Nat.le_of_lt (hb x (List.mem_of_getElem? hx))
    have := line_of (a := a) (b := b) (w := max w 7) (s1 := str i) (s2 := x)
      (xs := (List.range (seq2.length + 1)).map fun j => cellText (cell i j))
      (Nat.le_of_lt (ha i (by omega))) hxb (by
        intro y hy
        obtain ⟨j, hj, rfl⟩ := List.mem_map.1 hy
        exact htext i (by omega) j (by rw [List.mem_range] at hj; omega))
    rw [List.map_map] at this
    rw [← str_decimal, hx']
    have e1 : ((List.range (seq2.length + 1)).map fun j => rjust (max w 7) (cellText (cellAt t i j))) =
        (List.range (seq2.length + 1)).map (rjust (max w 7) ∘ fun j => cellText (cell i j)) :=
      List.map_congr_left fun j hj => by
        simp only [Function.comp]
        rw [hcell i (by omega) j (by rw [List.mem_range] at hj; omega)]
    have e2 : ((List.range (seq2.length + 1)).map fun j : Nat =>
        (toString (whole (cell i j).1)).toList ++ [':', initial (cell i j).2]) =
        (List.range (seq2.length + 1)).map fun j => cellText (cell i j) :=
      List.map_congr_left fun j _ => by unfold cellText; rw [hstr, whole_eq, initial_eq]
    rw [e1, e2]
    exact this
  · rw [printScores_ok hfull hw]
    have hm : (List.range (seq2.length + 1)).map (fun i => rjust (max w 7) (str i)) =
        ((List.range (seq2.length + 1)).map decimal).map (rjust (max w 7)) := by
      rw [List.map_map]
      refine List.map_congr_left fun j _ => ?_
      simp only [Function.comp, str_decimal]
    have hsp : spaces (max w 7) = rjust (max w 7) [] := by
      unfold spaces rjust; simp only [List.length_nil, Nat.sub_zero, List.append_nil]
    unfold scoreHead
    rw [hm, spaces_just, hsp]
    unfold ended
    simp only [List.map_cons, List.flatten_cons, List.map_map, Function.comp_def, List.append_assoc]

/-- C75.  Whatever the scores, what is printed tells the whole part of every score and the step, even where the fields run
together, and nothing else depends on the matrix. -/
theorem scores_determined (seq1 seq2 : List Text) (h1 : seq1 ≠ []) (h2 : seq2 ≠ []) (t t' : Matrix)
    (c c' : Nat → Nat → ℚ × Dir) (ht : ∀ i ≤ seq1.length, ∀ j ≤ seq2.length, t (i, j) = some (c i j))
    (ht' : ∀ i ≤ seq1.length, ∀ j ≤ seq2.length, t' (i, j) = some (c' i j)) (header trailer : Text) :
    printScores seq1 seq2 t header trailer = printScores seq1 seq2 t' header trailer ↔
    ∀ i ≤ seq1.length, ∀ j ≤ seq2.length, whole (c i j).1 = whole (c' i j).1 ∧ (c i j).2 = (c' i j).2 := by
  simp only [whole_eq]
  obtain ⟨a, b, w, hw, -⟩ := widths_ok h1 h2
  have hfull : Full seq1.length seq2.length t := fun i hi j hj => by rw [ht i hi j hj]; rfl
  have hfull' : Full seq1.length seq2.length t' := fun i hi j hj => by rw [ht' i hi j hj]; rfl
  have hcell : ∀ i ≤ seq1.length, ∀ j ≤ seq2.length, cellAt t i j = c i j ∧ cellAt t' i j = c' i j := fun i hi j hj => by
    unfold cellAt; rw [ht i hi j hj, ht' i hi j hj]; exact ⟨rfl, rfl⟩
  rw [printScores_ok hfull hw, printScores_ok hfull' hw]
  simp only [Prod.mk.injEq, and_true]
  constructor
  · intro h
    simp only [List.append_assoc] at h
    have h3 := (List.append_cancel_left_eq _ _ _).mp ((List.append_cancel_left_eq _ _ _).mp h)
    have h4 := rows_inj (p := fun i => ljust a (str i) ++ ljust b (rowLabel seq1 i))
      (by simpa only [List.append_assoc] using h3)
    intro i hi j hj
    have := h4 i (by rw [List.mem_range]; omega) j (by rw [List.mem_range]; omega)
    rwa [(hcell i hi j hj).1, (hcell i hi j hj).2] at this
  · intro h
    congr 2
    refine congrArg List.flatten (List.map_congr_left fun i hi => ?_)
    congr 2
    refine congrArg List.flatten (List.map_congr_left fun j hj => ?_)
    rw [List.mem_range] at hi hj
    have hi' : i ≤ seq1.length := by omega
    have hj' : j ≤ seq2.length := by omega
    rw [(hcell i hi' j hj').1, (hcell i hi' j hj').2]
    unfold cellText
    rw [(h i hi' j hj').1, (h i hi' j hj').2]

/-- C75.  A matrix for other sequences, in which a cell is missing, raises KeyError. -/
theorem scores_missing (seq1 seq2 : List Text) (h1 : seq1 ≠ []) (h2 : seq2 ≠ []) (t : Matrix)
    (ht : ∃ i ≤ seq1.length, ∃ j ≤ seq2.length, t ((i : Nat), (j : Nat)) = none) (header trailer : Text) :
    (printScores seq1 seq2 t header trailer).2 = some .keyError := by
  obtain ⟨a, b, w, hw, -⟩ := widths_ok h1 h2
  have hcell : ∀ i j, (scoreCell (max w 7) t i j).2 = none ∨ (scoreCell (max w 7) t i j).2 = some .keyError := by
    intro i j
    unfold scoreCell
    split <;> simp
  have hand : ∀ (x y : Out), (x.2 = none ∨ x.2 = some .keyError) → (y.2 = none ∨ y.2 = some .keyError) →
      ((x.andThen y).2 = none ∨ (x.andThen y).2 = some .keyError) := by
    rintro ⟨x, _ | e⟩ y hx hy
    · exact hy
    · exact hx
  have hall : ∀ (f : Nat → Out) (l : List Nat), (∀ i, (f i).2 = none ∨ (f i).2 = some .keyError) →
      ((writeAll f l).2 = none ∨ (writeAll f l).2 = some .keyError) := by
    intro f l hf
    induction l with
    | nil => exact Or.inl rfl
    | cons i l ih => exact hand _ _ (hf i) ih
  have hrow : ∀ i, (scoreRow seq1 seq2.length a b (max w 7) t i).2 = none ∨
      (scoreRow seq1 seq2.length a b (max w 7) t i).2 = some .keyError := fun i =>
    hand _ _ (Or.inl rfl) (hand _ _ (hall _ _ (hcell i)) (Or.inl rfl))
  obtain ⟨i, hi, j, hj, hn⟩ := ht
  have hbad : (scoreRow seq1 seq2.length a b (max w 7) t i).2 = some .keyError := by
    have hc : (writeAll (scoreCell (max w 7) t i) (List.range (seq2.length + 1))).2 = some .keyError :=
      writeAll_error (fun j _ => hcell i j) ⟨j, by rw [List.mem_range]; omega, by unfold scoreCell; rw [hn]⟩
    unfold scoreRow
    rcases hx : writeAll (scoreCell (max w 7) t i) (List.range (seq2.length + 1)) with ⟨x, e⟩
    rw [hx] at hc
    dsimp only at hc
    subst hc
    rfl
  have h3 := writeAll_error (l := List.range (seq1.length + 1)) (fun i _ => hrow i) ⟨i, by rw [List.mem_range]; omega, hbad⟩
  unfold printScores
  rw [hw]
  dsimp only
  rcases hx : writeAll (scoreRow seq1 seq2.length a b (max w 7) t) (List.range (seq1.length + 1)) with ⟨x, e⟩
  rw [hx] at h3
  dsimp only at h3
  subst h3
  rfl

/-- C75.  The results of `needleman_wunsch` for sequences with elements can be printed: no exception. -/
theorem nw_printed {α : Type} (s t : List α) (hs : s ≠ []) (ht : t ≠ []) (sim : α → α → ℚ) (gap : α → ℚ) (show' : α → Text)
    (fuel : Nat) (hf : s.length + t.length < fuel) (header trailer : Text) :
    ∃ m al, Verif.NW.needlemanWunsch fuel s t sim gap = .ok (m, al) ∧
      (printScores (s.map show') (t.map show') m header trailer).2 = none ∧
      (printAlignment (s.map show') (t.map show') al header trailer).2 = none := by
  obtain ⟨m, A, e1, e2, -⟩ := Verif.Props.NW.needleman_wunsch_valid s t sim gap fuel hf
  refine ⟨m, _, e1, ?_⟩
  obtain ⟨a, b, w, hw, -⟩ := widths_ok (seq1 := s.map show') (seq2 := t.map show') (by simpa using hs) (by simpa using ht)
  have hfull : Full (s.map show').length (t.map show').length m := by simpa [Full] using e2
  rw [printScores_ok hfull hw]
  unfold printAlignment
  rw [hw]
  exact ⟨rfl, rfl⟩

/-- C75.  So can the results of `smith_waterman`. -/
theorem sw_printed {α : Type} (s t : List α) (hs : s ≠ []) (ht : t ≠ []) (sim : α → α → ℚ) (gap : α → ℚ) (show' : α → Text)
    (fuel : Nat) (hf : s.length + t.length < fuel) (m : Matrix) (al : List (Int × Int))
    (h : Verif.SW.smithWaterman fuel s t sim gap = .ok (m, al)) (header trailer : Text) :
      (printScores (s.map show') (t.map show') m header trailer).2 = none ∧
      (printAlignment (s.map show') (t.map show') al header trailer).2 = none := by
  have hfull : Full (s.map show').length (t.map show').length m := by
    rcases Verif.Props.SW.smith_waterman_total s t sim gap fuel hf with e | ⟨m', A, a, b, c, d, e1, -, e2⟩
    · rw [e] at h; simp at h
    · rw [e1] at h
      simp only [Except.ok.injEq, Prod.mk.injEq] at h
      obtain ⟨rfl, -⟩ := h
      intro i hi j hj
      obtain ⟨v, st, hv, -⟩ := e2 i j (by simpa using hi) (by simpa using hj)
      rw [hv]; rfl
  obtain ⟨a, b, w, hw, -⟩ := widths_ok (seq1 := s.map show') (seq2 := t.map show') (by simpa using hs) (by simpa using ht)
  rw [printScores_ok hfull hw]
  unfold printAlignment
  rw [hw]
  exact ⟨rfl, rfl⟩

/-- C75.  So can all results of `waterman_eggert`, also if there are none because a sequence is empty. -/
theorem we_printed {α : Type} (s t : List α) (sim : α → α → ℚ) (gap : α → ℚ) (show' : α → Text) (limit fuel tfuel : Nat)
    (hf : s.length + t.length < tfuel) (S : List Matrix) (res : List (List (Int × Int)))
    (h : Verif.SW.watermanEggertBoth fuel tfuel s t sim gap limit = .ok (S, res)) :
    (printAll (s.map show') (t.map show') (S.zip res)).2 = none := by
  obtain ⟨hlen, -, hall⟩ := Verif.Props.SW.waterman_eggert_scores s t sim gap limit fuel tfuel hf S res h
  unfold printAll
  have key : ∀ x ∈ S.zip res, (printScores (s.map show') (t.map show') x.1 "SCORE MATRIX\n\n".toList "\n\n".toList).2 = none ∧
      (printAlignment (s.map show') (t.map show') x.2 "ALIGNMENT\n\n".toList "\n\n".toList).2 = none := by
    intro x hx
    obtain ⟨k, hk⟩ := List.mem_iff_getElem?.1 hx
    rw [List.getElem?_zip_eq_some] at hk
    obtain ⟨⟨b, d, v, e, hb0, hb, hd0, hd, hv, hpos, hfull, -⟩, -⟩ := hall k x.1 x.2 hk.1 hk.2
    have hb0 : s ≠ [] ∧ t ≠ [] := by
      constructor <;> rintro rfl <;> simp at hb hd <;> omega
    obtain ⟨a, b, w, hw, -⟩ := widths_ok (seq1 := s.map show') (seq2 := t.map show') (by simpa using hb0.1)
      (by simpa using hb0.2)
    have hF : Full (s.map show').length (t.map show').length x.1 := by
      intro i hi j hj
      obtain ⟨v', e', he, -⟩ := hfull i (by simpa using hi) j (by simpa using hj)
      rw [he]; rfl
    rw [printScores_ok hF hw]
    unfold printAlignment
    rw [hw]
    exact ⟨rfl, rfl⟩
  revert key
  generalize S.zip res = l
  intro key
  induction l with
  | nil => rfl
  | cons x l ih =>
    obtain ⟨h1, h2⟩ := key x (by simp)
    have ih := ih fun y hy => key y (by simp [hy])
    rw [writeAll]
    generalize hs : printScores _ _ x.1 _ _ = a at h1 ⊢
    generalize hb : printAlignment _ _ x.2 _ _ = b at h2 ⊢
    obtain ⟨a, _⟩ := a
    obtain ⟨b, _⟩ := b
    dsimp only at h1 h2
    subst h1 h2
    exact ih

/-! ### An example -/

example : printAlignment ["de".toList, "kat".toList] ["a".toList, "the".toList, "cat".toList] [(0, 1), (1, 2)]
    "ALIGNMENT\n\n".toList "\n".toList =
    ("ALIGNMENT\n\n         0   1   2\n         a the cat\n0 de     .   x   .\n1 kat    .   .   x\n\n".toList, none) := by
  decide +kernel

example : (match Verif.NW.needlemanWunsch 9 [1, 2] [2] (fun x y => if x = y then 3/2 else -1) (fun _ => (-1 : ℚ)) with
    | .ok r => printScores ["1".toList, "2".toList] ["2".toList] r.1 [] []
    | .error _ => ([], none)) =
    ("          0      1\n                 2\n0       0:T   -1:L\n1 1    -1:U   -1:D\n2 2    -2:U    0:D\n".toList, none) := by
  decide +kernel

end Verif.Props.AlignPrint
