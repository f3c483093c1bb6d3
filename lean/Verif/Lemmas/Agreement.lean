import Verif.Model.Agreement
import Verif.Spec.Scores
import Verif.Spec.Table
import Verif.Lemmas.AlignEval
import Verif.Lemmas.GraphPair

/-! Lemmas about tables of agreement. -/
namespace Verif.Agreement
open Verif Verif.Spec Verif.AlignEval
set_option linter.unusedSectionVars false

/-- The cells outside the diagonal have these values. -/
def Reads (labels : List String) (v : String → String → ℚ) (d : Table) : Prop :=
  ∀ r ∈ labels, ∀ c ∈ labels, c ≠ r → cell d r c = .ok (v r c)

theorem cell_set_other {d : Table} {row row' col c : String} {r : AD String ℚ} (h : row' ≠ row) :
    cell (d.set row r) row' c = cell d row' c := by
  unfold cell AD.get
  rw [AD.get?_set, if_neg h]

theorem setCell_ok {d : Table} {row : String} (h : (d.get? row).isSome) (col : String) (v : ℚ) :
    ∃ d', setCell d row col v = .ok d' ∧ (∀ r, (d'.get? r).isSome = (d.get? r).isSome) ∧
      cell d' row col = .ok v ∧ (∀ r c, (r ≠ row ∨ c ≠ col) → cell d' r c = cell d r c) := by
  obtain ⟨r, hr⟩ := Option.isSome_iff_exists.1 h
  have h1 : d.get row = .ok r := AD.get_eq hr
  refine ⟨d.set row (r.set col v), ?_, ?_, ?_, ?_⟩
  · simp only [setCell, h1, bind, Except.bind, pure, Except.pure]
  · intro r'
    rw [AD.get?_set]
    split
    · rename_i e; rw [e, hr]; rfl
    · rfl
  · unfold cell
    rw [AD.get_eq (AD.get?_set_self _ _ _)]
    exact AD.get_eq (AD.get?_set_self _ _ _)
  · intro r' c' hne
    by_cases e : r' = row
    · subst e
      have hc : c' ≠ col := by rcases hne with h | h; exact absurd rfl h; exact h
      unfold cell
      rw [AD.get_eq (AD.get?_set_self _ _ _), h1]
      simp only [bind, Except.bind]
      unfold AD.get
      rw [AD.get?_set, if_neg hc]
    · exact cell_set_other (col := col) e

theorem columnSum_ok {labels : List String} {v : String → String → ℚ} {d : Table} (h : Reads labels v d) {col : String}
    (hc : col ∈ labels) : columnSum labels d col = .ok (column labels v col).sum := by
  unfold columnSum column
  suffices H : ∀ (l : List String), (∀ r ∈ l, r ∈ labels) → ∀ a : ℚ,
      (Py.forIn l a fun row a => if col ≠ row then do
          let v ← cell d row col
          return a + v
        else return a) = .ok (a + ((l.filter fun row => col ≠ row).map fun row => v row col).sum) by
    simpa using H labels (fun _ h => h) 0
  intro l
  induction l with
  | nil => intro _ a; simp [Py.forIn]
  | cons r l ih =>
    intro hl a
    unfold Py.forIn
    by_cases he : col ≠ r
    · simp only [he, if_true, h r (hl r (by simp)) col hc he, bind, Except.bind, pure, Except.pure, ne_eq,
        not_false_eq_true] at ih ⊢
      rw [ih fun x hx => hl x (by simp [hx])]
      simp only [List.filter_cons, he, decide_not, List.map_cons, List.sum_cons, decide_false, Bool.not_false, if_true]
      rw [add_assoc]
    · simp only [ne_eq, not_not] at he
      subst he
      simp only [ne_eq, not_true_eq_false, if_false, pure, Except.pure] at ih ⊢
      rw [ih fun x hx => hl x (by simp [hx])]
      simp [List.filter_cons]

theorem columnDev_ok {labels : List String} {v : String → String → ℚ} {d : Table} (h : Reads labels v d) {col : String}
    (hc : col ∈ labels) (m m' o : ℚ) : columnDev labels d m m' col o =
      .ok (((column labels v col).map fun x => (x - m) ^ 2).sum, o + ((column labels v col).map fun x => (x - m') ^ 2).sum) := by
  unfold columnDev column
  suffices H : ∀ (l : List String), (∀ r ∈ l, r ∈ labels) → ∀ a : ℚ × ℚ,
      (Py.forIn l a fun row a => if col ≠ row then do
          let v ← cell d row col
          return (a.1 + (v - m) ^ 2, a.2 + (v - m') ^ 2)
        else return a) = .ok (a.1 + (((l.filter fun row => col ≠ row).map fun row => v row col).map fun x => (x - m) ^ 2).sum,
          a.2 + (((l.filter fun row => col ≠ row).map fun row => v row col).map fun x => (x - m') ^ 2).sum) by
    simpa using H labels (fun _ h => h) (0, o)
  intro l
  induction l with
  | nil => intro _ a; simp [Py.forIn]
  | cons r l ih =>
    intro hl a
    unfold Py.forIn
    by_cases he : col ≠ r
    · simp only [he, if_true, h r (hl r (by simp)) col hc he, bind, Except.bind, pure, Except.pure, ne_eq,
        not_false_eq_true] at ih ⊢
      rw [ih fun x hx => hl x (by simp [hx])]
      simp only [List.filter_cons, he, decide_not, List.map_cons, List.sum_cons, decide_false, Bool.not_false, if_true]
      rw [add_assoc, add_assoc]
    · simp only [ne_eq, not_not] at he
      subst he
      simp only [ne_eq, not_true_eq_false, if_false, pure, Except.pure] at ih ⊢
      rw [ih fun x hx => hl x (by simp [hx])]
      simp [List.filter_cons]

theorem column_length {labels : List String} (hn : labels.Nodup) {col : String} (hc : col ∈ labels)
    (v : String → String → ℚ) : ((column labels v col).length : ℚ) = labels.length - 1 := by
  have h1 : (labels.filter fun row => col ≠ row) = labels.erase col := by
    rw [hn.erase_eq_filter]
    apply List.filter_congr
    intro x _
    by_cases h : col = x
    · simp [h]
    · have : ¬ x = col := fun e => h e.symm
      simp [h, this]
  have h2 : (column labels v col).length = labels.length - 1 := by
    rw [column, List.length_map, h1, List.length_erase_of_mem hc]
  have h3 : 1 ≤ labels.length := List.length_pos_of_mem hc
  rw [h2, Nat.cast_sub h3, Nat.cast_one]

theorem offDiagonal_length {labels : List String} (hn : labels.Nodup) (v : String → String → ℚ) :
    ((offDiagonal labels v).length : ℚ) = labels.length * (labels.length - 1) := by
  unfold offDiagonal
  rw [List.length_flatMap]
  have : ∀ l : List String, (∀ c ∈ l, c ∈ labels) →
      (((l.map fun c => (column labels v c).length).sum : Nat) : ℚ) = l.length * (labels.length - 1) := by
    intro l
    induction l with
    | nil => intro _; simp
    | cons c l ih =>
      intro hl
      simp only [List.map_cons, List.sum_cons, Nat.cast_add, List.length_cons]
      rw [ih fun x hx => hl x (by simp [hx]), column_length hn (hl c (by simp))]
      push_cast
      ring
  exact this labels fun _ h => h

/-- No label is used for the statistics. -/
def Unreserved (labels : List String) : Prop := "mean" ∉ labels ∧ "SD" ∉ labels ∧ "overall" ∉ labels

/-- What `calculate_av` has done. -/
structure Averaged (labels : List String) (v : String → String → ℚ) (d : Table) : Prop where
  reads : Reads labels v d
  means : ∀ c ∈ labels, cell d "mean" c = .ok (meanOf (column labels v c))
  overall : cell d "mean" "overall" = .ok (meanOf (offDiagonal labels v))
  sd : (d.get? "SD").isSome

theorem calculateAv_ok {labels : List String} {v : String → String → ℚ} {d : Table} (hu : Unreserved labels)
    (hn : labels.Nodup) (h2 : 2 ≤ labels.length) (h : Reads labels v d) (hm : (d.get? "mean").isSome)
    (hs : (d.get? "SD").isSome) : ∃ d', calculateAv labels d = .ok d' ∧ Averaged labels v d' := by
  have hne : (labels.length : ℚ) - 1 ≠ 0 := by
    have : (2 : ℚ) ≤ labels.length := by exact_mod_cast h2
    intro e; linarith
  have hpos : (labels.length : ℚ) ≠ 0 := by
    have : (2 : ℚ) ≤ labels.length := by exact_mod_cast h2
    intro e; linarith
  have key : ∀ (suf pre : List String) (d : Table) (o : ℚ), labels = pre ++ suf → Reads labels v d →
      (d.get? "mean").isSome → (d.get? "SD").isSome →
      (∀ c ∈ pre, cell d "mean" c = .ok (meanOf (column labels v c))) →
      ∃ d', Py.forIn suf (d, o) (avColumn labels) = .ok (d', o + (suf.flatMap (column labels v)).sum) ∧
        Reads labels v d' ∧ (d'.get? "mean").isSome ∧ (d'.get? "SD").isSome ∧
        (∀ c ∈ labels, cell d' "mean" c = .ok (meanOf (column labels v c))) := by
    intro suf
    induction suf with
    | nil =>
      intro pre d o hl hr h1 h2 h3
      exact ⟨d, by simp [Py.forIn], hr, h1, h2, by simpa [hl] using h3⟩
    | cons c suf ih =>
      intro pre d o hl hr h1 h2 h3
      have hc : c ∈ labels := by simp [hl]
      obtain ⟨d1, e1, e2, e3, e4⟩ := setCell_ok h1 c (meanOf (column labels v c))
      obtain ⟨d2, f1, f2⟩ := ih (pre ++ [c]) d1 (o + (column labels v c).sum) (by simp [hl])
        (fun r hr' c' hc' hne => by rw [e4 r c' (Or.inl fun e => hu.1 (e ▸ hr'))]; exact hr r hr' c' hc' hne)
        (by rw [e2]; exact h1) (by rw [e2]; exact h2)
        (fun c' hc' => by
          by_cases he : c' = c
          · rw [he]; exact e3
          · rw [e4 _ _ (Or.inr he)]
            refine h3 c' ?_
            rcases List.mem_append.1 hc' with h | h
            · exact h
            · exact absurd (List.mem_singleton.1 h) he)
      refine ⟨d2, ?_, f2⟩
      unfold Py.forIn
      have hm : meanOf (column labels v c) = (column labels v c).sum / (labels.length - 1) := by
        rw [meanOf, column_length hn hc]
      rw [hm] at e1
      simp only [avColumn, columnSum_ok hr hc, Py.div, hne, if_false, e1, bind, Except.bind, pure, Except.pure]
      rw [f1]
      simp [add_assoc]
  obtain ⟨d1, e1, r1, m1, s1, c1⟩ := key labels [] d 0 rfl h hm hs (by simp)
  obtain ⟨d2, f1, f2, f3, f4⟩ := setCell_ok m1 "overall" (meanOf (offDiagonal labels v))
  refine ⟨d2, ?_, ?_, ?_, f3, ?_⟩
  · unfold calculateAv
    have hm : meanOf (offDiagonal labels v) =
        (0 + (labels.flatMap (column labels v)).sum) / (labels.length * (labels.length - 1)) := by
      rw [meanOf, offDiagonal_length hn, zero_add]; rfl
    rw [hm] at f1
    simp only [e1, Py.div, mul_ne_zero hpos hne, if_false, f1, bind, Except.bind]
  · intro r hr c hc hne
    rw [f4 r c (Or.inl fun e => hu.1 (e ▸ hr))]
    exact r1 r hr c hc hne
  · intro c hc
    rw [f4 _ c (Or.inr fun e => hu.2.2 (e ▸ hc))]
    exact c1 c hc
  · rw [f2]; exact s1

/-- What `calculate_sd` has done. -/
structure Deviated (labels : List String) (v : String → String → ℚ) (d : Table) : Prop where
  reads : Reads labels v d
  means : ∀ c ∈ labels, cell d "mean" c = .ok (meanOf (column labels v c))
  overall : cell d "mean" "overall" = .ok (meanOf (offDiagonal labels v))
  vars : ∀ c ∈ labels, cell d "SD" c = .ok (varOf (column labels v c) (meanOf (column labels v c)))
  varAll : cell d "SD" "overall" = .ok (varOf (offDiagonal labels v) (meanOf (offDiagonal labels v)))

theorem calculateSd_ok {labels : List String} {v : String → String → ℚ} {d : Table} (hu : Unreserved labels)
    (hn : labels.Nodup) (h2 : 2 ≤ labels.length) (h : Averaged labels v d) :
    ∃ d', calculateSd labels d = .ok d' ∧ Deviated labels v d' := by
  have hne : (labels.length : ℚ) * (labels.length - 1) - 1 ≠ 0 := by
    have : (2 : ℚ) ≤ labels.length := by exact_mod_cast h2
    intro e; nlinarith
  have ms : "mean" ≠ "SD" := by decide
  set oa := meanOf (offDiagonal labels v) with hoa
  have key : ∀ (suf pre : List String) (d : Table) (o : ℚ), labels = pre ++ suf → Averaged labels v d →
      (∀ c ∈ pre, cell d "SD" c = .ok (varOf (column labels v c) (meanOf (column labels v c)))) →
      ∃ d', Py.forIn suf (d, o) (sdColumn labels oa) =
          .ok (d', o + ((suf.flatMap (column labels v)).map fun x => (x - oa) ^ 2).sum) ∧ Averaged labels v d' ∧
        (∀ c ∈ labels, cell d' "SD" c = .ok (varOf (column labels v c) (meanOf (column labels v c)))) := by
    intro suf
    induction suf with
    | nil =>
      intro pre d o hl ha h3
      exact ⟨d, by simp [Py.forIn], ha, by simpa [hl] using h3⟩
    | cons c suf ih =>
      intro pre d o hl ha h3
      have hc : c ∈ labels := by simp [hl]
      obtain ⟨d1, e1, e2, e3, e4⟩ := setCell_ok ha.sd c (varOf (column labels v c) (meanOf (column labels v c)))
      obtain ⟨d2, f1, f2⟩ := ih (pre ++ [c]) d1 (o + ((column labels v c).map fun x => (x - oa) ^ 2).sum) (by simp [hl])
        ⟨fun r hr' c' hc' hne => by rw [e4 r c' (Or.inl fun e => hu.2.1 (e ▸ hr'))]; exact ha.reads r hr' c' hc' hne,
          fun c' hc' => by rw [e4 _ _ (Or.inl ms)]; exact ha.means c' hc',
          by rw [e4 _ _ (Or.inl ms)]; exact ha.overall, by rw [e2]; exact ha.sd⟩
        (fun c' hc' => by
          by_cases he : c' = c
          · rw [he]; exact e3
          · rw [e4 _ _ (Or.inr he)]
            refine h3 c' ?_
            rcases List.mem_append.1 hc' with h | h
            · exact h
            · exact absurd (List.mem_singleton.1 h) he)
      refine ⟨d2, ?_, f2⟩
      unfold Py.forIn
      have hv : varOf (column labels v c) (meanOf (column labels v c)) =
          ((column labels v c).map fun x => (x - meanOf (column labels v c)) ^ 2).sum / (labels.length - 1 - 1) := by
        rw [varOf, column_length hn hc]
      rw [hv] at e1
      simp only [sdColumn, ha.means c hc, columnDev_ok ha.reads hc, catch_div', e1, bind, Except.bind, pure, Except.pure]
      rw [f1]
      simp [add_assoc]
  obtain ⟨d1, e1, a1, c1⟩ := key labels [] d 0 rfl h (by simp)
  obtain ⟨d2, f1, f2, f3, f4⟩ := setCell_ok a1.sd "overall" (varOf (offDiagonal labels v) oa)
  refine ⟨d2, ?_, ?_, ?_, ?_, ?_, f3⟩
  · unfold calculateSd
    have hv : varOf (offDiagonal labels v) oa =
        (0 + ((labels.flatMap (column labels v)).map fun x => (x - oa) ^ 2).sum) / (labels.length * (labels.length - 1) - 1) := by
      rw [varOf, offDiagonal_length hn, zero_add]; rfl
    rw [hv] at f1
    simp only [h.overall, ← hoa, e1, Py.div, hne, if_false, f1, bind, Except.bind]
  · intro r hr c hc hne
    rw [f4 r c (Or.inl fun e => hu.2.1 (e ▸ hr))]
    exact a1.reads r hr c hc hne
  · intro c hc
    rw [f4 _ _ (Or.inl ms)]
    exact a1.means c hc
  · rw [f4 _ _ (Or.inl ms)]
    exact a1.overall
  · intro c hc
    rw [f4 _ c (Or.inr fun e => hu.2.2 (e ▸ hc))]
    exact c1 c hc

/-! ### Comparisons -/

theorem newTable_get (labels : List String) (r : String) :
    (newTable labels).get? r = if r ∈ labels ∨ r = "mean" ∨ r = "SD" then some [] else none := by
  have key : ∀ (l : List String) (d : Table), (∀ r, d.get? r = none ∨ d.get? r = some []) →
      ∀ r, (l.foldl (fun d x => d.set x []) d).get? r = if r ∈ l then some [] else d.get? r := by
    intro l
    induction l with
    | nil => intro d _ r; simp
    | cons a l ih =>
      intro d hd r
      simp only [List.foldl_cons]
      rw [ih]
      · rw [AD.get?_set]
        by_cases h1 : r ∈ l
        · simp [h1]
        · by_cases h2 : r = a <;> simp [h1, h2]
      · intro r'
        rw [AD.get?_set]
        split
        · exact Or.inr rfl
        · exact hd r'
  unfold newTable
  rw [key _ _ (by simp)]
  simp only [List.mem_append, List.mem_cons, List.not_mem_nil, or_false]
  split <;> simp_all

theorem comparisons_eq {α : Type} (f : String → α) (names : List String) :
    comparisons (names.map f) names =
      names.flatMap fun t => (names.filter fun p => t ≠ p).map fun p => ((t, p), (f t, f p)) := by
  have hz : (names.map f).zip names = names.map fun a => (f a, a) := by
    induction names with
    | nil => rfl
    | cons a l ih => simp [ih]
  unfold comparisons
  rw [hz, List.flatMap_map]
  congr 1
  funext t
  rw [List.filter_map, List.map_map]
  rfl

theorem comparisons_fst {α : Type} (f : String → α) (names : List String) :
    (comparisons (names.map f) names).map Prod.fst = names.flatMap fun t => (names.filter fun p => t ≠ p).map fun p => (t, p) := by
  rw [comparisons_eq, List.map_flatMap]
  congr 1
  funext t
  rw [List.map_map]
  rfl

theorem mem_pairs (names : List String) (t p : String) :
    (t, p) ∈ (names.flatMap fun t => (names.filter fun p => t ≠ p).map fun p => (t, p)) ↔ t ∈ names ∧ p ∈ names ∧ t ≠ p := by
  simp only [List.mem_flatMap, List.mem_map, List.mem_filter, Prod.mk.injEq, decide_eq_true_eq]
  constructor
  · rintro ⟨a, ha, b, ⟨hb, hne⟩, rfl, rfl⟩; exact ⟨ha, hb, hne⟩
  · rintro ⟨h1, h2, h3⟩; exact ⟨t, h1, p, ⟨h2, h3⟩, rfl, rfl⟩

theorem nodup_pairs {names : List String} (hn : names.Nodup) :
    (names.flatMap fun t => (names.filter fun p => t ≠ p).map fun p => (t, p)).Nodup := by
  rw [List.nodup_flatMap]
  refine ⟨fun t _ => (hn.filter _).map fun a b h => (Prod.mk.inj h).2, ?_⟩
  refine hn.imp ?_
  intro a b hab x hx hy
  obtain ⟨c, -, rfl⟩ := List.mem_map.1 hx
  obtain ⟨d, -, h⟩ := List.mem_map.1 hy
  exact hab (Prod.mk.inj h).1.symm

theorem labelsOf_perm {names : List (String × String)} {annotators : List String} (hn : annotators.Nodup)
    (h2 : 2 ≤ annotators.length) (h : ∀ t p, (t, p) ∈ names ↔ t ∈ annotators ∧ p ∈ annotators ∧ t ≠ p) :
    (labelsOf names).Perm annotators := by
  have h1 : (labelsOf names).Perm (names.map Prod.fst).dedup := List.perm_insertionSort _ _
  refine h1.trans ?_
  rw [List.perm_ext_iff_of_nodup (List.nodup_dedup _) hn]
  intro a
  simp only [List.mem_dedup, List.mem_map, Prod.exists, exists_and_right, exists_eq_right]
  constructor
  · rintro ⟨p, hp⟩; exact ((h a p).1 hp).1
  · intro ha
    have : ∃ p ∈ annotators, a ≠ p := by
      match annotators, h2, hn with
      | x :: y :: l, _, hn =>
        have hxy : x ≠ y := by
          intro e; subst e; simp at hn
        by_cases e : a = x
        · exact ⟨y, by simp, e ▸ hxy⟩
        · exact ⟨x, by simp, e⟩
    obtain ⟨p, hp, hne⟩ := this
    exact ⟨p, (h a p).2 ⟨ha, hp, hne⟩⟩

/-- Filling a table. -/
theorem fill_ok {names : List (String × String)} (hn : names.Nodup) {rows : List Measures} (hl : names.length = rows.length)
    {m : Measure} {v : String → String → ℚ} (hv : ∀ x ∈ names.zip rows, x.2 m = v x.1.1 x.1.2) {labels : List String}
    (hlab : ∀ x ∈ names, x.1 ∈ labels) :
    ∃ d, Py.forIn (names.zip rows) (newTable labels) (fun x d => setCell d x.1.1 x.1.2 (x.2 m)) = .ok d ∧
      (∀ x ∈ names, cell d x.1 x.2 = .ok (v x.1 x.2)) ∧ (d.get? "mean").isSome ∧ (d.get? "SD").isSome := by
  have key : ∀ (names : List (String × String)) (rows : List Measures) (d : Table), names.Nodup → names.length = rows.length →
      (∀ x ∈ names.zip rows, x.2 m = v x.1.1 x.1.2) → (∀ x ∈ names, (d.get? x.1).isSome) →
      ∃ d', Py.forIn (names.zip rows) d (fun x d => setCell d x.1.1 x.1.2 (x.2 m)) = .ok d' ∧
        (∀ x ∈ names, cell d' x.1 x.2 = .ok (v x.1 x.2)) ∧ (∀ r, (d'.get? r).isSome = (d.get? r).isSome) ∧
        (∀ x, x ∉ names → cell d' x.1 x.2 = cell d x.1 x.2) := by
    intro names
    induction names with
    | nil => intro rows d _ _ _ _; exact ⟨d, by simp [Py.forIn], by simp, fun _ => rfl, fun _ _ => rfl⟩
    | cons a names ih =>
      intro rows d hn hl hv hd
      cases rows with
      | nil => simp at hl
      | cons b rows =>
        obtain ⟨d1, e1, e2, e3, e4⟩ := setCell_ok (hd a (by simp)) a.2 (b m)
        obtain ⟨d2, f1, f2, f3, f4⟩ := ih rows d1 (List.nodup_cons.1 hn).2 (by simpa using hl)
          (fun x hx => hv x (by simp [hx])) (fun x hx => by rw [e2]; exact hd x (by simp [hx]))
        refine ⟨d2, ?_, ?_, ?_, ?_⟩
        · simp only [List.zip_cons_cons]
          unfold Py.forIn
          simp only [e1]
          exact f1
        · intro x hx
          rcases List.mem_cons.1 hx with rfl | hx
          · rw [f4 x (List.nodup_cons.1 hn).1, e3]; exact congrArg Except.ok (hv (x, b) (by simp))
          · exact f2 x hx
        · intro r; rw [f3, e2]
        · intro x hx
          simp only [List.mem_cons, not_or] at hx
          rw [f4 x hx.2, e4]
          by_contra hc
          push Not at hc
          exact hx.1 (Prod.ext hc.1 hc.2)
  obtain ⟨d, e1, e2, e3, -⟩ := key names rows (newTable labels) hn hl hv (fun x hx => by
    rw [newTable_get, if_pos (Or.inl (hlab x hx))]; rfl)
  refine ⟨d, e1, e2, ?_, ?_⟩
  · rw [e3, newTable_get]; simp
  · rw [e3, newTable_get]; simp

/-! ### Words only -/

theorem wordsOnly_ok {ntS ntT : String → Py Bool} {fS fT : String → Bool} {g : Graph.G String String}
    {M : Alignment String String} (h : GraphPair.Al g M (fun _ => False))
    (hS : ∀ s t, (M s t).isSome → ntS s = .ok (fS s)) (hT : ∀ s t, (M s t).isSome → ntT t = .ok (fT t)) :
    ∃ g', wordsOnly ntS ntT g = .ok g' ∧
      GraphPair.Al g' (fun s t => if fS s || fT t then none else M s t) (fun _ => False) := by
  obtain ⟨l, e1, e2, e3, e4⟩ := h.all
  have key : ∀ (suf pre : List ((String × String) × String)) (g : Graph.G String String) (N : Alignment String String),
      l = pre ++ suf → GraphPair.Al g N (fun _ => False) →
      (∀ s t, N s t = if (s, t) ∈ pre.map Prod.fst ∧ (fS s || fT t) then none else M s t) →
      ∃ g', (Py.forIn suf g fun x g => do
          if ← (do if ← ntS x.1.1 then return true else ntT x.1.2) then GraphPair.delAlign g x.1.1 x.1.2 else return g) = .ok g' ∧
        ∃ N', GraphPair.Al g' N' (fun _ => False) ∧
          (∀ s t, N' s t = if (s, t) ∈ l.map Prod.fst ∧ (fS s || fT t) then none else M s t) := by
    intro suf
    induction suf with
    | nil => intro pre g N hl hg hN; exact ⟨g, rfl, N, hg, by
        have e : l = pre := by simpa using hl
        rw [e]; exact hN⟩
    | cons x suf ih =>
      intro pre g N hl hg hN
      have hx : M x.1.1 x.1.2 = some x.2 := (e4 _ _ _).1 (by simp [hl])
      have hs := hS x.1.1 x.1.2 (by rw [hx]; rfl)
      have ht := hT x.1.1 x.1.2 (by rw [hx]; rfl)
      have hnot : x.1 ∉ pre.map Prod.fst := by
        rw [hl, List.map_append, List.nodup_append] at e3
        intro hm
        exact e3.2.2 _ hm x.1 (by simp) rfl
      have hN1 : N x.1.1 x.1.2 = some x.2 := by
        rw [hN, if_neg (by rintro ⟨h, -⟩; exact hnot h)]; exact hx
      have hb : (do if ← ntS x.1.1 then return true else ntT x.1.2 : Py Bool) = .ok (fS x.1.1 || fT x.1.2) := by
        simp only [hs, ht, bind, Except.bind]
        cases fS x.1.1 <;> rfl
      by_cases hf : (fS x.1.1 || fT x.1.2) = true
      · obtain ⟨g1, d1, a1⟩ := hg.del x.1.1 x.1.2 (by rw [hN1]; rfl)
        obtain ⟨g2, d2, r2⟩ := ih (pre ++ [x]) g1 _ (by simp [hl]) a1 (by
          intro s t
          unfold Alignment.drop
          by_cases he : s = x.1.1 ∧ t = x.1.2
          · obtain ⟨rfl, rfl⟩ := he
            simp [hf]
          · rw [if_neg he, hN]
            have : ((s, t) ∈ (pre ++ [x]).map Prod.fst) ↔ (s, t) ∈ pre.map Prod.fst := by
              simp only [List.map_append, List.mem_append, List.map_cons, List.map_nil, List.mem_singleton]
              constructor
              · rintro (h | h)
                · exact h
                · exact absurd ⟨congrArg Prod.fst h, congrArg Prod.snd h⟩ he
              · exact Or.inl
            simp only [this])
        refine ⟨g2, ?_, r2⟩
        unfold Py.forIn
        dsimp only
        rw [hb]
        simp only [hf, bind, Except.bind, if_true, d1]
        exact d2
      · obtain ⟨g2, d2, r2⟩ := ih (pre ++ [x]) g N (by simp [hl]) hg (by
          intro s t
          rw [hN]
          by_cases he : (s, t) = x.1
          · have e1 : s = x.1.1 := congrArg Prod.fst he
            have e2 : t = x.1.2 := congrArg Prod.snd he
            rw [e1, e2]
            simp [hf]
          · have : ((s, t) ∈ (pre ++ [x]).map Prod.fst) ↔ (s, t) ∈ pre.map Prod.fst := by
              simp only [List.map_append, List.mem_append, List.map_cons, List.map_nil, List.mem_singleton]
              exact ⟨fun h => h.resolve_right he, Or.inl⟩
            simp only [this])
        refine ⟨g2, ?_, r2⟩
        unfold Py.forIn
        dsimp only
        rw [hb]
        simp only [Bool.not_eq_true] at hf
        simp only [hf, bind, Except.bind, Bool.false_eq_true, if_false, pure, Except.pure] at d2 ⊢
        exact d2
  obtain ⟨g', d1, N', a1, hN⟩ := key l [] g M rfl h (by simp)
  refine ⟨g', ?_, ?_⟩
  · have e1' : GraphPair.alignments g none = .ok l := e1
    simp only [wordsOnly, e1']
    exact d1
  · have : N' = fun s t => if fS s || fT t then none else M s t := by
      funext s t
      rw [hN]
      by_cases hm : (s, t) ∈ l.map Prod.fst
      · simp [hm]
      · have hnone : M s t = none := by
          cases hx : M s t with
          | none => rfl
          | some r => exact absurd (List.mem_map.2 ⟨((s, t), r), (e4 _ _ _).2 hx, rfl⟩) hm
        simp [hm, hnone]
    rw [← this]
    exact a1

end Verif.Agreement
