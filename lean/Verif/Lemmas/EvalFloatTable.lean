import Verif.Lemmas.EvalFloat

namespace Verif.EvalFloat
open Verif Verif.Measure Verif.Spec Verif.Spec.Rounding Verif.AlignEval Verif.Agreement
set_option linter.unusedSectionVars false

variable {fl sq : ℚ → ℚ} {M : Nat}

theorem columnSumFl_ok {labels : List String} {v : String → String → ℚ} {d : Table} (h : Reads labels v d) {col : String}
    (hc : col ∈ labels) : columnSumFl fl labels d col = .ok (sumFl fl 0 (column labels v col)) := by
  unfold columnSumFl column
  suffices H : ∀ (l : List String), (∀ r ∈ l, r ∈ labels) → ∀ a : ℚ,
      (Py.forIn l a fun row a => if col ≠ row then do
          let v ← cell d row col
          return fl (a + v)
        else return a) = .ok (sumFl fl a ((l.filter fun row => col ≠ row).map fun row => v row col)) by
    exact H labels (fun _ h => h) 0
  intro l
  induction l with
  | nil => intro _ a; simp [Py.forIn, sumFl]
  | cons r l ih =>
    intro hl a
    unfold Py.forIn
    by_cases he : col ≠ r
    · simp only [he, if_true, h r (hl r (by simp)) col hc he, bind, Except.bind, pure, Except.pure, ne_eq,
        not_false_eq_true] at ih ⊢
      rw [ih fun x hx => hl x (by simp [hx])]
      simp only [List.filter_cons, he, decide_not, List.map_cons, decide_false, Bool.not_false, if_true]
      rfl
    · simp only [ne_eq, not_not] at he
      subst he
      simp only [ne_eq, not_true_eq_false, if_false, pure, Except.pure] at ih ⊢
      rw [ih fun x hx => hl x (by simp [hx])]
      simp [List.filter_cons]

theorem columnDevFl_ok {labels : List String} {v : String → String → ℚ} {d : Table} (h : Reads labels v d) {col : String}
    (hc : col ∈ labels) (m m' o : ℚ) : columnDevFl fl labels d m m' col o =
      .ok (devFl fl m 0 (column labels v col), devFl fl m' o (column labels v col)) := by
  unfold columnDevFl column
  suffices H : ∀ (l : List String), (∀ r ∈ l, r ∈ labels) → ∀ a : ℚ × ℚ,
      (Py.forIn l a fun row a => if col ≠ row then do
          let v ← cell d row col
          return (fl (a.1 + fl (fl (v - m) ^ 2)), fl (a.2 + fl (fl (v - m') ^ 2)))
        else return a) = .ok (devFl fl m a.1 ((l.filter fun row => col ≠ row).map fun row => v row col),
          devFl fl m' a.2 ((l.filter fun row => col ≠ row).map fun row => v row col)) by
    exact H labels (fun _ h => h) (0, o)
  intro l
  induction l with
  | nil => intro _ a; simp [Py.forIn, devFl]
  | cons r l ih =>
    intro hl a
    unfold Py.forIn
    by_cases he : col ≠ r
    · simp only [he, if_true, h r (hl r (by simp)) col hc he, bind, Except.bind, pure, Except.pure, ne_eq,
        not_false_eq_true] at ih ⊢
      rw [ih fun x hx => hl x (by simp [hx])]
      simp only [List.filter_cons, he, decide_not, List.map_cons, decide_false, Bool.not_false, if_true]
      rfl
    · simp only [ne_eq, not_not] at he
      subst he
      simp only [ne_eq, not_true_eq_false, if_false, pure, Except.pure] at ih ⊢
      rw [ih fun x hx => hl x (by simp [hx])]
      simp [List.filter_cons]

/-- The sum of all columns, as computed. -/
def totalV (fl : ℚ → ℚ) (labels : List String) (v : String → String → ℚ) : ℚ :=
  sumFl fl 0 (labels.map fun c => sumFl fl 0 (column labels v c))

/-- The overall mean computed. -/
def overallV (fl : ℚ → ℚ) (labels : List String) (v : String → String → ℚ) : ℚ :=
  fl (totalV fl labels v / (offDiagonal labels v).length)

/-- What `calculate_av` has done. -/
structure AveragedFl (fl : ℚ → ℚ) (labels : List String) (v : String → String → ℚ) (d : Table) : Prop where
  reads : Reads labels v d
  means : ∀ c ∈ labels, cell d "mean" c = .ok (meanV fl (column labels v c))
  overall : cell d "mean" "overall" = .ok (overallV fl labels v)
  sd : (d.get? "SD").isSome

theorem column_len {labels : List String} (hn : labels.Nodup) {col : String} (hc : col ∈ labels)
    (v : String → String → ℚ) : (column labels v col).length = labels.length - 1 := by
  have h1 := column_length hn hc v
  have h3 : 1 ≤ labels.length := List.length_pos_of_mem hc
  have : ((column labels v col).length : ℚ) = ((labels.length - 1 : Nat) : ℚ) := by rw [h1, Nat.cast_sub h3]; norm_num
  exact_mod_cast this

theorem offDiagonal_len {labels : List String} (hn : labels.Nodup) (v : String → String → ℚ) :
    (offDiagonal labels v).length = labels.length * (labels.length - 1) := by
  have h1 := offDiagonal_length hn v
  rcases Nat.eq_zero_or_pos labels.length with h | h
  · rw [List.length_eq_zero_iff] at h; subst h; rfl
  · have : ((offDiagonal labels v).length : ℚ) = ((labels.length * (labels.length - 1) : Nat) : ℚ) := by
      rw [h1, Nat.cast_mul, Nat.cast_sub h]; norm_num
    exact_mod_cast this

theorem calculateAvFl_ok {labels : List String} {v : String → String → ℚ} {d : Table} (hw : Whole fl M)
    (hu : Unreserved labels) (hn : labels.Nodup) (h2 : 2 ≤ labels.length) (hM : labels.length * (labels.length - 1) ≤ M)
    (h : Reads labels v d) (hm : (d.get? "mean").isSome) (hs : (d.get? "SD").isSome) :
    ∃ d', calculateAvFl fl labels d = .ok d' ∧ AveragedFl fl labels v d' := by
  have hl1 : labels.length - 1 ≤ M := by nlinarith [Nat.le_mul_of_pos_left (labels.length - 1) (show 0 < labels.length by omega)]
  have c1 : fl ((labels.length : ℚ) - 1) = ((labels.length - 1 : Nat) : ℚ) := by
    rw [← hw _ hl1, Nat.cast_sub (by omega)]; norm_num
  have c2 : fl ((labels.length : ℚ) * (labels.length - 1)) = ((labels.length * (labels.length - 1) : Nat) : ℚ) := by
    rw [← hw _ hM, Nat.cast_mul, Nat.cast_sub (by omega)]; norm_num
  have n1 : ((labels.length - 1 : Nat) : ℚ) ≠ 0 := by exact_mod_cast (show labels.length - 1 ≠ 0 by omega)
  have n2 : ((labels.length * (labels.length - 1) : Nat) : ℚ) ≠ 0 := by
    have : labels.length * (labels.length - 1) ≠ 0 := Nat.mul_ne_zero (by omega) (by omega)
    exact_mod_cast this
  have key : ∀ (suf pre : List String) (d : Table) (o : ℚ), labels = pre ++ suf → Reads labels v d →
      (d.get? "mean").isSome → (d.get? "SD").isSome →
      (∀ c ∈ pre, cell d "mean" c = .ok (meanV fl (column labels v c))) →
      ∃ d', Py.forIn suf (d, o) (avColumnFl fl labels) =
          .ok (d', sumFl fl o (suf.map fun c => sumFl fl 0 (column labels v c))) ∧
        Reads labels v d' ∧ (d'.get? "mean").isSome ∧ (d'.get? "SD").isSome ∧
        (∀ c ∈ labels, cell d' "mean" c = .ok (meanV fl (column labels v c))) := by
    intro suf
    induction suf with
    | nil =>
      intro pre d o hl hr h1 h2 h3
      exact ⟨d, by simp [Py.forIn, sumFl], hr, h1, h2, by simpa [hl] using h3⟩
    | cons c suf ih =>
      intro pre d o hl hr h1 h2 h3
      have hc : c ∈ labels := by simp [hl]
      obtain ⟨d1, e1, e2, e3, e4⟩ := setCell_ok h1 c (meanV fl (column labels v c))
      obtain ⟨d2, f1, f2⟩ := ih (pre ++ [c]) d1 (fl (o + sumFl fl 0 (column labels v c))) (by simp [hl])
        (fun r hr' c' hc' hne => by rw [e4 r c' (Or.inl fun e => hu.1 (e ▸ hr'))]; exact hr r hr' c' hc' hne)
        (by rw [e2]; exact h1) (by rw [e2]; exact h2)
        (fun c' hc' => by
          by_cases he : c' = c
          · rw [he]; exact e3
          · rw [e4 _ _ (Or.inr he)]
            refine h3 c' ?_
            rcases List.mem_append.1 hc' with h | h
            · exact h
            · exact absurd (List.mem_singleton.1 h) he)
      refine ⟨d2, ?_, f2⟩
      unfold Py.forIn
      have hm : meanV fl (column labels v c) = fl (sumFl fl 0 (column labels v c) / (labels.length - 1 : Nat)) := by
        rw [meanV, column_len hn hc]
      rw [hm] at e1
      simp only [avColumnFl, columnSumFl_ok hr hc, divFl, c1, n1, if_false, e1, bind, Except.bind, pure, Except.pure]
      rw [f1]
      rfl
  obtain ⟨d1, e1, r1, m1, s1, c1'⟩ := key labels [] d 0 rfl h hm hs (by simp)
  obtain ⟨d2, f1, f2, f3, f4⟩ := setCell_ok m1 "overall" (overallV fl labels v)
  refine ⟨d2, ?_, ?_, ?_, f3, ?_⟩
  · unfold calculateAvFl
    have hm : overallV fl labels v = fl (sumFl fl 0 (labels.map fun c => sumFl fl 0 (column labels v c)) /
        (labels.length * (labels.length - 1) : Nat)) := by
      rw [overallV, offDiagonal_len hn]; rfl
    rw [hm] at f1
    simp only [e1, divFl, c2, n2, if_false, f1, bind, Except.bind]
  · intro r hr c hc hne
    rw [f4 r c (Or.inl fun e => hu.1 (e ▸ hr))]
    exact r1 r hr c hc hne
  · intro c hc
    rw [f4 _ c (Or.inr fun e => hu.2.2 (e ▸ hc))]
    exact c1' c hc
  · rw [f2]; exact s1

/-- What `calculate_sd` has done. -/
structure DeviatedFl (fl sq : ℚ → ℚ) (labels : List String) (v : String → String → ℚ) (d : Table) : Prop where
  reads : Reads labels v d
  means : ∀ c ∈ labels, cell d "mean" c = .ok (meanV fl (column labels v c))
  overall : cell d "mean" "overall" = .ok (overallV fl labels v)
  sds : ∀ c ∈ labels, cell d "SD" c = .ok (sq (varV fl (column labels v c) (meanV fl (column labels v c))))
  sdAll : cell d "SD" "overall" = .ok (sq (varV fl (offDiagonal labels v) (overallV fl labels v)))

theorem devFl_append (m a : ℚ) (l l' : List ℚ) : devFl fl m a (l ++ l') = devFl fl m (devFl fl m a l) l' :=
  List.foldl_append

theorem varV_nonneg (hr : Rounding fl) (l : List ℚ) (m : ℚ) : 0 ≤ varV fl l m := by
  unfold varV
  split
  · exact le_refl _
  · exact fl_nonneg hr (div_nonneg (devFl_nonneg hr m (le_refl _)) (Nat.cast_nonneg _))

theorem calculateSdFl_ok {labels : List String} {v : String → String → ℚ} {d : Table} (hr : Rounding fl) (hs : Root fl sq)
    (hw : Whole fl M) (hu : Unreserved labels) (hn : labels.Nodup) (h2 : 2 ≤ labels.length)
    (hM : labels.length * (labels.length - 1) ≤ M) (h : AveragedFl fl labels v d) :
    ∃ d', calculateSdFl fl sq labels d = .ok d' ∧ DeviatedFl fl sq labels v d' := by
  have hl1 : labels.length - 1 ≤ M := by nlinarith [Nat.le_mul_of_pos_left (labels.length - 1) (show 0 < labels.length by omega)]
  have hprod : 2 ≤ labels.length * (labels.length - 1) := by
    calc 2 = 2 * 1 := rfl
      _ ≤ _ := Nat.mul_le_mul h2 (by omega)
  have c1 : fl ((labels.length : ℚ) - 1 - 1) = ((labels.length - 1 - 1 : Nat) : ℚ) := by
    rw [← hw _ (show labels.length - 1 - 1 ≤ M by omega), Nat.cast_sub (by omega), Nat.cast_sub (by omega)]; norm_num
  have c2 : fl ((labels.length : ℚ) * (labels.length - 1) - 1) = ((labels.length * (labels.length - 1) - 1 : Nat) : ℚ) := by
    rw [← hw _ (show labels.length * (labels.length - 1) - 1 ≤ M by omega), Nat.cast_sub (by omega), Nat.cast_mul,
      Nat.cast_sub (by omega)]; norm_num
  have n2 : ((labels.length * (labels.length - 1) - 1 : Nat) : ℚ) ≠ 0 := by
    exact_mod_cast (show labels.length * (labels.length - 1) - 1 ≠ 0 by omega)
  have ms : "mean" ≠ "SD" := by decide
  set oa := overallV fl labels v with hoa
  have key : ∀ (suf pre : List String) (d : Table) (o : ℚ), labels = pre ++ suf → AveragedFl fl labels v d →
      (∀ c ∈ pre, cell d "SD" c = .ok (sq (varV fl (column labels v c) (meanV fl (column labels v c))))) →
      ∃ d', Py.forIn suf (d, o) (sdColumnFl fl sq labels oa) =
          .ok (d', devFl fl oa o (suf.flatMap (column labels v))) ∧ AveragedFl fl labels v d' ∧
        (∀ c ∈ labels, cell d' "SD" c = .ok (sq (varV fl (column labels v c) (meanV fl (column labels v c))))) := by
    intro suf
    induction suf with
    | nil =>
      intro pre d o hl ha h3
      exact ⟨d, by simp [Py.forIn, devFl], ha, by simpa [hl] using h3⟩
    | cons c suf ih =>
      intro pre d o hl ha h3
      have hc : c ∈ labels := by simp [hl]
      obtain ⟨d1, e1, e2, e3, e4⟩ := setCell_ok ha.sd c (sq (varV fl (column labels v c) (meanV fl (column labels v c))))
      obtain ⟨d2, f1, f2⟩ := ih (pre ++ [c]) d1 (devFl fl oa o (column labels v c)) (by simp [hl])
        ⟨fun r hr' c' hc' hne => by rw [e4 r c' (Or.inl fun e => hu.2.1 (e ▸ hr'))]; exact ha.reads r hr' c' hc' hne,
          fun c' hc' => by rw [e4 _ _ (Or.inl ms)]; exact ha.means c' hc',
          by rw [e4 _ _ (Or.inl ms)]; exact ha.overall, by rw [e2]; exact ha.sd⟩
        (fun c' hc' => by
          by_cases he : c' = c
          · rw [he]; exact e3
          · rw [e4 _ _ (Or.inr he)]
            refine h3 c' ?_
            rcases List.mem_append.1 hc' with h | h
            · exact h
            · exact absurd (List.mem_singleton.1 h) he)
      refine ⟨d2, ?_, f2⟩
      unfold Py.forIn
      have hv : Py.catchZeroDiv 0 (do
          let q ← divFl fl (devFl fl (meanV fl (column labels v c)) 0 (column labels v c)) (fl (labels.length - 1 - 1))
          sqrtPy sq q) = .ok (sq (varV fl (column labels v c) (meanV fl (column labels v c)))) := by
        unfold divFl varV
        rw [c1, column_len hn hc]
        by_cases h1 : labels.length - 1 = 1
        · rw [if_pos h1, if_pos (by rw [h1]; rfl), root_zero hr hs]; rfl
        · have h3 : ((labels.length - 1 - 1 : Nat) : ℚ) ≠ 0 := by exact_mod_cast (show labels.length - 1 - 1 ≠ 0 by omega)
          rw [if_neg h1, if_neg h3]
          simp only [bind, Except.bind]
          rw [(sqrtPy_ok hr hs (fl_nonneg hr (div_nonneg (devFl_nonneg hr _ (le_refl _)) (Nat.cast_nonneg _)))).1]
          rfl
      simp only [sdColumnFl, ha.means c hc, columnDevFl_ok ha.reads hc, bind, Except.bind, pure, Except.pure] at hv ⊢
      rw [hv]
      simp only [e1]
      rw [f1, List.flatMap_cons, devFl_append]
  obtain ⟨d1, e1, a1, c1'⟩ := key labels [] d 0 rfl h (by simp)
  obtain ⟨d2, f1, f2, f3, f4⟩ := setCell_ok a1.sd "overall" (sq (varV fl (offDiagonal labels v) oa))
  refine ⟨d2, ?_, ?_, ?_, ?_, ?_, f3⟩
  · unfold calculateSdFl
    have hv : varV fl (offDiagonal labels v) oa =
        fl (devFl fl oa 0 (labels.flatMap (column labels v)) / (labels.length * (labels.length - 1) - 1 : Nat)) := by
      rw [varV, offDiagonal_len hn, if_neg (by omega)]; rfl
    have hsq := (sqrtPy_ok hr hs (varV_nonneg hr (offDiagonal labels v) oa)).1
    rw [hv] at f1 hsq
    simp only [h.overall, ← hoa, e1, divFl, c2, n2, if_false, hsq, f1, bind, Except.bind]
  · intro r hr c hc hne
    rw [f4 r c (Or.inl fun e => hu.2.1 (e ▸ hr))]
    exact a1.reads r hr c hc hne
  · intro c hc
    rw [f4 _ _ (Or.inl ms)]
    exact a1.means c hc
  · rw [f4 _ _ (Or.inl ms)]
    exact a1.overall
  · intro c hc
    rw [f4 _ c (Or.inr fun e => hu.2.2 (e ▸ hc))]
    exact c1' c hc

theorem mem_column {labels : List String} {v : String → String → ℚ} {c : String} {x : ℚ} (hx : x ∈ column labels v c) :
    ∃ r ∈ labels, c ≠ r ∧ x = v r c := by
  obtain ⟨r, hr, rfl⟩ := List.mem_map.1 hx
  rw [List.mem_filter] at hr
  exact ⟨r, hr.1, by simpa using hr.2, rfl⟩

theorem overallV_unit (hr : Rounding fl) (hw : Whole fl M) {labels : List String} {v : String → String → ℚ}
    (hn : labels.Nodup) (h2 : 2 ≤ labels.length) (hM : labels.length * (labels.length - 1) ≤ M)
    (h : ∀ r ∈ labels, ∀ c ∈ labels, c ≠ r → 0 ≤ v r c ∧ v r c ≤ 1) : 0 ≤ overallV fl labels v ∧ overallV fl labels v ≤ 1 := by
  have hl1 : labels.length - 1 ≤ M := by nlinarith [Nat.le_mul_of_pos_left (labels.length - 1) (show 0 < labels.length by omega)]
  have hprod : 2 ≤ labels.length * (labels.length - 1) := by
    calc 2 = 2 * 1 := rfl
      _ ≤ _ := Nat.mul_le_mul h2 (by omega)
  have hcol : ∀ c ∈ labels, 0 ≤ sumFl fl 0 (column labels v c) ∧ sumFl fl 0 (column labels v c) ≤ (labels.length - 1 : Nat) := by
    intro c hc
    have hx : ∀ x ∈ column labels v c, 0 ≤ x ∧ x ≤ 1 := by
      intro x hx
      obtain ⟨r, h1, h2, rfl⟩ := mem_column hx
      exact h r h1 c hc h2
    refine ⟨sumFl_nonneg hr (fun x h => (hx x h).1) (le_refl _), ?_⟩
    have := sumFl_le hr hw 1 (fun x h => by simpa using (hx x h).2) (a := 0) (k := 0) (by simp)
      (by rw [column_len hn hc]; omega)
    simpa [column_len hn hc] using this
  have t0 : 0 ≤ totalV fl labels v := sumFl_nonneg hr (by
    intro x hx
    obtain ⟨c, hc, rfl⟩ := List.mem_map.1 hx
    exact (hcol c hc).1) (le_refl _)
  have t1 : totalV fl labels v ≤ (labels.length * (labels.length - 1) : Nat) := by
    have := sumFl_le hr hw (labels.length - 1) (l := labels.map fun c => sumFl fl 0 (column labels v c)) (by
      intro x hx
      obtain ⟨c, hc, rfl⟩ := List.mem_map.1 hx
      exact (hcol c hc).2) (a := 0) (k := 0) (by simp) (by rw [List.length_map]; omega)
    rw [List.length_map, Nat.zero_add] at this
    exact this
  have hp : (0 : ℚ) < (labels.length * (labels.length - 1) : Nat) := by
    exact_mod_cast (show 0 < labels.length * (labels.length - 1) by omega)
  unfold overallV
  rw [offDiagonal_len hn]
  exact ⟨fl_nonneg hr (div_nonneg t0 hp.le), fl_le_one hr (whole_one hw (by omega)) ((div_le_one hp).2 t1)⟩

theorem overallV_one (hw : Whole fl M) {labels : List String} {v : String → String → ℚ}
    (hn : labels.Nodup) (h2 : 2 ≤ labels.length) (hM : labels.length * (labels.length - 1) ≤ M)
    (h : ∀ r ∈ labels, ∀ c ∈ labels, c ≠ r → v r c = 1) : overallV fl labels v = 1 := by
  have hl1 : labels.length - 1 ≤ M := by nlinarith [Nat.le_mul_of_pos_left (labels.length - 1) (show 0 < labels.length by omega)]
  have hprod : 2 ≤ labels.length * (labels.length - 1) := by
    calc 2 = 2 * 1 := rfl
      _ ≤ _ := Nat.mul_le_mul h2 (by omega)
  have hcol : ∀ c ∈ labels, sumFl fl 0 (column labels v c) = (labels.length - 1 : Nat) := by
    intro c hc
    have := sumFl_ones hw 1 (l := column labels v c) (fun x hx => by
      obtain ⟨r, h1, h2, rfl⟩ := mem_column hx
      rw [h r h1 c hc h2]; norm_num) (k := 0) (by rw [column_len hn hc]; omega)
    rw [Nat.cast_zero] at this
    rw [this, column_len hn hc]; congr 1; omega
  have t1 : totalV fl labels v = (labels.length * (labels.length - 1) : Nat) := by
    have := sumFl_ones hw (labels.length - 1) (l := labels.map fun c => sumFl fl 0 (column labels v c)) (by
      intro x hx
      obtain ⟨c, hc, rfl⟩ := List.mem_map.1 hx
      exact hcol c hc) (k := 0) (by rw [List.length_map]; omega)
    rw [Nat.cast_zero, List.length_map, Nat.zero_add] at this
    exact this
  have hp : ((labels.length * (labels.length - 1) : Nat) : ℚ) ≠ 0 := by
    exact_mod_cast (show labels.length * (labels.length - 1) ≠ 0 by omega)
  unfold overallV
  rw [offDiagonal_len hn, t1, div_self hp, whole_one hw (by omega)]

end Verif.EvalFloat
