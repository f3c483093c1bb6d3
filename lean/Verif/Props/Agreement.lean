import Verif.Lemmas.Agreement
import Verif.Props.AlignEval

/-! Property C45 (lib/daeso/pgc/agreement.py). -/
namespace Verif.Props.Agreement
open Verif Verif.Spec Verif.AlignEval Verif.Agreement Verif.Props.AlignEval

/-- Annotators with their corpora, of which each has these alignments: the same number of graph pairs and labels among
the relations. -/
structure Annotated (relations annotators : List String) (corpus : String → List (Graph.G String String))
    (A : String → List (Alignment String String)) : Prop where
  nodup : annotators.Nodup
  shows : ∀ a ∈ annotators, List.Forall₂ GraphPair.Shows (corpus a) (A a)
  same : ∀ a ∈ annotators, ∀ b ∈ annotators, (A a).length = (A b).length
  labels : ∀ a ∈ annotators, ∀ M ∈ A a, ∀ s t r, M s t = some r → r ∈ relations

/-- The measures of counts. -/
def scores (c : Counts) : Measures
  | .prec => precisionOf (c .pred) (c .common)
  | .recall => recallOf (c .true) (c .common)
  | .f => fOf 1 (precisionOf (c .pred) (c .common)) (recallOf (c .true) (c .common))

/-- What a table should be: outside the diagonal the scores, below each column its mean and variance, and the mean and the
variance of all. -/
structure IsTable (annotators : List String) (v : String → String → ℚ) (d : Table) : Prop where
  cells : ∀ t ∈ annotators, ∀ p ∈ annotators, t ≠ p → cell d t p = .ok (v t p)
  means : ∀ p ∈ annotators, cell d "mean" p = .ok (meanOf (column annotators v p))
  mean : cell d "mean" "overall" = .ok (meanOf (offDiagonal annotators v))
  variances : ∀ p ∈ annotators, cell d "SD" p = .ok (varOf (column annotators v p) (meanOf (column annotators v p)))
  variance : cell d "SD" "overall" = .ok (varOf (offDiagonal annotators v) (meanOf (offDiagonal annotators v)))

private theorem column_perm {l l' : List String} (h : l.Perm l') (v : String → String → ℚ) (c : String) :
    (column l v c).Perm (column l' v c) := (h.filter _).map _

private theorem offDiagonal_perm {l l' : List String} (h : l.Perm l') (v : String → String → ℚ) :
    (offDiagonal l v).Perm (offDiagonal l' v) := by
  unfold offDiagonal
  refine (List.Perm.flatMap_right _ h).trans ?_
  exact List.Perm.flatMap_left l' fun c _ => column_perm h v c

private theorem meanOf_perm {l l' : List ℚ} (h : l.Perm l') : meanOf l = meanOf l' := by
  unfold meanOf; rw [h.sum_eq, h.length_eq]

private theorem varOf_perm {l l' : List ℚ} (h : l.Perm l') (m : ℚ) : varOf l m = varOf l' m := by
  unfold varOf; rw [(h.map _).sum_eq, h.length_eq]

/-- C45.  Filling a table with the scores of all ordered pairs of different annotators (at least two, with names that are
not column or row titles), and calculating the statistics. -/
theorem table_statistics {annotators : List String} (hn : annotators.Nodup) (h2 : 2 ≤ annotators.length)
    (hu : "mean" ∉ annotators ∧ "SD" ∉ annotators ∧ "overall" ∉ annotators) {names : List (String × String)}
    (hd : names.Nodup) (hm : ∀ t p, (t, p) ∈ names ↔ t ∈ annotators ∧ p ∈ annotators ∧ t ≠ p) {rows : List Measures}
    (hl : names.length = rows.length) {m : Measure} {v : String → String → ℚ}
    (hv : ∀ x ∈ names.zip rows, x.2 m = v x.1.1 x.1.2) :
    ∃ d, tableize names rows m = .ok d ∧ IsTable annotators v d := by
  have hp := labelsOf_perm hn h2 hm
  have hmem : ∀ a, a ∈ labelsOf names ↔ a ∈ annotators := fun a => hp.mem_iff
  have hu' : Unreserved (labelsOf names) := by
    simpa only [Unreserved, hmem] using hu
  have hn' : (labelsOf names).Nodup := hp.nodup_iff.2 hn
  have h2' : 2 ≤ (labelsOf names).length := by rw [hp.length_eq]; exact h2
  obtain ⟨d, e1, e2, e3, e4⟩ := fill_ok hd hl hv (labels := labelsOf names)
    (fun x hx => (hmem _).2 ((hm x.1 x.2).1 hx).1)
  have hr : Reads (labelsOf names) v d := by
    intro r hr c hc hne
    exact e2 (r, c) ((hm r c).2 ⟨(hmem _).1 hr, (hmem _).1 hc, fun e => hne e.symm⟩)
  obtain ⟨d1, f1, f2⟩ := calculateAv_ok hu' hn' h2' hr e3 e4
  obtain ⟨d2, g1, g2⟩ := calculateSd_ok hu' hn' h2' f2
  refine ⟨d2, ?_, ?_, ?_, ?_, ?_, ?_⟩
  · simp only [tableize, calculateStatistics, e1, f1, bind, Except.bind]; exact g1
  · intro t ht p hp' hne
    exact g2.reads t ((hmem _).2 ht) p ((hmem _).2 hp') fun e => hne e.symm
  · intro p hp'
    rw [g2.means p ((hmem _).2 hp'), meanOf_perm (column_perm hp v p)]
  · rw [g2.overall, meanOf_perm (offDiagonal_perm hp v)]
  · intro p hp'
    rw [g2.vars p ((hmem _).2 hp'), meanOf_perm (column_perm hp v p), varOf_perm (column_perm hp v p)]
  · rw [g2.varAll, meanOf_perm (offDiagonal_perm hp v), varOf_perm (offDiagonal_perm hp v)]

private theorem zip_fst {α β : Type} : ∀ {l : List α} {l' : List β}, l.length = l'.length → (l.zip l').map Prod.fst = l
  | [], [], _ => rfl
  | [], _ :: _, h => by simp at h
  | _ :: _, [], h => by simp at h
  | a :: l, b :: l', h => by simp [zip_fst (l := l) (l' := l') (by simpa using h)]

private theorem zip_snd {α β : Type} : ∀ {l : List α} {l' : List β}, l.length = l'.length → (l.zip l').map Prod.snd = l'
  | [], [], _ => rfl
  | [], _ :: _, h => by simp at h
  | _ :: _, [], h => by simp at h
  | a :: l, b :: l', h => by simp [zip_snd (l := l) (l' := l') (by simpa using h)]

/-- The comparisons as calls. -/
private def call (corpus : String → List (Graph.G String String)) (x : String × String) : Call :=
  ⟨corpus x.1, corpus x.2, some "pair"⟩

private def meantOf (A : String → List (Alignment String String)) (x : String × String) : Meant := (A x.1).zip (A x.2)

private theorem forall₂_map' {α β γ : Type} {R : β → γ → Prop} {f : α → β} {g : α → γ} {l : List α} (h : ∀ x ∈ l, R (f x) (g x)) :
    List.Forall₂ R (l.map f) (l.map g) := by
  induction l with
  | nil => exact .nil
  | cons a l ih => exact .cons (h a (by simp)) (ih fun x hx => h x (by simp [hx]))

private theorem forIn_map {α β σ : Type} (f : α → β) (l : List α) (s : σ) (b : β → σ → Py σ) :
    Py.forIn (l.map f) s b = Py.forIn l s fun x => b (f x) := by
  induction l generalizing s with
  | nil => rfl
  | cons a l ih =>
    simp only [List.map_cons, Py.forIn, bind, Except.bind]
    cases b (f a) s with
    | error e => rfl
    | ok s' => exact ih s'

private theorem zip_map_mem {α β : Type} (f : α → β) (l : List α) {x : α × β} (h : x ∈ l.zip (l.map f)) : x.2 = f x.1 := by
  induction l with
  | nil => simp at h
  | cons a l ih =>
    simp only [List.map_cons, List.zip_cons_cons, List.mem_cons] at h
    rcases h with rfl | h
    · rfl
    · exact ih h

private theorem two_of : ∀ {l : List String}, l.Nodup → 2 ≤ l.length → ∃ a ∈ l, ∃ b ∈ l, a ≠ b
  | a :: b :: l, hn, _ => ⟨a, by simp, b, by simp, by
      simp only [List.nodup_cons, List.mem_cons, not_or] at hn; exact hn.1.1⟩
  | [], _, h => by simp at h
  | [_], _, h => by simp at h

/-- C45.  Cross evaluation of at least two annotators compares exactly the ordered pairs of different annotators, each
once, and the tables hold for each relation, and regardless of relations, the scores of the column annotator as prediction
of the row annotator, with their means and variances.  It is the evaluation of the comparisons of the corpora of these
pairs, one after another. -/
theorem cross_evaluation {relations annotators : List String} {corpus : String → List (Graph.G String String)}
    {A : String → List (Alignment String String)} (hp : Proper relations) (hr : relations.Nodup) (h0 : relations ≠ [])
    (h : Annotated relations annotators corpus A) (h2 : 2 ≤ annotators.length)
    (hu : "mean" ∉ annotators ∧ "SD" ∉ annotators ∧ "overall" ∉ annotators) :
    ∃ names e s, crossEvaluate relations (annotators.map corpus) (some annotators) = .ok (names, e, s) ∧ names.Nodup ∧
      (∀ t p, (t, p) ∈ names ↔ t ∈ annotators ∧ p ∈ annotators ∧ t ≠ p) ∧
      (∀ r ∈ relations, ∃ ts, s.tables.get? r = some ts ∧ ∀ m, ∃ d, tableize names ts.rows m = .ok d ∧
        IsTable annotators (fun t p => scores (meantCounts r ((A t).zip (A p))) m) d) ∧
      (∃ ts, s.tables.get? anyRel = some ts ∧ ∀ m, ∃ d, tableize names ts.rows m = .ok d ∧
        IsTable annotators (fun t p => scores (meantAny ((A t).zip (A p))) m) d) ∧
      history relations (names.map fun x => ⟨corpus x.1, corpus x.2, some "pair"⟩) = .ok e ∧ runEval e = .ok s ∧
      List.Forall₂ Shown (names.map fun x => ⟨corpus x.1, corpus x.2, some "pair"⟩) (names.map fun x => (A x.1).zip (A x.2)) ∧
      ∀ m ∈ names.map (fun x => (A x.1).zip (A x.2)), Within relations m := by
  set names := annotators.flatMap fun t => (annotators.filter fun p => t ≠ p).map fun p => (t, p) with hnames
  have hmem : ∀ t p, (t, p) ∈ names ↔ t ∈ annotators ∧ p ∈ annotators ∧ t ≠ p := mem_pairs annotators
  have hnd : names.Nodup := nodup_pairs h.nodup
  have hcs : comparisons (annotators.map corpus) annotators = names.map fun x => (x, (corpus x.1, corpus x.2)) := by
    rw [comparisons_eq, hnames, List.map_flatMap]
    congr 1
    funext t
    rw [List.map_map]; rfl
  have hshown : List.Forall₂ Shown (names.map (call corpus)) (names.map (meantOf A)) := by
    apply forall₂_map'
    intro x hx
    obtain ⟨h1, h2, -⟩ := (hmem x.1 x.2).1 hx
    have hlen := h.same _ h1 _ h2
    refine ⟨?_, ?_⟩
    · show List.Forall₂ _ _ (((A x.1).zip (A x.2)).map Prod.fst)
      rw [zip_fst hlen]; exact h.shows _ h1
    · show List.Forall₂ _ _ (((A x.1).zip (A x.2)).map Prod.snd)
      rw [zip_snd hlen]; exact h.shows _ h2
  have hwithin : ∀ m ∈ names.map (meantOf A), Within relations m := by
    intro m hm x hx s t r hrr
    obtain ⟨y, hy, rfl⟩ := List.mem_map.1 hm
    obtain ⟨h1, h2, -⟩ := (hmem y.1 y.2).1 hy
    rcases hrr with hrr | hrr
    · exact h.labels _ h1 _ (List.of_mem_zip hx).1 s t r hrr
    · exact h.labels _ h2 _ (List.of_mem_zip hx).2 s t r hrr
  have hne : names ≠ [] := by
    obtain ⟨a, ha, b, hb, hab⟩ := two_of h.nodup h2
    intro e
    have := (hmem a b).2 ⟨ha, hb, hab⟩
    rw [e] at this
    simp at this
  obtain ⟨e, s, e1, e2, e3, ⟨ta, e4, e4'⟩, -⟩ := overall hp hr h0 hshown hwithin (by simpa using hne)
  refine ⟨names, e, s, ?_, hnd, hmem, ?_, ?_, e1, e2, hshown, hwithin⟩
  · have hnames' : annotatorNames (annotators.map corpus).length (some annotators) = .ok annotators := by
      match annotators, h2 with
      | a :: l, _ => simp [annotatorNames]
    have hloop : (Py.forIn (names.map fun x => (x, (corpus x.1, corpus x.2))) (new relations) fun c e =>
        add e c.2.1 c.2.2 (some "pair")) = .ok e := by
      rw [forIn_map]
      unfold history at e1
      rw [forIn_map] at e1
      exact e1
    simp only [crossEvaluate, hnames', hcs, hloop, bind, Except.bind, e2, pure, Except.pure, List.map_map]
    congr 2
    exact List.map_id _
  · intro r hr'
    obtain ⟨ts, t1, t2⟩ := e3 r hr'
    refine ⟨ts, t1, fun m => ?_⟩
    have hrows : ts.rows = names.map fun x => measuresOf 1 (meantCounts r (meantOf A x)) := by
      rw [evalTable_eq (by simpa using hne)] at t2
      obtain rfl := Except.ok.inj t2
      simp [statsOf, List.map_map, Function.comp_def]
    apply table_statistics h.nodup h2 hu hnd hmem (by rw [hrows, List.length_map])
    intro x hx
    rw [hrows] at hx
    rw [zip_map_mem _ _ hx]
    cases m <;> rfl
  · refine ⟨ta, e4, fun m => ?_⟩
    have hrows : ta.rows = names.map fun x => measuresOf 1 (meantAny (meantOf A x)) := by
      rw [evalTable_eq (by simpa using hne)] at e4'
      obtain rfl := Except.ok.inj e4'
      simp [statsOf, List.map_map, Function.comp_def]
    apply table_statistics h.nodup h2 hu hnd hmem (by rw [hrows, List.length_map])
    intro x hx
    rw [hrows] at hx
    rw [zip_map_mem _ _ hx]
    cases m <;> rfl

private theorem mean_bounds {l : List ℚ} (hl : l ≠ []) {a b : ℚ} (h : ∀ x ∈ l, a ≤ x ∧ x ≤ b) : a ≤ meanOf l ∧ meanOf l ≤ b := by
  have hpos : (0 : ℚ) < l.length := by
    have : 0 < l.length := List.length_pos_iff.2 hl
    exact_mod_cast this
  unfold meanOf
  rw [le_div_iff₀ hpos, div_le_iff₀ hpos]
  clear hl hpos
  induction l with
  | nil => simp
  | cons x l ih =>
    have h1 := h x (by simp)
    have h2 := ih fun y hy => h y (by simp [hy])
    simp only [List.length_cons, List.sum_cons, Nat.cast_add, Nat.cast_one]
    constructor
    · linarith [h1.1, h2.1]
    · linarith [h1.2, h2.2]

private theorem var_nonneg {l : List ℚ} (hl : l ≠ []) (m : ℚ) : 0 ≤ varOf l m := by
  unfold varOf
  apply div_nonneg
  · apply List.sum_nonneg
    intro v hv
    obtain ⟨x, -, rfl⟩ := List.mem_map.1 hv
    positivity
  · have : 1 ≤ l.length := List.length_pos_iff.2 hl
    have : (1 : ℚ) ≤ l.length := by exact_mod_cast this
    linarith

/-- C45.  In such a table each column mean, and the overall mean, is between bounds of the scores of the column, and of
all scores, outside the diagonal; variances are not negative, and with two annotators those of the columns are 0. -/
theorem table_bounds {annotators : List String} (hn : annotators.Nodup) (h2 : 2 ≤ annotators.length)
    {v : String → String → ℚ} {d : Table} (h : IsTable annotators v d) :
    (∀ p ∈ annotators, ∀ lo hi : ℚ, (∀ t ∈ annotators, t ≠ p → lo ≤ v t p ∧ v t p ≤ hi) →
      ∃ x, cell d "mean" p = .ok x ∧ lo ≤ x ∧ x ≤ hi) ∧
    (∀ lo hi : ℚ, (∀ t ∈ annotators, ∀ p ∈ annotators, t ≠ p → lo ≤ v t p ∧ v t p ≤ hi) →
      ∃ x, cell d "mean" "overall" = .ok x ∧ lo ≤ x ∧ x ≤ hi) ∧
    (∀ p ∈ annotators, ∃ x, cell d "SD" p = .ok x ∧ 0 ≤ x ∧ (annotators.length = 2 → x = 0)) ∧
    (∃ x, cell d "SD" "overall" = .ok x ∧ 0 ≤ x) := by
  have hlen : (2 : ℚ) ≤ annotators.length := by exact_mod_cast h2
  have hc : ∀ p ∈ annotators, column annotators v p ≠ [] := by
    intro p hp e
    have := column_length hn hp v
    rw [e] at this
    simp only [List.length_nil, Nat.cast_zero] at this
    linarith
  have ho : offDiagonal annotators v ≠ [] := by
    intro e
    have := offDiagonal_length hn v
    rw [e] at this
    simp only [List.length_nil, Nat.cast_zero] at this
    nlinarith
  have hin : ∀ p x, x ∈ column annotators v p → ∃ t ∈ annotators, t ≠ p ∧ x = v t p := by
    intro p x hx
    simp only [column, List.mem_map, List.mem_filter, decide_eq_true_eq] at hx
    obtain ⟨t, ⟨h1, h2⟩, rfl⟩ := hx
    exact ⟨t, h1, fun e => h2 e.symm, rfl⟩
  refine ⟨fun p hp lo hi hb => ⟨_, h.means p hp, mean_bounds (hc p hp) ?_⟩, fun lo hi hb => ⟨_, h.mean, mean_bounds ho ?_⟩,
    fun p hp => ⟨_, h.variances p hp, var_nonneg (hc p hp) _, fun e => ?_⟩, ⟨_, h.variance, var_nonneg ho _⟩⟩
  · intro x hx
    obtain ⟨t, ht, hne, rfl⟩ := hin p x hx
    exact hb t ht hne
  · intro x hx
    obtain ⟨p, hp, hx⟩ := List.mem_flatMap.1 hx
    obtain ⟨t, ht, hne, rfl⟩ := hin p x hx
    exact hb t ht p hp hne
  · have := column_length hn hp v
    unfold varOf
    rw [this, e]
    norm_num

private theorem zip_swap_sum {α : Type} (f : α → α → Nat) (g : α → α → Nat) (h : ∀ a b, f a b = g b a) :
    ∀ l l' : List α, ((l.zip l').map fun x => f x.1 x.2).sum = ((l'.zip l).map fun x => g x.1 x.2).sum
  | [], l' => by simp
  | _ :: _, [] => by simp
  | a :: l, b :: l' => by simp [h a b, zip_swap_sum f g h l l']

/-- C45.  Agreement: exchanging two annotators exchanges precision and recall, and keeps the F score. -/
theorem exchanged_annotators (r : String) (A B : List (Alignment String String)) :
    scores (meantCounts r (A.zip B)) .prec = scores (meantCounts r (B.zip A)) .recall ∧
    scores (meantCounts r (A.zip B)) .f = scores (meantCounts r (B.zip A)) .f ∧
    scores (meantAny (A.zip B)) .prec = scores (meantAny (B.zip A)) .recall ∧
    scores (meantAny (A.zip B)) .f = scores (meantAny (B.zip A)) .f := by
  have h1 := zip_swap_sum (fun M _ => labelled M r) (fun (_ N : Alignment String String) => labelled N r) (fun _ _ => rfl) A B
  have h2 := zip_swap_sum (fun _ N => labelled N r) (fun (M _ : Alignment String String) => labelled M r) (fun _ _ => rfl) A B
  have h3 := zip_swap_sum (fun M N => bothLabelled M N r) (fun (M N : Alignment String String) => bothLabelled M N r)
    (fun _ _ => bothLabelled_comm _ _ _) A B
  have i1 := zip_swap_sum (fun M _ => aligned M) (fun (_ N : Alignment String String) => aligned N) (fun _ _ => rfl) A B
  have i2 := zip_swap_sum (fun _ N => aligned N) (fun (M _ : Alignment String String) => aligned M) (fun _ _ => rfl) A B
  have i3 := zip_swap_sum (fun M N => bothAligned M N) (fun (M N : Alignment String String) => bothAligned M N)
    (fun _ _ => bothAligned_comm _ _) A B
  have hf : ∀ p q : ℚ, fOf 1 p q = fOf 1 q p := by
    intro p q
    unfold fOf
    rw [show (1 : ℚ) ^ 2 * p + q = 1 ^ 2 * q + p by ring, show ((1 : ℚ) ^ 2 + 1) * p * q = (1 ^ 2 + 1) * q * p by ring]
  simp only [scores, meantCounts, meantAny, precisionOf, recallOf, h1, h2, h3, i1, i2, i3]
  exact ⟨trivial, hf _ _, trivial, hf _ _⟩

/-- C45.  Without names, or with an empty list of names, the annotators are called A1, A2, A3, ...; these names are
different, and none is a column or row title. -/
theorem default_names {relations : List String} {corpora : List (List (Graph.G String String))} {names : List String}
    (hl : names.length = corpora.length) (hn : names ≠ []) (h : ∀ i, i < names.length → names[i]? = some ("A" ++ toString (i + 1))) :
    crossEvaluate relations corpora none = crossEvaluate relations corpora (some names) ∧
    crossEvaluate relations corpora (some []) = crossEvaluate relations corpora (some names) ∧
    names.Nodup ∧ "mean" ∉ names ∧ "SD" ∉ names ∧ "overall" ∉ names := by
  have e : names = defaultNames corpora.length := by
    unfold defaultNames
    apply List.ext_getElem?
    intro i
    by_cases hi : i < names.length
    · rw [h i hi, List.getElem?_map, List.getElem?_range (by omega)]
      rfl
    · rw [List.getElem?_eq_none (by omega), List.getElem?_eq_none (by simp; omega)]
  have e1 : annotatorNames corpora.length (some names) = .ok names := by
    match names, hn with
    | a :: l, _ => simp [annotatorNames, hl]
  have first : ∀ x ∈ names, x.toList.head? = some 'A' := by
    intro x hx
    obtain ⟨i, hi, rfl⟩ := List.mem_iff_getElem.1 hx
    have := h i hi
    rw [List.getElem?_eq_getElem hi, Option.some.injEq] at this
    rw [this, String.toList_append]
    rfl
  refine ⟨by unfold crossEvaluate; rw [e1]; simp only [annotatorNames, ← e], by
    unfold crossEvaluate; rw [e1]; simp only [annotatorNames, ← e], ?_, ?_, ?_, ?_⟩
  · rw [e]
    unfold defaultNames
    refine List.Nodup.map ?_ List.nodup_range
    intro i j hij
    have hij : "A" ++ toString (i + 1) = "A" ++ toString (j + 1) := hij
    have := congrArg String.toList hij
    rw [String.toList_append, String.toList_append, List.append_cancel_left_eq] at this
    have h' : (i + 1).repr = (j + 1).repr := String.toList_inj.1 this
    rw [Nat.repr_eq_ofList_toDigits, Nat.repr_eq_ofList_toDigits] at h'
    have h2 := congrArg (fun l => Nat.ofDigitChars 10 l 0) (String.ofList_injective h')
    have : i + 1 = j + 1 := by simpa using h2
    omega
  · exact fun hx => by simpa using first _ hx
  · exact fun hx => by simpa using first _ hx
  · exact fun hx => by simpa using first _ hx

/-- C45, violated.  A single annotator cannot be evaluated. -/
theorem single_annotator (relations : List String) (corpus : List (Graph.G String String)) (a : String) :
    crossEvaluate relations [corpus] (some [a]) = .error .zeroDivision := by
  have hrun := runEval_empty (new_tables relations) (Or.inl rfl) (fun _ => rfl)
  simp only [crossEvaluate, annotatorNames, List.length_singleton, if_true, comparisons, List.zip_cons_cons, List.zip_nil_right,
    List.flatMap_cons, List.flatMap_nil, List.append_nil, bind, Except.bind]
  simp [Py.forIn, hrun]

/-- C45.  Names are required for all corpora or none. -/
theorem wrong_number (relations : List String) (corpora : List (List (Graph.G String String))) (l : List String)
    (h : l ≠ []) (hl : l.length ≠ corpora.length) : crossEvaluate relations corpora (some l) = .error .assertionError := by
  match l, h with
  | a :: l, _ => simp only [crossEvaluate, annotatorNames, if_neg hl, bind, Except.bind]

/-- C45.  With `words_only`, of the alignments of a graph pair built by any history, exactly those between two terminal
nodes remain. -/
theorem words_only_keeps_words (ops : List (GraphPair.Op String String)) (ntS ntT : String → Py Bool) (fS fT : String → Bool)
    {g : Graph.G String String} {errs : List Bool}
    (hg : GraphPair.run false Verif.Graph.empty ops = .ok (g, errs)) {M : Alignment String String} (hM : GraphPair.Shows g M)
    (hS : ∀ s t, (M s t).isSome → ntS s = .ok (fS s)) (hT : ∀ s t, (M s t).isSome → ntT t = .ok (fT t)) :
    ∃ g', wordsOnly ntS ntT g = .ok g' ∧ GraphPair.Shows g' (fun s t => if fS s || fT t then none else M s t) := by
  obtain ⟨g0, e1, a1⟩ := GraphPair.run_mapping (Verif.GraphPair.Al.empty (κ := String) (ρ := String)) ops
  have e := e1.symm.trans hg
  simp only [Except.ok.injEq, Prod.mk.injEq] at e
  obtain ⟨rfl, -⟩ := e
  have hm : M = (GraphPair.runSpec GraphPair.meantMapping Alignment.none ops).1 := by
    funext s t
    exact Except.ok.inj ((hM.get s t).symm.trans ((GraphPair.shows_of a1).get s t))
  subst hm
  obtain ⟨g', d1, d2⟩ := wordsOnly_ok a1 hS hT
  exact ⟨g', d1, GraphPair.shows_of d2⟩

/-! ### Examples -/

/-- A graph pair with these alignments. -/
private def pair (l : List (String × String × String)) : Graph.G String String :=
  match GraphPair.run false Verif.Graph.empty (l.map fun x => .add x.1 x.2.1 x.2.2) with
  | .ok x => x.1
  | .error _ => Verif.Graph.empty

private theorem shows_pair (l : List (String × String × String)) :
    GraphPair.Shows (pair l) (GraphPair.runSpec GraphPair.meantMapping Alignment.none
      (l.map fun x => .add x.1 x.2.1 x.2.2)).1 := by
  obtain ⟨g, e, h⟩ := GraphPair.mapping_refines (κ := String) (ρ := String) (l.map fun x => .add x.1 x.2.1 x.2.2)
  unfold pair
  rw [e]
  exact h

private def work (a : String) : List (String × String × String) :=
  if a = "Ann" then [("1", "2", "equals"), ("3", "4", "restates")]
  else if a = "Bob" then [("1", "2", "equals"), ("3", "4", "equals")]
  else [("1", "2", "equals")]

private def sampleA (a : String) : List (Alignment String String) :=
  [(GraphPair.runSpec GraphPair.meantMapping Alignment.none ((work a).map fun x => .add x.1 x.2.1 x.2.2)).1]

/-- The hypotheses hold for three annotators of one graph pair. -/
private theorem sample_annotated :
    Annotated ["equals", "restates"] ["Ann", "Bob", "Cy"] (fun a => [pair (work a)]) sampleA := by
  refine ⟨by decide, fun a _ => .cons (shows_pair _) .nil, fun a _ b _ => rfl, ?_⟩
  intro a ha M hM s t r h
  obtain rfl := List.mem_singleton.1 hM
  simp only [List.mem_cons, List.not_mem_nil, or_false] at ha
  rcases ha with rfl | rfl | rfl <;>
    simp [work, GraphPair.runSpec, GraphPair.meantMapping, Alignment.put, Alignment.none] at h <;>
    (try split at h) <;> (try split at h) <;> simp_all

example : ∃ x, crossEvaluate ["equals", "restates"] (["Ann", "Bob", "Cy"].map fun a => [pair (work a)])
    (some ["Ann", "Bob", "Cy"]) = .ok x := by
  obtain ⟨n, e, s, h, -⟩ := cross_evaluation (by simp [Proper, anyRel]) (by decide) (by decide) sample_annotated (by decide)
    (by decide)
  exact ⟨_, h⟩

/-- Cell of the table of a relation and measure. -/
private def value (r : String) (m : Measure) (row col : String) : Option ℚ :=
  (do
    let (n, _, s) ← crossEvaluate ["equals", "restates"] (["Ann", "Bob", "Cy"].map fun a => [pair (work a)]) (some ["Ann", "Bob", "Cy"])
    let t ← s.tables.get r
    let d ← tableize n t.rows m
    cell d row col : Py ℚ).toOption

example : value "equals" .prec "Ann" "Bob" = some (1 / 2) := by decide +kernel
example : value "equals" .recall "Ann" "Bob" = some 1 := by decide +kernel
example : value "equals" .prec "mean" "Bob" = some (1 / 2) := by decide +kernel
example : value "equals" .prec "mean" "overall" = some (5 / 6) := by decide +kernel

private def nt (n : String) : Py Bool := .ok (n = "1")

example : ((wordsOnly nt nt (pair (work "Ann"))).toOption.bind fun g => (Verif.GraphPair.alignments g none).toOption) =
    some [(("3", "4"), "restates")] := by decide +kernel

end Verif.Props.Agreement
