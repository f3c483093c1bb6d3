import Verif.Lemmas.TfIdf

/-! Property C18 (lib/daeso/string/tf_idf.py). -/
namespace Verif.Props.TfIdf
open Verif Verif.TfIdf

variable {τ : Type} [LinearOrder τ]

/-- Specification: number of documents that contain `t`. -/
def docCount (docs : List (List τ)) (t : τ) : Nat := docs.countP fun doc => decide (t ∈ doc)

/-- Specification: relative frequency of `t` in `doc` (0 for an empty document), or presence. -/
noncomputable def termWeight (indicator : Bool) (doc : List τ) (t : τ) : ℝ :=
  if indicator then (if t ∈ doc then 1 else 0) else (doc.count t : ℝ) / (doc.length : ℝ)

/-- Specification: `log(N/df)`, divided by `log N` if normalised. -/
noncomputable def idfSpec (docs : List (List τ)) (normalized : Bool) (t : τ) : ℝ :=
  Real.log (docs.length / docCount docs t) / (if normalized then Real.log docs.length else 1)

/-- C18: term frequencies: the terms are exactly those occurring in the documents, in increasing order,
and the table of each document maps each of its terms to its number of occurrences (and nothing else). -/
theorem term_frequencies_correct (docs : List (List τ)) :
    (termFrequencies docs).1.Pairwise (· < ·) ∧
    (∀ t, t ∈ (termFrequencies docs).1 ↔ ∃ doc ∈ docs, t ∈ doc) ∧
    (termFrequencies docs).2.length = docs.length ∧
    ∀ i (hi : i < docs.length) t, ((termFrequencies docs).2[i]?.bind fun d => d.get? t) =
      if t ∈ docs[i] then some (docs[i].count t) else none := by
  obtain ⟨h1, h2, h3⟩ := termFrequencies_spec docs
  refine ⟨h2, h3, by rw [h1]; simp, ?_⟩
  intro i hi t
  rw [h1]
  have hc := (Cnt.foldl (Cnt.nil (τ := τ)) docs[i]).2 t
  simp only [List.getElem?_map, List.getElem?_eq_getElem hi, Option.map_some, Option.bind_some, hc]
  by_cases ht : t ∈ docs[i]
  · have : docs[i].count t ≠ 0 := by have := List.count_pos_iff.2 ht; omega
    simp only [Nat.zero_add, this, if_false, ht, if_true]
  · simp [ht, List.count_eq_zero.2 ht]

/-- C18: document frequencies: the number of documents containing the term; between 1 and N. -/
theorem document_frequencies_correct (docs : List (List τ)) (t : τ) :
    (documentFrequencies (termFrequencies docs).2).get? t =
      (if ∃ doc ∈ docs, t ∈ doc then some (docCount docs t) else none) ∧
    ((∃ doc ∈ docs, t ∈ doc) → 1 ≤ docCount docs t ∧ docCount docs t ≤ docs.length) := by
  rw [(termFrequencies_spec docs).1]
  have hc := (documentFrequencies_spec docs).2 t
  have hiff : (∃ doc ∈ docs, t ∈ doc) ↔ 0 < docCount docs t := by
    unfold docCount; rw [List.countP_pos_iff]; simp
  constructor
  · rw [hc]
    by_cases h : ∃ doc ∈ docs, t ∈ doc
    · rw [if_pos h, if_neg]; · rfl
      have := hiff.1 h
      change ¬ docCount docs t = 0
      omega
    · rw [if_neg h, if_pos]
      have : ¬ 0 < docCount docs t := fun h' => h (hiff.2 h')
      change docCount docs t = 0
      omega
  · intro h
    exact ⟨hiff.1 h, List.countP_le_length⟩

private theorem docCount_pos {docs : List (List τ)} {t : τ} (h : ∃ doc ∈ docs, t ∈ doc) :
    0 < docCount docs t := by
  unfold docCount; rw [List.countP_pos_iff]; simpa using h

private theorem norm_ok (docs : List (List τ)) (normalized : Bool)
    (hn : normalized = true → 2 ≤ docs.length) :
    normOf docs normalized = .ok (if normalized then Real.log docs.length else 1) ∧
      0 < (if normalized then Real.log (docs.length : ℝ) else 1) := by
  unfold normOf
  cases normalized
  · simp
  · have h2 : (1 : ℝ) < docs.length := by
      have := hn rfl
      have : ((2 : Nat) : ℝ) ≤ docs.length := by exact_mod_cast this
      norm_num at this ⊢; linarith
    simp only [if_true, log]
    refine ⟨?_, Real.log_pos h2⟩
    rw [if_neg (by linarith)]

private theorem idfWeight_ok (docs : List (List τ)) (normalized : Bool)
    (hn : normalized = true → 2 ≤ docs.length) (t : τ) (ht : ∃ doc ∈ docs, t ∈ doc) :
    idfWeight docs.length (documentFrequencies (docs.map (fun doc => doc.foldl incr [])))
      (if normalized then Real.log docs.length else 1) t = .ok (idfSpec docs normalized t) := by
  have hc := (documentFrequencies_spec docs).2 t
  have hpos := docCount_pos ht
  have hg : (documentFrequencies (docs.map (fun doc => doc.foldl incr []))).get? t =
      some (docCount docs t) := by
    rw [hc, if_neg]
    · rfl
    · change ¬ docCount docs t = 0
      omega
  have hN : 0 < docs.length := by
    obtain ⟨d, hd, _⟩ := ht; exact List.length_pos_of_mem hd
  have hq : (0 : ℝ) < docs.length / docCount docs t := by positivity
  have hne : (docCount docs t : ℝ) ≠ 0 := by positivity
  obtain ⟨_, hnorm⟩ := norm_ok docs normalized hn
  simp only [idfWeight, AD.get_eq hg, bind, Except.bind, Py.divR, hne, if_false, log,
    if_neg (not_le.2 hq), if_neg (ne_of_gt hnorm), idfSpec]

private theorem tf_ok (indicator : Bool) (doc : List τ) (t : τ) :
    tf indicator doc (doc.foldl incr []) t = .ok (termWeight indicator doc t) := by
  unfold tf termWeight
  cases indicator
  · have hc := (Cnt.foldl (Cnt.nil (τ := τ)) doc).2 t
    have : ((AD.get? (doc.foldl incr []) t).getD 0) = doc.count t := by
      rw [hc]; by_cases h : doc.count t = 0 <;> simp [h]
    simp only [Bool.false_eq_true, if_false, this]
    by_cases h0 : doc.length = 0
    · have : doc = [] := List.length_eq_zero_iff.1 h0
      subst this
      simp [Py.divR, Py.catchZeroDiv]
    · have : (doc.length : ℝ) ≠ 0 := by exact_mod_cast h0
      simp [Py.divR, this, Py.catchZeroDiv]
  · simp

/-- C18: `tf_idf` returns, for each document and each term, the product of term weight and inverse
document frequency. With `normalized` this needs at least two documents (see `tf_idf_one_document`). -/
theorem tf_idf_value (docs : List (List τ)) (normalized indicator : Bool)
    (hn : normalized = true → 2 ≤ docs.length) :
    ∃ terms, terms.Pairwise (· < ·) ∧ (∀ t, t ∈ terms ↔ ∃ doc ∈ docs, t ∈ doc) ∧
      tfIdf docs normalized indicator = .ok (terms, docs.map fun doc => terms.map fun t =>
        termWeight indicator doc t * idfSpec docs normalized t) := by
  obtain ⟨h1, h2, h3⟩ := termFrequencies_spec docs
  refine ⟨_, h2, h3, ?_⟩
  obtain ⟨e1, hnorm⟩ := norm_ok docs normalized hn
  unfold tfIdf
  simp only [h1, e1, bind, Except.bind]
  rw [mapM_ok (docs.zip (docs.map (fun doc => doc.foldl incr []))) _
    (fun p => (termFrequencies docs).1.map fun t => termWeight indicator p.1 t * idfSpec docs normalized t)]
  · simp only [Except.ok.injEq, Prod.mk.injEq, true_and]
    rw [List.zip_map_right, List.map_map]
    have : docs.zip docs = docs.map fun d => (d, d) := by
      clear * -
      induction docs with
      | nil => rfl
      | cons x xs ih => simp [ih]
    rw [this, List.map_map]
    rfl
  · intro p hp
    rw [List.zip_map_right, List.mem_map] at hp
    obtain ⟨⟨d, d'⟩, hd, rfl⟩ := hp
    have hdd : d = d' := by
      have : docs.zip docs = docs.map fun d => (d, d) := by
        clear * -
        induction docs with
        | nil => rfl
        | cons x xs ih => simp [ih]
      rw [this, List.mem_map] at hd
      obtain ⟨x, _, hx⟩ := hd
      simp at hx; exact hx.1.symm.trans hx.2
    subst hdd
    apply mapM_ok
    intro t ht
    have ht' := (h3 t).1 ht
    simp only [Prod.map_apply, id_eq, tf_ok, idfWeight_ok docs normalized hn t ht', bind, Except.bind]

/-- C18: `idf` returns the same inverse document frequencies for every document. -/
theorem idf_value (docs : List (List τ)) (normalized : Bool)
    (hn : normalized = true → 2 ≤ docs.length) :
    ∃ terms, terms.Pairwise (· < ·) ∧ (∀ t, t ∈ terms ↔ ∃ doc ∈ docs, t ∈ doc) ∧
      idf docs normalized = .ok (terms, docs.map fun _ => terms.map fun t =>
        idfSpec docs normalized t) := by
  obtain ⟨h1, h2, h3⟩ := termFrequencies_spec docs
  refine ⟨_, h2, h3, ?_⟩
  obtain ⟨e1, hnorm⟩ := norm_ok docs normalized hn
  unfold idf
  simp only [h1, e1, bind, Except.bind]
  rw [mapM_ok docs _ (fun _ => (termFrequencies docs).1.map fun t => idfSpec docs normalized t)]
  intro p hp
  apply mapM_ok
  intro t ht
  exact idfWeight_ok docs normalized hn t ((h3 t).1 ht)

/-- C18: bounds of the inverse document frequency: never negative, 0 exactly for terms that occur in all
documents, at most 1 when normalised. -/
theorem idf_bounds (docs : List (List τ)) (normalized : Bool)
    (hn : normalized = true → 2 ≤ docs.length) (t : τ) (ht : ∃ doc ∈ docs, t ∈ doc) :
    0 ≤ idfSpec docs normalized t ∧
    (idfSpec docs normalized t = 0 ↔ ∀ doc ∈ docs, t ∈ doc) ∧
    (normalized = true → idfSpec docs normalized t ≤ 1) := by
  obtain ⟨_, hnorm⟩ := norm_ok docs normalized hn
  have hpos := docCount_pos ht
  have hle : docCount docs t ≤ docs.length := List.countP_le_length
  have hposR : (0 : ℝ) < docCount docs t := by exact_mod_cast hpos
  have hleR : (docCount docs t : ℝ) ≤ docs.length := by exact_mod_cast hle
  have hN : (0 : ℝ) < docs.length := lt_of_lt_of_le hposR hleR
  have h1 : (1 : ℝ) ≤ docs.length / docCount docs t := by
    rw [le_div_iff₀ hposR]; linarith
  have hl : 0 ≤ Real.log (docs.length / docCount docs t) := Real.log_nonneg h1
  refine ⟨div_nonneg hl hnorm.le, ?_, ?_⟩
  · unfold idfSpec
    rw [div_eq_zero_iff, or_iff_left hnorm.ne']
    constructor
    · intro h
      have hq : (docs.length : ℝ) / docCount docs t = 1 := by
        rcases Real.log_eq_zero.1 h with h | h | h
        · linarith
        · exact h
        · linarith
      rw [div_eq_one_iff_eq hposR.ne'] at hq
      have : docs.length = docCount docs t := by exact_mod_cast hq
      unfold docCount at this
      have := List.countP_eq_length.1 this.symm
      simpa using this
    · intro h
      have : docCount docs t = docs.length := by
        unfold docCount; rw [List.countP_eq_length]; simpa using h
      rw [this, div_self hN.ne', Real.log_one]
  · rintro rfl
    simp only [if_true] at hnorm
    unfold idfSpec
    simp only [if_true]
    rw [div_le_one hnorm]
    apply Real.log_le_log (by linarith)
    rw [div_le_iff₀ hposR]
    have : (1 : ℝ) ≤ docCount docs t := by exact_mod_cast hpos
    nlinarith

/-- C18: every weight is non-negative; it is 0 exactly when the term is absent from the document or
occurs in all documents; normalised weights are at most 1. -/
theorem weight_bounds (docs : List (List τ)) (normalized indicator : Bool)
    (hn : normalized = true → 2 ≤ docs.length) (doc : List τ) (hd : doc ∈ docs) (t : τ)
    (ht : ∃ doc ∈ docs, t ∈ doc) :
    0 ≤ termWeight indicator doc t * idfSpec docs normalized t ∧
    (termWeight indicator doc t * idfSpec docs normalized t = 0 ↔ t ∉ doc ∨ ∀ d ∈ docs, t ∈ d) ∧
    (normalized = true → termWeight indicator doc t * idfSpec docs normalized t ≤ 1) := by
  obtain ⟨h1, h2, h3⟩ := idf_bounds docs normalized hn t ht
  have hc : doc.count t ≤ doc.length := List.count_le_length
  have w0 : 0 ≤ termWeight indicator doc t := by
    unfold termWeight; split
    · split <;> norm_num
    · positivity
  have w1 : termWeight indicator doc t ≤ 1 := by
    unfold termWeight; split
    · split <;> norm_num
    · apply div_le_one_of_le₀ _ (by positivity)
      exact_mod_cast hc
  have wz : termWeight indicator doc t = 0 ↔ t ∉ doc := by
    unfold termWeight; split
    · split <;> simp_all
    · rw [div_eq_zero_iff]
      simp only [Nat.cast_eq_zero, List.length_eq_zero_iff, List.count_eq_zero]
      constructor
      · rintro (h | h)
        · exact h
        · subst h; simp
      · exact Or.inl
  refine ⟨mul_nonneg w0 h1, ?_, ?_⟩
  · rw [mul_eq_zero, wz, h2]
  · intro h
    have := h3 h
    nlinarith

/-- C18: the term frequencies of a non-empty document add up to 1. -/
theorem tf_sum_one (doc terms : List τ) (hne : doc ≠ []) (hs : terms.Pairwise (· < ·))
    (hcov : ∀ t ∈ doc, t ∈ terms) : (terms.map (termWeight false doc)).sum = 1 := by
  have hnd : terms.Nodup := hs.imp fun h => ne_of_lt h
  have hlen : (doc.length : ℝ) ≠ 0 := by
    have := List.length_pos_iff.2 hne
    positivity
  have hsum : (terms.map fun t => doc.count t).sum = doc.length := by
    clear hs hlen hne
    induction doc with
    | nil => simp
    | cons x xs ih =>
      have hx : x ∈ terms := hcov x (by simp)
      have ih' := ih (fun t ht => hcov t (by simp [ht]))
      have : ∀ l : List τ, l.Nodup → (l.map fun t => (x :: xs).count t).sum =
          (l.map fun t => xs.count t).sum + if x ∈ l then 1 else 0 := by
        intro l hl
        induction l with
        | nil => simp
        | cons y l ih2 =>
          rw [List.nodup_cons] at hl
          rw [List.map_cons, List.sum_cons, ih2 hl.2, List.map_cons, List.sum_cons, List.count_cons]
          by_cases hxy : x = y
          · subst hxy
            rw [if_pos (by simp), if_neg hl.1, if_pos (by simp)]; omega
          · have : ¬ (x == y) = true := by simpa using hxy
            rw [if_neg this]
            have : x ∈ y :: l ↔ x ∈ l := by simp [hxy]
            simp only [this]; omega
      rw [this terms hnd, ih']; simp [hx]
  have : (terms.map (termWeight false doc)).sum = ((terms.map fun t => doc.count t).sum : ℕ) / doc.length := by
    clear hsum hcov hs hnd hne
    induction terms with
    | nil => simp
    | cons y l ih =>
      simp only [List.map_cons, List.sum_cons, ih, termWeight]
      push_cast
      simp
      ring
  rw [this, hsum, div_self hlen]

/-- C18: normalisation fails for a single non-empty document (division by `log 1`), and for an empty
collection (`log 0`). -/
theorem tf_idf_one_document (doc : List τ) (hne : doc ≠ []) (indicator : Bool) :
    tfIdf [doc] true indicator = .error .zeroDivision ∧
    tfIdf ([] : List (List τ)) true indicator = .error .valueError := by
  constructor
  · obtain ⟨h1, h2, h3⟩ := termFrequencies_spec [doc]
    obtain ⟨t0, ht0⟩ := List.exists_mem_of_ne_nil _ hne
    have hne' : (termFrequencies [doc]).1 ≠ [] := by
      intro h
      have := (h3 t0).2 ⟨doc, by simp, ht0⟩
      rw [h] at this; simp at this
    obtain ⟨t, ts, hts⟩ := List.exists_cons_of_ne_nil hne'
    have ht : ∃ d ∈ [doc], t ∈ d := (h3 t).1 (by rw [hts]; simp)
    have hc := (documentFrequencies_spec [doc]).2 t
    have hg : (documentFrequencies [doc.foldl incr []]).get? t = some 1 := by
      have htd : t ∈ doc := by simpa using ht
      simpa [htd] using hc
    unfold tfIdf
    simp only [h1, hts, normOf, log, bind, Except.bind, List.map_cons, List.map_nil, List.length_singleton,
      if_true]
    norm_num
    simp [List.mapM_cons, tf_ok, idfWeight, AD.get_eq hg, Py.divR, log, bind, Except.bind]
    norm_num
  · unfold tfIdf
    simp [normOf, log, bind, Except.bind]

/-- Non-vacuity: two documents, normalised, with a repeated term and a shared term. -/
example : ∃ terms, terms.Pairwise (· < ·) ∧
    tfIdf [[1, 2, 1, 3], [4, 1, 2, 2]] true false = .ok (terms,
      [[1, 2, 1, 3], [4, 1, 2, 2]].map fun doc => terms.map fun t =>
        termWeight false doc t * idfSpec [[1, 2, 1, 3], [4, 1, 2, 2]] true t) := by
  obtain ⟨terms, h1, _, h3⟩ := tf_idf_value (τ := Nat) [[1, 2, 1, 3], [4, 1, 2, 2]] true false (by simp)
  exact ⟨terms, h1, h3⟩

end Verif.Props.TfIdf
