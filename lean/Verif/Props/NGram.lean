import Verif.Lemmas.NGram

/-! Properties C06, C07 (lib/daeso/string/ngram.py, sgram.py). -/
namespace Verif.Props.NGram
open Verif Verif.Spec Verif.NGram

variable {α : Type}

/-- Padding adds `pad_size` elements on either side. -/
theorem pad_length (tokens : List α) (k : Nat) (p : α) :
    (pad tokens k p).length = tokens.length + 2 * k := by
  simp [pad]; omega

/-- C06a: number of n-grams. -/
theorem n_gram_count (tokens : List α) (n k : Nat) (p : α) :
    (nGramSlices tokens n k p).length = tokens.length + 2 * k + 1 - n := by
  have := pad_length tokens k p
  simp only [nGramSlices, List.length_map, List.length_range, this]

/-- C06b: the `i`-th n-gram is the window of length `n` that occurs at position `i` of the padded
sequence. -/
theorem n_gram_nth (tokens : List α) (n k : Nat) (p : α) (i : Nat) (w : List α)
    (h : (nGramSlices tokens n k p)[i]? = some w) :
    w.length = n ∧
      OccursAt (List.replicate k p ++ tokens ++ List.replicate k p) w i := by
  simp only [nGramSlices, List.getElem?_map, Option.map_eq_some_iff] at h
  obtain ⟨j, hj, rfl⟩ := h
  have hlt : i < (pad tokens k p).length + 1 - n := by
    by_contra hc
    rw [List.getElem?_eq_none (by simpa using hc)] at hj
    cases hj
  rw [List.getElem?_range hlt] at hj
  cases hj
  refine ⟨?_, ?_⟩
  · simp [slice]; omega
  · refine ⟨(pad tokens k p).take i, (pad tokens k p).drop (i + n), ?_, ?_⟩
    · change pad tokens k p = _
      simp only [slice, Nat.add_sub_cancel_left, List.append_assoc]
      rw [← List.drop_drop]
      simp
    · simp; omega

example : (nGramSlices "abc".toList 2 1 '_')[1]? = some ['a', 'b'] := by decide

/-- C06c: every window occurs among the n-grams, at its own position (so nothing is missed). -/
theorem n_gram_complete (tokens : List α) (n k : Nat) (p : α) (i : Nat) (w : List α)
    (hw : w.length = n) (h : OccursAt (List.replicate k p ++ tokens ++ List.replicate k p) w i) :
    (nGramSlices tokens n k p)[i]? = some w := by
  obtain ⟨pre, suf, h1, h2⟩ := h
  change pad tokens k p = _ at h1
  have hl : (pad tokens k p).length = pre.length + w.length + suf.length := by
    simp [h1]; omega
  simp only [nGramSlices, List.getElem?_map, Option.map_eq_some_iff]
  refine ⟨i, ?_, ?_⟩
  · rw [List.getElem?_range (by omega)]
  · simp only [slice, h1, Nat.add_sub_cancel_left]
    subst h2 hw
    simp

example : OccursAt (List.replicate 0 0 ++ [5, 6, 7, 8] ++ List.replicate 0 0) [6, 7] 1 :=
  ⟨[5], [8], rfl, rfl⟩

/-- C06d: without padding the n-grams are exactly the infixes of length `n`. -/
theorem n_gram_mem_iff (tokens : List α) (n : Nat) (p : α) (w : List α) :
    w ∈ nGramSlices tokens n 0 p ↔ w.length = n ∧ w <:+: tokens := by
  constructor
  · intro h
    obtain ⟨i, hi, rfl⟩ := List.getElem_of_mem h
    obtain ⟨h1, pre, suf, h2, _⟩ := n_gram_nth tokens n 0 p i _ (List.getElem?_eq_getElem hi)
    exact ⟨h1, pre, suf, by simpa using h2.symm⟩
  · rintro ⟨h1, pre, suf, h2⟩
    have := n_gram_complete tokens n 0 p pre.length w h1 ⟨pre, suf, by simp [← h2], rfl⟩
    exact List.mem_of_getElem? this

/-- C06e: the n-gram strings are the joined n-gram slices. -/
theorem n_gram_strings_eq (tokens : List String) (n k : Nat) (p sep : String) :
    nGramStrings tokens n k p sep = (nGramSlices tokens n k p).map (fun w => sep.intercalate w) := by
  simp [nGramStrings, nGramSlices]

/-- C06f: `n_gram_slices_range` without padding holds the plain n-grams of each requested `n`. -/
theorem n_gram_range_nopad (tokens : List α) (ns : List Nat) (ps : Option (List Nat)) (p : α) :
    ∃ d, nGramSlicesRange tokens ns false ps p = .ok d ∧
      ∀ n, d n = if n ∈ ns then some (nGramSlices tokens n 0 p) else none := by
  refine ⟨_, rfl, ?_⟩
  intro n
  have hz : ns.zip (List.replicate ns.length 0) = ns.map (fun n => (n, 0)) := by
    induction ns with
    | nil => rfl
    | cons a l ih => simp [List.replicate_succ, ih]
  rw [hz]
  obtain ⟨h1, h2⟩ := dict_foldl_spec (fun np : Nat × Nat => np.1)
    (fun np => nGramSlices tokens np.1 np.2 p) (ns.map (fun n => (n, 0))) Py.Dict.empty
    (by simp only [List.mem_map]; rintro _ ⟨a, _, rfl⟩ _ ⟨b, _, rfl⟩ h; simp at h; simp [h])
  split
  · rename_i hn
    exact h1 (n, 0) (List.mem_map.2 ⟨n, hn, rfl⟩)
  · rename_i hn
    exact h2 n (by simp only [List.mem_map]; rintro _ ⟨a, ha, rfl⟩ rfl; exact hn ha)

/-- C06g: with default padding, `n`-grams are taken from the sequence padded with `n - 1` elements. -/
theorem n_gram_range_pad (tokens : List α) (ns : List Nat) (ps : Option (List Nat))
    (hps : ps = none ∨ ps = some []) (p : α) :
    ∃ d, nGramSlicesRange tokens ns true ps p = .ok d ∧
      ∀ n, d n = if n ∈ ns then some (nGramSlices tokens n (n - 1) p) else none := by
  have hz : ns.zip (ns.map (· - 1)) = ns.map (fun n => (n, n - 1)) := by
    induction ns with
    | nil => rfl
    | cons a l ih => simp [ih]
  refine ⟨(ns.zip (ns.map (· - 1))).foldl
    (fun d np => d.set np.1 (nGramSlices tokens np.1 np.2 p)) Py.Dict.empty, ?_, ?_⟩
  · rcases hps with rfl | rfl <;> rfl
  intro n
  rw [hz]
  obtain ⟨h1, h2⟩ := dict_foldl_spec (fun np : Nat × Nat => np.1)
    (fun np => nGramSlices tokens np.1 np.2 p) (ns.map (fun n => (n, n - 1))) Py.Dict.empty
    (by simp only [List.mem_map]; rintro _ ⟨a, _, rfl⟩ _ ⟨b, _, rfl⟩ h; simp at h; simp [h])
  split
  · rename_i hn
    exact h1 (n, n - 1) (List.mem_map.2 ⟨n, hn, rfl⟩)
  · rename_i hn
    exact h2 n (by simp only [List.mem_map]; rintro _ ⟨a, ha, rfl⟩ rfl; exact hn ha)

/-- C06h: explicit pad sizes are used position by position; a length mismatch is an AssertionError. -/
theorem n_gram_range_sizes (tokens : List α) (ns : List Nat) (ps : List Nat) (p : α)
    (hne : ps ≠ []) :
    (ns.length ≠ ps.length → nGramSlicesRange tokens ns true (some ps) p = .error .assertionError) ∧
    (ns.length = ps.length → ns.Nodup →
      ∃ d, nGramSlicesRange tokens ns true (some ps) p = .ok d ∧
        (∀ np ∈ ns.zip ps, d np.1 = some (nGramSlices tokens np.1 np.2 p)) ∧
        (∀ n, n ∉ ns → d n = none)) := by
  obtain ⟨q, qs, rfl⟩ : ∃ q qs, ps = q :: qs := List.exists_cons_of_ne_nil hne
  constructor
  · intro h
    simp only [nGramSlicesRange, if_true, if_neg h]; rfl
  · intro h hnd
    refine ⟨(ns.zip (q :: qs)).foldl
      (fun d np => d.set np.1 (nGramSlices tokens np.1 np.2 p)) Py.Dict.empty, ?_, ?_⟩
    · simp only [nGramSlicesRange, if_true, if_pos h]; rfl
    obtain ⟨h1, h2⟩ := dict_foldl_spec (fun np : Nat × Nat => np.1)
      (fun np => nGramSlices tokens np.1 np.2 p) (ns.zip (q :: qs)) Py.Dict.empty
      (by
        intro a ha b hb hab
        obtain ⟨i, hi, rfl⟩ := List.getElem_of_mem ha
        obtain ⟨j, hj, rfl⟩ := List.getElem_of_mem hb
        simp only [List.getElem_zip] at hab
        have : i = j := (List.Nodup.getElem_inj_iff hnd).1 hab
        subst this; rfl)
    refine ⟨h1, fun n hn => h2 n ?_⟩
    intro b hb e
    exact hn (e ▸ (List.of_mem_zip hb).1)

example : [2, 3].length = [1, 1].length ∧ [2, 3].Nodup ∧ ([1, 1] : List Nat) ≠ [] := by decide

/-! ### Skip-bigrams -/

/-- C07a: the result is the list of pairs at exactly the positions `i < j` with at most `limit` skipped
elements, in lexicographic position order. -/
theorem skip_bigrams_eq (limit : Nat) (tokens : List α) :
    (skipBigramSlices limit tokens).map (fun xy => (some xy.1, some xy.2)) =
      (skipPositions tokens.length limit).map fun ij => (tokens[ij.1]?, tokens[ij.2]?) := by
  induction tokens with
  | nil => rfl
  | cons t ts ih =>
    simp only [skipBigramSlices, List.length_cons, skipPositions_succ, List.map_append, List.map_map]
    congr 1
    · rw [filter_range_le]
      apply List.ext_getElem?
      intro i
      simp only [slice, List.drop_succ_cons, List.drop_zero, List.getElem?_map, List.getElem?_take]
      have e : 2 + limit - 1 = limit + 1 := by omega
      rw [e]
      by_cases h1 : i < limit + 1
      · by_cases h2 : i < ts.length
        · rw [List.getElem?_range (by omega)]
          simp [h1, h2]
        · rw [List.getElem?_eq_none (l := List.range _) (by simp; omega)]
          simp; omega
      · rw [List.getElem?_eq_none (l := List.range _) (by simp; omega)]
        simp [h1]

/-- C07b: membership: exactly the pairs of positions within the skip limit. -/
theorem skipPositions_mem (n limit i j : Nat) :
    (i, j) ∈ skipPositions n limit ↔ i < j ∧ j < n ∧ j - i - 1 ≤ limit := by
  simp only [skipPositions, List.mem_flatMap, List.mem_range, List.mem_map, List.mem_filter,
    decide_eq_true_eq, Prod.mk.injEq]
  constructor
  · rintro ⟨a, _, b, ⟨hb, h1, h2⟩, rfl, rfl⟩; exact ⟨h1, hb, h2⟩
  · rintro ⟨h1, h2, h3⟩; exact ⟨i, by omega, j, ⟨h2, h1, h3⟩, rfl, rfl⟩

/-- C07c: each position pair is used once. -/
theorem skipPositions_nodup (n limit : Nat) : (skipPositions n limit).Nodup := by
  induction n with
  | zero => simp [skipPositions]
  | succ n ih =>
    rw [skipPositions_succ, List.nodup_append]
    refine ⟨?_, ?_, ?_⟩
    · apply List.Nodup.map
      · intro a b h; simpa using h
      · exact (List.nodup_range).filter _
    · apply List.Nodup.map _ ih
      rintro ⟨a, b⟩ ⟨c, d⟩ h; simpa using h
    · simp only [List.mem_map]
      rintro _ ⟨a, _, rfl⟩ _ ⟨b, _, rfl⟩ h
      simp at h

/-- C07d: number of skip-bigrams without (effective) limit. -/
theorem skip_bigrams_count (limit : Nat) (tokens : List α) (h : tokens.length ≤ limit) :
    2 * (skipBigramSlices limit tokens).length = tokens.length * (tokens.length - 1) := by
  induction tokens with
  | nil => rfl
  | cons t ts ih =>
    simp only [skipBigramSlices, List.length_append, List.length_map, List.length_cons, slice,
      List.length_take, List.drop_succ_cons, List.drop_zero] at *
    have e : min (2 + limit - 1) ts.length = ts.length := by omega
    rw [e, Nat.mul_add, ih (by omega), Nat.add_sub_cancel]
    cases hl : ts.length with
    | zero => rfl
    | succ m => simp only [Nat.add_sub_cancel]; ring

/-- C07e: with limit 0, the skip-bigrams are the ordinary bigrams. -/
theorem skip_bigrams_zero (tokens : List α) (p : α) :
    (skipBigramSlices 0 tokens).map (fun xy => [xy.1, xy.2]) = nGramSlices tokens 2 0 p := by
  have hp : ∀ l : List α, pad l 0 p = l := by intro l; simp [pad]
  simp only [nGramSlices, hp]
  induction tokens with
  | nil => rfl
  | cons t ts ih =>
    simp only [skipBigramSlices, List.map_append, ih]
    cases ts with
    | nil => simp [slice]
    | cons u us =>
      simp only [List.length_cons, slice]
      rw [show us.length + 1 + 1 + 1 - 2 = (us.length + 1 + 1 - 2) + 1 by omega,
        List.range_succ_eq_map (n := us.length + 1 + 1 - 2)]
      simp [Function.comp_def]

/-- C07f: the padded skip-bigrams are those of the tokens with one pad string before and one after them. -/
theorem padded_skip_bigrams_eq (limit : Nat) (tokens : List α) (p : α) :
    (paddedSkipBigramSlices limit tokens p).map (fun xy => (some xy.1, some xy.2)) =
      (skipPositions (tokens.length + 2) limit).map fun ij => ((p :: tokens ++ [p])[ij.1]?, (p :: tokens ++ [p])[ij.2]?) := by
  have h := skip_bigrams_eq limit (p :: tokens ++ [p])
  have hl : (p :: tokens ++ [p]).length = tokens.length + 2 := by simp
  rw [hl] at h
  exact h

example : skipBigramSlices 1 [1, 2, 3, 4] = [(1, 2), (1, 3), (2, 3), (2, 4), (3, 4)] := by decide

end Verif.Props.NGram
