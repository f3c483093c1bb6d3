import Verif.Lemmas.Rouge
import Verif.Spec.Scores

/-! Properties C11, C12 (lib/daeso/string/rouge.py). -/
namespace Verif.Props.Rouge
open Verif Verif.NGram Verif.Rouge Verif.Spec

variable {α : Type} [DecidableEq α]

/-- C11a: ROUGE-N never raises and is the number of candidate n-grams that occur in some reference,
divided by the number of n-grams of all references (0 if these have none). -/
theorem rouge_n_value (pad : α) (cand : List α) (refs : List (List α)) (n : Nat) :
    let total := (refs.map (fun r => r.length + 1 - n)).sum
    let hits := (nGramSlices cand n 0 pad).countP (fun g => decide (∃ r ∈ refs, g.length = n ∧ g <:+: r))
    rougeN pad cand refs n = .ok (if total = 0 then 0 else (hits : ℚ) / total) := by
  intro total hits
  rw [rougeN, rougeNgram, Py.catch_div, refNgrams_eq]
  have h1 : (refs.flatMap (fun rt => nGramSlices rt n 0 pad)).length = total := by
    rw [List.length_flatMap]
    congr 1
    apply List.map_congr_left
    intro r _
    simp [nGramSlices, NGram.pad]
  have h2 : countMatch (nGramSlices cand n 0 pad) (refs.flatMap (fun rt => nGramSlices rt n 0 pad))
      = hits := by
    unfold countMatch
    rw [← List.countP_eq_length_filter]
    apply List.countP_congr
    intro g _
    simp only [decide_eq_true_eq, List.mem_flatMap]
    constructor
    · rintro ⟨r, hr, hg⟩
      simp only [nGramSlices, NGram.pad, List.replicate_zero, List.nil_append, List.append_nil,
        List.mem_map, List.mem_range] at hg
      obtain ⟨i, hi, rfl⟩ := hg
      refine ⟨r, hr, ?_, ?_⟩
      · simp [slice]; omega
      · unfold slice
        exact (List.take_prefix _ _).isInfix.trans (List.drop_suffix _ _).isInfix
    · rintro ⟨r, hr, hl, pre, suf, h⟩
      refine ⟨r, hr, ?_⟩
      simp only [nGramSlices, NGram.pad, List.replicate_zero, List.nil_append, List.append_nil,
        List.mem_map, List.mem_range]
      refine ⟨pre.length, ?_, ?_⟩
      · rw [← h]; simp; omega
      · subst hl; rw [← h]; simp [slice]
  rw [h1, h2]
  simp only [Nat.cast_eq_zero]

/-- C11b (partial): ROUGE-N is in [0,1] when no n-gram is more frequent in the candidate than in the
references.  The unconditional bound fails: `rouge_n_exceeds_one`. -/
theorem rouge_n_range (pad : α) (cand : List α) (refs : List (List α)) (n : Nat)
    (h : ∀ g, (nGramSlices cand n 0 pad).count g ≤
      (refs.flatMap (fun r => nGramSlices r n 0 pad)).count g) :
    ∃ q, rougeN pad cand refs n = .ok q ∧ 0 ≤ q ∧ q ≤ 1 := by
  obtain ⟨p1, p2, _, _⟩ := Similar.ratio_props _ _ (countMatch_le h)
  refine ⟨_, ?_, p1, p2⟩
  rw [rougeN, rougeNgram, refNgrams_eq]
  exact Similar.catch_ratio _ _

example : ∀ g, (nGramSlices [1, 2, 3] 2 0 0).count g ≤
    ([[1, 2, 3], [2, 3]].flatMap (fun r => nGramSlices r 2 0 0)).count g := by
  intro g
  have : (nGramSlices [1, 2, 3] 2 0 0).Subperm ([[1, 2, 3], [2, 3]].flatMap (fun r => nGramSlices r 2 0 0)) :=
    ⟨[[1, 2], [2, 3]], by decide, by decide⟩
  exact this.count_le g

/-- C11 (lower bound, every input): never negative. -/
theorem rouge_n_nonneg (pad : α) (cand : List α) (refs : List (List α)) (n : Nat) :
    ∃ q, rougeN pad cand refs n = .ok q ∧ 0 ≤ q := by
  rw [rougeN, rougeNgram, Py.catch_div]
  refine ⟨_, rfl, ?_⟩
  split
  · exact le_refl _
  · positivity

/-- C11 is violated: repeated candidate n-grams are not clipped, so the "recall" reaches 3. -/
theorem rouge_n_exceeds_one : rougeN '_' "aaa".toList ["a".toList] 1 = .ok 3 := by decide +kernel

/-- C11c: a candidate equal to the only reference scores 1 (if it has an n-gram at all). -/
theorem rouge_n_self (pad : α) (cand : List α) (n : Nat) (h : n ≤ cand.length) :
    rougeN pad cand [cand] n = .ok 1 := by
  rw [rougeN, rougeNgram, Py.catch_div, refNgrams_eq]
  have hl : (nGramSlices cand n 0 pad).length ≠ 0 := by
    simp [nGramSlices, NGram.pad]; omega
  have hc : countMatch (nGramSlices cand n 0 pad) (nGramSlices cand n 0 pad)
      = (nGramSlices cand n 0 pad).length := by
    unfold countMatch
    rw [List.filter_eq_self.2]; simp
  have hl' : ((nGramSlices cand n 0 pad).length : ℚ) ≠ 0 := by exact_mod_cast hl
  simp [hc, hl']

example : (2 : Nat) ≤ "abc".toList.length := by decide

/-- C12a: ROUGE-L on non-empty sequences returns a value in [0,1], for every beta. -/
theorem rouge_l_range (fuel : Nat) (cand ref : List α) (beta : ℚ)
    (hf : cand.length + ref.length < fuel) (hc : cand ≠ []) (hr : ref ≠ []) :
    ∃ q, rougeL fuel cand ref beta = .ok q ∧ 0 ≤ q ∧ q ≤ 1 := by
  obtain ⟨c, h1, h2, _⟩ := Lcs.lcs_ok cand ref fuel hf
  have hcl : cand.length ≠ 0 := by simpa using hc
  have hrl : ref.length ≠ 0 := by simpa using hr
  have l1 := h2.1.1.length_le
  have l2 := h2.1.2.length_le
  unfold rougeL
  simp only [h1, bind, Except.bind, div_nat _ _ hcl, div_nat _ _ hrl]
  apply fMeasure_ok
  · positivity
  · exact div_le_one_of_le₀ (by exact_mod_cast l1) (by positivity)
  · positivity
  · exact div_le_one_of_le₀ (by exact_mod_cast l2) (by positivity)

example : rougeL 9 "abcd".toList "acx".toList 1 = .ok (4/7) := by decide +kernel

/-- C12b: ROUGE-L raises ZeroDivisionError exactly when one of the sequences is empty. -/
theorem rouge_l_error (fuel : Nat) (cand ref : List α) (beta : ℚ)
    (hf : cand.length + ref.length < fuel) :
    rougeL fuel cand ref beta = .error .zeroDivision ↔ cand = [] ∨ ref = [] := by
  constructor
  · intro h
    by_contra hcon
    push Not at hcon
    obtain ⟨q, hq, _⟩ := rouge_l_range fuel cand ref beta hf hcon.1 hcon.2
    rw [hq] at h; cases h
  · intro h
    obtain ⟨c, h1, h2, _⟩ := Lcs.lcs_ok cand ref fuel hf
    unfold rougeL
    simp only [h1, bind, Except.bind]
    by_cases hr : ref = []
    · simp only [hr, List.length_nil, div_nat_zero]
    · have hrl : ref.length ≠ 0 := by simpa using hr
      have hc : cand = [] := by tauto
      simp only [div_nat _ _ hrl, hc, List.length_nil, div_nat_zero]

/-- C12c: ROUGE-L is symmetric for beta = 1. -/
theorem rouge_l_symm (fuel : Nat) (cand ref : List α) (hf : cand.length + ref.length < fuel) :
    rougeL fuel cand ref 1 = rougeL fuel ref cand 1 := by
  by_cases h : cand = [] ∨ ref = []
  · rw [(rouge_l_error fuel cand ref 1 hf).2 h, (rouge_l_error fuel ref cand 1 (by omega)).2 h.symm]
  · push Not at h
    obtain ⟨c, h1, h2, _⟩ := Lcs.lcs_ok cand ref fuel hf
    obtain ⟨d, h3, h4, _⟩ := Lcs.lcs_ok ref cand fuel (by omega)
    have hcd : c.length = d.length :=
      Nat.le_antisymm (h4.2 c ⟨h2.1.2, h2.1.1⟩) (h2.2 d ⟨h4.1.2, h4.1.1⟩)
    have hcl : cand.length ≠ 0 := by simpa using h.1
    have hrl : ref.length ≠ 0 := by simpa using h.2
    unfold rougeL
    simp only [h1, h3, bind, Except.bind, div_nat _ _ hcl, div_nat _ _ hrl, hcd]
    exact fMeasure_comm _ _

/-- C12d: ROUGE-L of a non-empty sequence with itself is 1, for every beta. -/
theorem rouge_l_self (fuel : Nat) (s : List α) (beta : ℚ) (hf : s.length + s.length < fuel)
    (hs : s ≠ []) : rougeL fuel s s beta = .ok 1 := by
  obtain ⟨c, h1, h2, _⟩ := Lcs.lcs_ok s s fuel hf
  have hsl : s.length ≠ 0 := by simpa using hs
  have hc : c.length = s.length := Nat.le_antisymm h2.1.1.length_le
    (h2.2 s ⟨List.Sublist.refl _, List.Sublist.refl _⟩)
  have hq : (s.length : ℚ) / s.length = 1 := div_self (by exact_mod_cast hsl)
  unfold rougeL
  simp only [h1, bind, Except.bind, div_nat _ _ hsl, hc, hq, fMeasure_one]

/-- C12e: ROUGE-S on sequences of at least two tokens returns a value in [0,1], for every beta and
limit. -/
theorem rouge_s_range (t1 t2 : List α) (limit : Nat) (beta : ℚ) (h1 : 2 ≤ t1.length)
    (h2 : 2 ≤ t2.length) : ∃ q, rougeS t1 t2 limit beta = .ok q ∧ 0 ≤ q ∧ q ≤ 1 := by
  have e1 : (skipBigramSlices limit t1).length ≠ 0 := by
    rw [ne_eq, List.length_eq_zero_iff, skip_nil_iff]; omega
  have e2 : (skipBigramSlices limit t2).length ≠ 0 := by
    rw [ne_eq, List.length_eq_zero_iff, skip_nil_iff]; omega
  have l1 := Similar.inter_card_le_left (skipBigramSlices limit t1) (skipBigramSlices limit t2)
  have l2 := Similar.inter_card_le_right (skipBigramSlices limit t1) (skipBigramSlices limit t2)
  unfold Similar.inter at l1 l2
  unfold rougeS rougeSkipBigram
  simp only [bind, Except.bind, div_nat _ _ e1, div_nat _ _ e2]
  apply fMeasure_ok
  · positivity
  · exact div_le_one_of_le₀ (by exact_mod_cast l2) (by positivity)
  · positivity
  · exact div_le_one_of_le₀ (by exact_mod_cast l1) (by positivity)

example : rougeS "abc".toList "acb".toList 5 1 = .ok (2/3) := by decide +kernel

/-- C12f: ROUGE-S raises ZeroDivisionError exactly when a sequence has fewer than two tokens. -/
theorem rouge_s_error (t1 t2 : List α) (limit : Nat) (beta : ℚ) :
    rougeS t1 t2 limit beta = .error .zeroDivision ↔ t1.length < 2 ∨ t2.length < 2 := by
  constructor
  · intro h
    by_contra hcon
    push Not at hcon
    obtain ⟨q, hq, _⟩ := rouge_s_range t1 t2 limit beta hcon.1 hcon.2
    rw [hq] at h; cases h
  · intro h
    unfold rougeS rougeSkipBigram
    by_cases h1 : t1.length < 2
    · simp only [bind, Except.bind, (skip_nil_iff limit t1).2 h1, List.length_nil, div_nat_zero]
    · have h2 : t2.length < 2 := by tauto
      have e1 : (skipBigramSlices limit t1).length ≠ 0 := by
        rw [ne_eq, List.length_eq_zero_iff, skip_nil_iff]; omega
      simp only [bind, Except.bind, div_nat _ _ e1, (skip_nil_iff limit t2).2 h2, List.length_nil,
        div_nat_zero]

/-- C12g: ROUGE-S is symmetric for beta = 1. -/
theorem rouge_s_symm (t1 t2 : List α) (limit : Nat) :
    rougeS t1 t2 limit 1 = rougeS t2 t1 limit 1 := by
  by_cases h : t1.length < 2 ∨ t2.length < 2
  · rw [(rouge_s_error t1 t2 limit 1).2 h, (rouge_s_error t2 t1 limit 1).2 h.symm]
  · push Not at h
    have e1 : (skipBigramSlices limit t1).length ≠ 0 := by
      rw [ne_eq, List.length_eq_zero_iff, skip_nil_iff]; omega
    have e2 : (skipBigramSlices limit t2).length ≠ 0 := by
      rw [ne_eq, List.length_eq_zero_iff, skip_nil_iff]; omega
    unfold rougeS rougeSkipBigram
    simp only [bind, Except.bind, div_nat _ _ e1, div_nat _ _ e2, Finset.inter_comm]
    exact fMeasure_comm _ _

/-- C12h: ROUGE-S of a sequence with itself is 1 when its skip-bigrams are distinct … -/
theorem rouge_s_self (t : List α) (limit : Nat) (beta : ℚ) (h : 2 ≤ t.length)
    (hd : (skipBigramSlices limit t).Nodup) : rougeS t t limit beta = .ok 1 := by
  have e1 : (skipBigramSlices limit t).length ≠ 0 := by
    rw [ne_eq, List.length_eq_zero_iff, skip_nil_iff]; omega
  have hq : ((skipBigramSlices limit t).length : ℚ) / (skipBigramSlices limit t).length = 1 :=
    div_self (by exact_mod_cast e1)
  unfold rougeS rougeSkipBigram
  simp only [Finset.inter_self, List.toFinset_card_of_nodup hd, bind, Except.bind, div_nat _ _ e1, hq,
    fMeasure_one]

example : 2 ≤ "abc".toList.length ∧ (skipBigramSlices 9 "abc".toList).Nodup := by decide

/-- … and in no other case … -/
theorem rouge_s_self_iff (t : List α) (limit : Nat) (beta : ℚ) (h : 2 ≤ t.length) :
    rougeS t t limit beta = .ok 1 ↔ (skipBigramSlices limit t).Nodup := by
  refine ⟨fun h1 => ?_, rouge_s_self t limit beta h⟩
  by_contra hd
  have e1 : (skipBigramSlices limit t).length ≠ 0 := by
    rw [ne_eq, List.length_eq_zero_iff, skip_nil_iff]; omega
  have hn : 0 < ((skipBigramSlices limit t).length : ℚ) := by positivity
  have hlt : (skipBigramSlices limit t).toFinset.card < (skipBigramSlices limit t).length :=
    lt_of_le_of_ne (List.toFinset_card_le _) fun hc => hd (Multiset.coe_nodup.1 (Multiset.toFinset_card_eq_card_iff_nodup.1 hc))
  have hq : ((skipBigramSlices limit t).toFinset.card : ℚ) / (skipBigramSlices limit t).length < 1 := by
    rw [div_lt_one hn]; exact_mod_cast hlt
  unfold rougeS rougeSkipBigram at h1
  simp only [Finset.inter_self, bind, Except.bind, div_nat _ _ e1, fMeasure_value, Except.ok.injEq, Spec.fOf] at h1
  generalize ((skipBigramSlices limit t).toFinset.card : ℚ) / (skipBigramSlices limit t).length = q at h1 hq
  have hb : (0 : ℚ) < beta ^ 2 + 1 := by positivity
  by_cases hq0 : q = 0
  · subst hq0; simp at h1
  · rw [show beta ^ 2 * q + q = (beta ^ 2 + 1) * q by ring,
      mul_div_cancel_left₀ q (mul_ne_zero (ne_of_gt hb) hq0)] at h1
    exact absurd h1 (ne_of_lt hq)

/-- … for instance not here: the numerator counts types and the denominators count tokens. -/
theorem rouge_s_self_not_one : rougeS "aaa".toList "aaa".toList 9 1 = .ok (1 / 3) := by decide +kernel

/-- C12i: ROUGE-SU is in [0,1] and defined whenever both sequences are non-empty; symmetric at
beta = 1. -/
theorem rouge_su_range (t1 t2 : List α) (limit : Nat) (beta : ℚ) (marker : α) (h1 : t1 ≠ [])
    (h2 : t2 ≠ []) : (∃ q, rougeSU t1 t2 limit beta marker = .ok q ∧ 0 ≤ q ∧ q ≤ 1) ∧
      rougeSU t1 t2 limit 1 marker = rougeSU t2 t1 limit 1 marker := by
  refine ⟨rouge_s_range _ _ _ _ ?_ ?_, rouge_s_symm _ _ _⟩
  · have := List.length_pos_iff.2 h1; simp; omega
  · have := List.length_pos_iff.2 h2; simp; omega

/-- C12: ROUGE-L is the F measure of the length of the longest common subsequences relative to the candidate (precision)
and to the reference (recall). -/
theorem rouge_l_value (fuel : Nat) (cand ref : List α) (beta : ℚ) (hf : cand.length + ref.length < fuel)
    (hc : cand ≠ []) (hr : ref ≠ []) {c : List α} (h : IsLcs cand ref c) :
    rougeL fuel cand ref beta = .ok (fOf beta (c.length / cand.length) (c.length / ref.length)) := by
  obtain ⟨d, h1, h2, _⟩ := Lcs.lcs_ok cand ref fuel hf
  have hcd : d.length = c.length := Nat.le_antisymm (h.2 d h2.1) (h2.2 c h.1)
  have hcl : cand.length ≠ 0 := by simpa using hc
  have hrl : ref.length ≠ 0 := by simpa using hr
  unfold rougeL
  simp only [h1, bind, Except.bind, div_nat _ _ hcl, div_nat _ _ hrl, hcd]
  exact fMeasure_value _ _ _

/-- C12: ROUGE-S is the F measure of the number of distinct common skip bigrams relative to the first (recall) and the
second sequence (precision). -/
theorem rouge_s_value (t1 t2 : List α) (limit : Nat) (beta : ℚ) (h1 : 2 ≤ t1.length) (h2 : 2 ≤ t2.length) :
    let b1 := skipBigramSlices limit t1
    let b2 := skipBigramSlices limit t2
    let m := (b1.dedup.filter (· ∈ b2)).length
    rougeS t1 t2 limit beta = .ok (fOf beta ((m : ℚ) / b2.length) ((m : ℚ) / b1.length)) := by
  intro b1 b2 m
  have e1 : (skipBigramSlices limit t1).length ≠ 0 := by
    rw [ne_eq, List.length_eq_zero_iff, skip_nil_iff]; omega
  have e2 : (skipBigramSlices limit t2).length ≠ 0 := by
    rw [ne_eq, List.length_eq_zero_iff, skip_nil_iff]; omega
  have hm : (b1.toFinset ∩ b2.toFinset).card = m := by
    show _ = (b1.dedup.filter (· ∈ b2)).length
    rw [← List.toFinset_card_of_nodup (l := b1.dedup.filter (· ∈ b2)) ((List.nodup_dedup b1).filter _)]
    congr 1
    ext x
    simp
  unfold rougeS rougeSkipBigram
  simp only [bind, Except.bind, div_nat _ _ e1, div_nat _ _ e2]
  rw [show (skipBigramSlices limit t1).toFinset ∩ (skipBigramSlices limit t2).toFinset = b1.toFinset ∩ b2.toFinset from rfl, hm]
  exact fMeasure_value _ _ _

/-- C12: ROUGE-SU counts, besides the skip bigrams, the tokens: but only those within the distance limit of the
beginning, that is the first `limit + 1`.  The marker must be different from any token. -/
theorem rouge_su_value (t1 t2 : List α) (limit : Nat) (beta : ℚ) (marker : α) (h1 : t1 ≠ []) (h2 : t2 ≠ [])
    (hm1 : marker ∉ t1) (hm2 : marker ∉ t2) :
    let b1 := skipBigramSlices limit t1
    let b2 := skipBigramSlices limit t2
    let u1 := t1.take (limit + 1)
    let u2 := t2.take (limit + 1)
    let m := (b1.dedup.filter (· ∈ b2)).length + (u1.dedup.filter (· ∈ u2)).length
    rougeSU t1 t2 limit beta marker = .ok (fOf beta ((m : ℚ) / (b2.length + u2.length : Nat))
      ((m : ℚ) / (b1.length + u1.length : Nat))) := by
  intro b1 b2 u1 u2 m
  have hb : ∀ (t : List α), skipBigramSlices limit (marker :: t) =
      (t.take (limit + 1)).map (fun x => (marker, x)) ++ skipBigramSlices limit t := by
    intro t
    rw [skipBigramSlices]
    congr 2
    simp [slice, Nat.add_comm]
  have hmem : ∀ (t : List α) (p : α × α), p ∈ skipBigramSlices limit t → p.1 ∈ t := by
    intro t
    induction t with
    | nil => intro p hp; simp [skipBigramSlices] at hp
    | cons a t ih =>
      intro p hp
      rw [skipBigramSlices, List.mem_append] at hp
      rcases hp with hp | hp
      · obtain ⟨x, _, rfl⟩ := List.mem_map.1 hp; simp
      · exact List.mem_cons_of_mem _ (ih p hp)
  have hcard : ((skipBigramSlices limit (marker :: t1)).dedup.filter
      (· ∈ skipBigramSlices limit (marker :: t2))).length = m := by
    rw [hb, hb]
    show _ = (b1.dedup.filter (· ∈ b2)).length + (u1.dedup.filter (· ∈ u2)).length
    have hu : (u1.dedup.filter (· ∈ u2)).length =
        ((u1.dedup.filter (· ∈ u2)).map (fun x => (marker, x))).length := by simp
    rw [hu, ← List.length_append]
    refine List.Perm.length_eq ((List.perm_ext_iff_of_nodup ((List.nodup_dedup _).filter _) ?_).2 ?_)
    · rw [List.nodup_append]
      refine ⟨(List.nodup_dedup _).filter _, ((List.nodup_dedup _).filter _).map ?_, ?_⟩
      · intro x y h; simpa using h
      · intro p hp q hq hpq
        subst hpq
        rw [List.mem_filter, List.mem_dedup] at hp
        obtain ⟨x, _, rfl⟩ := List.mem_map.1 hq
        exact hm1 (hmem t1 _ hp.1)
    · intro p
      rw [List.mem_filter, List.mem_dedup, decide_eq_true_eq, List.mem_append, List.mem_append, List.mem_append,
        List.mem_filter, List.mem_dedup, decide_eq_true_eq, List.mem_map, List.mem_map, List.mem_map]
      constructor
      · rintro ⟨⟨x, hx, rfl⟩ | hx, ⟨y, hy, hxy⟩ | hy⟩
        · obtain rfl : y = x := by simpa using hxy
          exact .inr ⟨y, by simp [u1, u2, hx, hy], rfl⟩
        · exact absurd (hmem t2 _ hy) hm2
        · subst hxy; exact absurd (hmem t1 _ hx) hm1
        · exact .inl ⟨hx, hy⟩
      · rintro (⟨hx, hy⟩ | ⟨x, hx, rfl⟩)
        · exact ⟨.inr hx, .inr hy⟩
        · rw [List.mem_filter, List.mem_dedup, decide_eq_true_eq] at hx
          exact ⟨.inl ⟨x, hx.1, rfl⟩, .inl ⟨x, hx.2, rfl⟩⟩
  have hlen : ∀ (t : List α), (skipBigramSlices limit (marker :: t)).length =
      (skipBigramSlices limit t).length + (t.take (limit + 1)).length := by
    intro t; rw [hb]; simp [Nat.add_comm]
  have hv := rouge_s_value (marker :: t1) (marker :: t2) limit beta
    (by have := List.length_pos_iff.2 h1; simp; omega) (by have := List.length_pos_iff.2 h2; simp; omega)
  dsimp only at hv
  rw [hcard, hlen, hlen] at hv
  exact hv

example : rougeSU "abc".toList "abd".toList 0 1 '_' = .ok (2 / 3) ∧ '_' ∉ "abc".toList := by decide +kernel

example : IsLcs "abcd".toList "acx".toList "ac".toList := by
  obtain ⟨c, h1, h2, _⟩ := Lcs.lcs_ok "abcd".toList "acx".toList 9 (by decide)
  have : Lcs.lcs 9 "abcd".toList "acx".toList = .ok "ac".toList := by decide +kernel
  rw [this] at h1
  rw [Except.ok.inj h1]; exact h2

end Verif.Props.Rouge
