import Verif.Lemmas.SmithWaterman

namespace Verif.SW
open Verif Verif.Spec Verif.Align
set_option linter.unusedSectionVars false

variable {α : Type}

theorem GoodM.set {n m : Nat} {t : Matrix} (h : GoodM n m t) {i j : Nat} {c : Cell} (hi : 0 < i)
    (hj : 0 < j) (h0 : 0 ≤ c.1) (hT : 0 < c.1 → c.2 ≠ .T) : GoodM n m (t.set (i, j) c) := by
  intro i' j' hi' hj'
  by_cases he : i' = i ∧ j' = j
  · obtain ⟨rfl, rfl⟩ := he
    exact ⟨c, by simp, h0, fun hp => ⟨hi, hj, hT hp⟩⟩
  · obtain ⟨c', h1, h2⟩ := h i' j' hi' hj'
    refine ⟨c', ?_, h2⟩
    rw [Py.Dict.set_ne]
    · exact h1
    · intro e; simp only [Prod.mk.injEq, Int.natCast_inj] at e; exact he e

section
variable (s t : List α) (sim : α → α → ℚ) (gap : α → ℚ)

theorem maxScore_good (i j : Nat) (m : Matrix) (hm : GoodM s.length t.length m) (hi : i < s.length)
    (hj : j < t.length) :
    ∃ c, maxScore s t sim gap (i + 1) (j + 1) m = .ok c ∧ 0 ≤ c.1 ∧ (0 < c.1 → c.2 ≠ .T) := by
  obtain ⟨a, h1, _⟩ := hm i j (by omega) (by omega)
  obtain ⟨b, h2, _⟩ := hm i (j + 1) (by omega) (by omega)
  obtain ⟨c, h3, _⟩ := hm (i + 1) j (by omega) (by omega)
  refine ⟨_, maxScore_ok s t sim gap i j m hi hj a b c h1 h2 h3, ?_, ?_⟩
  · rw [cmax_fst]; exact le_max_right _ _
  · rcases cmax_cases (cmax (cmax (b.1 + gap s[i], .U) (a.1 + sim s[i] t[j], .D))
      (c.1 + gap t[j], .L)) (0, .T) with e | e
    · rw [e]
      rcases cmax_cases (cmax (b.1 + gap s[i], .U) (a.1 + sim s[i] t[j], .D))
        (c.1 + gap t[j], .L) with e | e
      · rw [e]
        rcases cmax_cases (b.1 + gap s[i], Dir.U) (a.1 + sim s[i] t[j], .D) with e | e <;>
          rw [e] <;> simp
      · rw [e]; simp
    · rw [e]; simp

theorem recalcCol_good (j : Nat) (hj : j < t.length) (cnt : Nat) : ∀ (k : Nat) (m : Matrix),
    GoodM s.length t.length m → k + cnt = s.length →
    ∃ m', recalcCol s t sim gap (j + 1) cnt (k + 1) m = .ok m' ∧ GoodM s.length t.length m' := by
  induction cnt with
  | zero => intro k m hm _; exact ⟨m, rfl, hm⟩
  | succ cnt ih =>
    intro k m hm hk
    obtain ⟨c, h1, h2, h3⟩ := maxScore_good s t sim gap k j m hm (by omega) hj
    obtain ⟨old, ho, _⟩ := hm (k + 1) (j + 1) (by omega) (by omega)
    simp only [recalcCol, h1, bind, Except.bind, Py.Dict.get_eq ho]
    split
    · exact ⟨m, rfl, hm⟩
    · exact ih (k + 1) _ (hm.set (by omega) (by omega) h2 h3) (by omega)

theorem recalcRow_good (i : Nat) (hi : i < s.length) (cnt : Nat) : ∀ (l : Nat) (m : Matrix),
    GoodM s.length t.length m → l + cnt = t.length →
    ∃ m', recalcRow s t sim gap (i + 1) cnt (l + 1) m = .ok m' ∧ GoodM s.length t.length m' := by
  induction cnt with
  | zero => intro k m hm _; exact ⟨m, rfl, hm⟩
  | succ cnt ih =>
    intro l m hm hl
    obtain ⟨c, h1, h2, h3⟩ := maxScore_good s t sim gap i l m hm hi (by omega)
    obtain ⟨old, ho, _⟩ := hm (i + 1) (l + 1) (by omega) (by omega)
    simp only [recalcRow, h1, bind, Except.bind, Py.Dict.get_eq ho]
    split
    · exact ⟨m, rfl, hm⟩
    · exact ih (l + 1) _ (hm.set (by omega) (by omega) h2 h3) (by omega)

theorem recalculate_good (A : List (Nat × Nat)) (hW : Within A 0 s.length 0 t.length) (m : Matrix)
    (hm : GoodM s.length t.length m) :
    ∃ m', recalculate s t sim gap (emb A) m = .ok m' ∧ GoodM s.length t.length m' := by
  unfold recalculate
  induction A generalizing m with
  | nil => exact ⟨m, rfl, hm⟩
  | cons p A ih =>
    have hp := hW p (by simp)
    obtain ⟨m1, h1, h2⟩ := recalcCol_good s t sim gap p.2 hp.2.2.2 (s.length - (p.1 + 1)) (p.1 + 1)
      (m.set (((p.1 + 1 : Nat) : Int), ((p.2 + 1 : Nat) : Int)) (0, .T))
      (hm.set (by omega) (by omega) (le_refl _) (by simp)) (by omega)
    obtain ⟨m2, h3, h4⟩ := recalcRow_good s t sim gap p.1 hp.2.1 (t.length - (p.2 + 1)) (p.2 + 1)
      m1 h2 (by omega)
    obtain ⟨m3, h5, h6⟩ := ih (fun q hq => hW q (by simp [hq])) m2 h4
    refine ⟨m3, ?_, h6⟩
    have : recalcPair s t sim gap ((p.1 : Int), (p.2 : Int)) m = .ok m2 := by
      simp only [recalcPair, Int.toNat_natCast, bind, Except.bind, h1, h3]
    simp only [emb, List.map_cons, Py.forIn, this]
    exact h5

theorem bestStep_fold (l : List ((Int × Int) × Cell)) (b0 : ℚ × (Int × Int)) :
    (l.foldl bestStep b0 = b0 ∨ ∃ e ∈ l, l.foldl bestStep b0 = (e.2.1, e.1)) ∧
    b0.1 ≤ (l.foldl bestStep b0).1 ∧ ∀ e ∈ l, e.2.1 ≤ (l.foldl bestStep b0).1 := by
  induction l generalizing b0 with
  | nil => simp
  | cons e es ih =>
    simp only [List.foldl_cons]
    obtain ⟨h1, h2, h3⟩ := ih (bestStep b0 e)
    have hs : bestStep b0 e = b0 ∨ bestStep b0 e = (e.2.1, e.1) := by
      unfold bestStep; split
      · simp
      · split
        · simp
        · split <;> simp
    have hb : b0.1 ≤ (bestStep b0 e).1 ∧ e.2.1 ≤ (bestStep b0 e).1 := by
      unfold bestStep; split
      · rename_i h; exact ⟨le_refl _, le_of_lt h⟩
      · rename_i h0
        split
        · rename_i h; exact ⟨le_refl _, le_of_eq h.1⟩
        · split
          · rename_i h; exact ⟨le_refl _, le_of_eq h.1⟩
          · exact ⟨not_lt.1 h0, le_refl _⟩
    refine ⟨?_, le_trans hb.1 h2, ?_⟩
    · rcases h1 with h1 | ⟨x, hx, h1⟩
      · rw [h1]
        rcases hs with h | h
        · exact Or.inl h
        · exact Or.inr ⟨e, by simp, h⟩
      · exact Or.inr ⟨x, by simp [hx], h1⟩
    · intro x hx
      rcases List.mem_cons.1 hx with rfl | hx
      · exact le_trans hb.2 h2
      · exact h3 x hx

theorem findBestScore_spec (n m : Nat) (M : Matrix) :
    (∀ i j : Nat, i ≤ n → j ≤ m → ∀ c, M (i, j) = some c → c.1 ≤ (findBestScore n m M).1) ∧
    0 ≤ (findBestScore n m M).1 ∧
    ((findBestScore n m M).1 ≠ 0 → ∃ (i j : Nat) (c : Cell), i ≤ n ∧ j ≤ m ∧ M (i, j) = some c ∧
      findBestScore n m M = (c.1, ((i : Int), (j : Int)))) := by
  obtain ⟨h1, h2, h3⟩ := bestStep_fold (items n m M) (0, ((n : Int) + 2, (m : Int) + 2))
  refine ⟨?_, h2, ?_⟩
  · intro i j hi hj c hc
    exact h3 ((i, j), c) ((mem_items _ _ _ _ _).2 ⟨i, j, hi, hj, rfl, hc⟩)
  · intro hne
    unfold findBestScore at *
    rcases h1 with h1 | ⟨⟨k, c⟩, he, h1⟩
    · rw [h1] at hne; simp at hne
    · obtain ⟨i, j, hi, hj, rfl, hc⟩ := (mem_items _ _ _ _ _).1 he
      exact ⟨i, j, c, hi, hj, hc, h1⟩

/-- Main-loop invariant. -/
def WInv (st : WEState) : Prop :=
  GoodM s.length t.length st.t ∧ ∃ L : List (List (Nat × Nat)), st.all = L.map emb ∧
    ∀ A ∈ L, Increasing A ∧ Within A 0 s.length 0 t.length

theorem weBody_ok (tfuel : Nat) (hf : s.length + t.length < tfuel) (st : WEState)
    (h : WInv s t st) :
    (∃ st', weBody tfuel s t sim gap st = .ok st' ∧ WInv s t st') ∧
    ∀ st', weBody tfuel s t sim gap st = .ok st' →
      (st' = { st with stop := true }) ∨
      (∃ al, st'.all = st.all ++ [al] ∧ st'.stop = false) := by
  obtain ⟨hg, L, hL, hv⟩ := h
  obtain ⟨_, _, h3⟩ := findBestScore_spec s.length t.length st.t
  unfold weBody
  by_cases hz : (findBestScore s.length t.length st.t).1 = 0
  · simp only [hz, if_true]
    exact ⟨⟨_, rfl, hg, L, hL, hv⟩, fun st' h => by simp at h; exact Or.inl h.symm⟩
  · obtain ⟨i, j, c, hi, hj, hc, he⟩ := h3 hz
    simp only [hz, if_false]
    obtain ⟨a, c', A, e1, ha, hc', hI, hW, -, -⟩ := trace_general s.length t.length st.t hg i j hi hj
      (fun _ _ _ => True) trivial (by intros; trivial) (by intros; trivial) (by intros; trivial)
      tfuel (by omega)
    have hW' : Within A 0 s.length 0 t.length := by intro p hp; have := hW p hp; omega
    obtain ⟨m', e2, hg'⟩ := recalculate_good s t sim gap A hW' st.t hg
    simp only [he, e1, e2, bind, Except.bind]
    refine ⟨⟨_, rfl, hg', L ++ [A], by simp [hL], ?_⟩, ?_⟩
    · intro B hB
      rcases List.mem_append.1 hB with hB | hB
      · exact hv B hB
      · simp at hB; subst hB; exact ⟨hI, hW'⟩
    · intro st' h
      simp at h
      subst h
      exact Or.inr ⟨_, rfl, rfl⟩

theorem we_limit_ok (limit : Nat) (hl : 0 < limit) (fuel tfuel : Nat)
    (hf : limit + 1 < fuel) (htf : s.length + t.length < tfuel) :
    ∃ L : List (List (Nat × Nat)), watermanEggert fuel tfuel s t sim gap limit = .ok (L.map emb) ∧
      L.length ≤ limit ∧ ∀ A ∈ L, Increasing A ∧ Within A 0 s.length 0 t.length := by
  obtain ⟨m, e1, hm⟩ := matrix_ok s t sim gap
  obtain ⟨st, e2, ⟨hg, L, hL, hv⟩, hlen⟩ := Py.whileLoop_inv (cond := weCond limit)
    (body := weBody tfuel s t sim gap)
    (fun st => WInv s t st ∧ st.all.length ≤ limit)
    (fun st => if st.stop then 0 else limit + 1 - st.all.length)
    (fun st => WInv s t st ∧ st.all.length ≤ limit)
    (by
      rintro st ⟨hw, hlen⟩
      by_cases hc : st.stop = true ∨ ¬ st.all.length < limit
      · left
        refine ⟨?_, hw, hlen⟩
        have : limit ≠ 0 := by omega
        rcases hc with hc | hc <;> simp [weCond, hc, this]
      · right
        push Not at hc
        obtain ⟨hc1, hc2⟩ := hc
        have hc1 : st.stop = false := by simpa using hc1
        refine ⟨by simp [weCond, hc1, hc2], ?_⟩
        obtain ⟨⟨st', e, hw'⟩, hcase⟩ := weBody_ok s t sim gap tfuel htf st hw
        refine ⟨st', e, ⟨hw', ?_⟩, ?_⟩
        · rcases hcase st' e with h | ⟨al, h, _⟩
          · rw [h]; exact hlen
          · rw [h]; simp; omega
        · rcases hcase st' e with h | ⟨al, h, h'⟩
          · rw [h]; simp [hc1]; omega
          · rw [h, h']; simp [hc1]; omega)
    fuel { t := m, all := [], stop := false }
    ⟨⟨F_good s t sim gap m hm, [], by simp, by simp⟩, by simp⟩
    (by simp; omega)
  refine ⟨L, ?_, ?_, hv⟩
  · simp only [watermanEggert, e1, bind, Except.bind, e2, hL]
  · simpa [hL] using hlen

theorem we_partial_ok (limit fuel tfuel : Nat) (htf : s.length + t.length < tfuel)
    (res : List (List (Int × Int))) (h : watermanEggert fuel tfuel s t sim gap limit = .ok res) :
    ∃ L : List (List (Nat × Nat)), res = L.map emb ∧
      ∀ A ∈ L, Increasing A ∧ Within A 0 s.length 0 t.length := by
  obtain ⟨m, e1, hm⟩ := matrix_ok s t sim gap
  simp only [watermanEggert, e1, bind, Except.bind] at h
  split at h
  · simp at h
  · rename_i st hst
    simp at h
    obtain ⟨⟨hg, L, hL, hv⟩, _⟩ := Py.whileLoop_partial (WInv s t)
      (by
        intro st st' hw _ hb
        obtain ⟨⟨st2, e, hw'⟩, _⟩ := weBody_ok s t sim gap tfuel htf st hw
        rw [e] at hb; simp at hb; subst hb; exact hw')
      fuel _ st ⟨F_good s t sim gap m hm, [], by simp, by simp⟩ hst
    exact ⟨L, by rw [← h, hL], hv⟩

theorem we_first (hgap : ∀ x, gap x ≤ 0) (limit fuel tfuel : Nat)
    (htf : s.length + t.length < tfuel)
    (res : List (List (Int × Int))) (h : watermanEggert fuel tfuel s t sim gap limit = .ok res) :
    (res = [] ∧ ∀ A a b c d, IsAlignment s t A a b c d → alignScore sim gap s t A a b c d ≤ 0) ∨
    (∃ (A : List (Nat × Nat)) (a b c d : Nat) (rest : List (List (Int × Int))),
      res = emb A :: rest ∧ IsAlignment s t A a b c d ∧ 0 < alignScore sim gap s t A a b c d ∧
      ∀ A' a' b' c' d', IsAlignment s t A' a' b' c' d' →
        alignScore sim gap s t A' a' b' c' d' ≤ alignScore sim gap s t A a b c d) := by
  obtain ⟨m, e1, hm⟩ := matrix_ok s t sim gap
  have hg := F_good s t sim gap m hm
  simp only [watermanEggert, e1, bind, Except.bind] at h
  split at h
  · simp at h
  rename_i st hst
  simp at h
  rcases fuel with _ | fuel
  · simp [Py.whileLoop] at hst
  have hc : weCond limit { t := m, all := [], stop := false } = .ok true := by
    simp [weCond]; omega
  simp only [Py.whileLoop, hc] at hst
  obtain ⟨h1, h2, h3⟩ := findBestScore_spec s.length t.length m
  by_cases hz : (findBestScore s.length t.length m).1 = 0
  · left
    simp only [weBody, hz, if_true] at hst
    rcases fuel with _ | fuel
    · simp [Py.whileLoop] at hst
    · simp [Py.whileLoop, weCond] at hst
      subst hst
      refine ⟨h.symm, ?_⟩
      intro A a b c d hA
      have := F_upper s t sim gap hgap b d A a c hA
      have := h1 b d hA.hbs hA.hdt _ (hm b d hA.hbs hA.hdt)
      linarith
  · right
    obtain ⟨i, j, cell, hi, hj, hcell, he⟩ := h3 hz
    obtain ⟨a, c, A, t1, t2, t3⟩ := trace_fresh s t sim gap m hm i j hi hj tfuel (by omega)
    have hW' : Within A 0 s.length 0 t.length := by
      intro p hp; have := t2.within p hp; have := t2.hbs; have := t2.hdt; omega
    obtain ⟨m', e2, hg'⟩ := recalculate_good s t sim gap A hW' m hg
    have hcF : cell = F s t sim gap i j := by
      have := hm i j hi hj
      rw [hcell] at this; simpa using this
    have hz' : cell.1 ≠ 0 := by rw [he] at hz; exact hz
    simp only [weBody, he, hz', if_false, t1, bind, Except.bind, e2] at hst
    obtain ⟨⟨rest, hrest⟩, _⟩ := Py.whileLoop_partial
      (cond := weCond limit) (body := weBody tfuel s t sim gap)
      (fun st : WEState => GoodM s.length t.length st.t ∧ ∃ rest, st.all = emb A :: rest)
      (by
        rintro st st' ⟨hgs, rest, hr⟩ _ hb
        unfold weBody at hb
        obtain ⟨_, _, h3⟩ := findBestScore_spec s.length t.length st.t
        by_cases hz : (findBestScore s.length t.length st.t).1 = 0
        · simp only [hz, if_true] at hb
          simp at hb; subst hb; exact ⟨hgs, rest, hr⟩
        · obtain ⟨i, j, c, hi, hj, hc, he⟩ := h3 hz
          simp only [hz, if_false] at hb
          obtain ⟨a, c', B, e1, ha, hc', hI, hW, -, -⟩ := trace_general s.length t.length st.t hgs
            i j hi hj (fun _ _ _ => True) trivial (by intros; trivial) (by intros; trivial)
            (by intros; trivial) tfuel (by omega)
          have hW' : Within B 0 s.length 0 t.length := by intro p hp; have := hW p hp; omega
          obtain ⟨m', e2, hg'⟩ := recalculate_good s t sim gap B hW' st.t hgs
          simp only [he, e1, e2, bind, Except.bind] at hb
          simp at hb; subst hb
          exact ⟨hg', rest ++ [emb B], by simp [hr]⟩)
      fuel _ st ⟨hg', [], by simp⟩ hst |>.imp And.right id
    refine ⟨A, a, i, c, j, rest, by rw [← h, hrest], t2, ?_, ?_⟩
    · rw [t3, ← hcF]
      have : (findBestScore s.length t.length m).1 = cell.1 := by rw [he]
      rw [this] at h2 hz
      exact lt_of_le_of_ne h2 (Ne.symm hz)
    · intro A' a' b' c' d' hA'
      have q1 := F_upper s t sim gap hgap b' d' A' a' c' hA'
      have q2 := h1 b' d' hA'.hbs hA'.hdt _ (hm b' d' hA'.hbs hA'.hdt)
      rw [he] at q2
      rw [t3, ← hcF]
      simp only at q2
      linarith

/-- A smaller limit gives a prefix of the result. -/
theorem we_loop_take (tfuel limit limit' : Nat) (hl : 0 < limit) (hl' : limit' = 0 ∨ limit ≤ limit')
    (fuel : Nat) : ∀ st st' : WEState, st.all.length ≤ limit →
    Py.whileLoop (weCond limit') (weBody tfuel s t sim gap) fuel st = .ok st' →
    ∃ st2, Py.whileLoop (weCond limit) (weBody tfuel s t sim gap) fuel st = .ok st2 ∧
      st2.all = st'.all.take limit ∧ ∃ r, st'.all = st.all ++ r := by
  induction fuel with
  | zero => intro st st' _ h; simp [Py.whileLoop] at h
  | succ fuel ih =>
    intro st st' hlen h
    by_cases hstop : st.stop = true
    · simp [Py.whileLoop, weCond, hstop] at h
      subst h
      exact ⟨st, by simp [Py.whileLoop, weCond, hstop], (List.take_of_length_le hlen).symm, [], by simp⟩
    have hstop : st.stop = false := by simpa using hstop
    by_cases hlt' : limit' = 0 ∨ st.all.length < limit'
    · have hc' : weCond limit' st = .ok true := by
        simp [weCond, hstop]; exact hlt'
      simp only [Py.whileLoop, hc'] at h
      split at h
      · simp at h
      rename_i st1 hb
      have hcase : (st1.all = st.all ∨ ∃ al, st1.all = st.all ++ [al]) := by
        unfold weBody at hb
        simp only at hb
        split at hb
        · simp at hb; subst hb; exact Or.inl rfl
        · simp only [bind, Except.bind] at hb
          split at hb
          · simp at hb
          split at hb
          · simp at hb
          simp at hb; subst hb; exact Or.inr ⟨_, rfl⟩
      by_cases hlt : st.all.length < limit
      · have hc : weCond limit st = .ok true := by
          simp [weCond, hstop, hlt]
        simp only [Py.whileLoop, hc, hb]
        obtain ⟨st2, g1, g2, r, g3⟩ := ih st1 st' 
          (by rcases hcase with h | ⟨al, h⟩ <;> rw [h] <;> (try rw [List.length_append, List.length_singleton]) <;> omega) h
        refine ⟨st2, g1, g2, ?_⟩
        rcases hcase with h | ⟨al, h⟩
        · exact ⟨r, by rw [g3, h]⟩
        · exact ⟨al :: r, by rw [g3, h]; simp⟩
      · have hc : weCond limit st = .ok false := by
          have : limit ≠ 0 := by omega
          simp [weCond, hlt, this]
        have hr : ∃ r, st'.all = st1.all ++ r := by
          obtain ⟨hP, _⟩ := Py.whileLoop_partial (cond := weCond limit')
            (body := weBody tfuel s t sim gap) (fun x : WEState => ∃ r, x.all = st1.all ++ r)
            (by
              rintro x x' ⟨r, hr⟩ _ hb
              unfold weBody at hb
              simp only at hb
              split at hb
              · simp at hb; subst hb; exact ⟨r, hr⟩
              · simp only [bind, Except.bind] at hb
                split at hb
                · simp at hb
                split at hb
                · simp at hb
                rename_i al _ _ _ _
                simp at hb; subst hb; exact ⟨r ++ [al], by simp [hr]⟩)
            fuel st1 st' ⟨[], by simp⟩ h
          exact hP
        obtain ⟨r, hr⟩ := hr
        have hl2 : st.all.length = limit := by omega
        obtain ⟨r', hr'⟩ : ∃ r', st'.all = st.all ++ r' := by
          rcases hcase with h | ⟨al, h⟩
          · exact ⟨r, by rw [hr, h]⟩
          · exact ⟨al :: r, by rw [hr, h]; simp⟩
        refine ⟨st, by simp [Py.whileLoop, hc], ?_, r', hr'⟩
        rw [hr', List.take_append_of_le_length (by omega), List.take_of_length_le (by omega)]
    · push Not at hlt'
      have hc' : weCond limit' st = .ok false := by
        have := hlt'.1; have := hlt'.2
        simp [weCond]; omega
      simp [Py.whileLoop, hc'] at h
      subst h
      have hc : weCond limit st = .ok false := by
        have := hlt'.1; have := hlt'.2
        simp [weCond]; omega
      exact ⟨st, by simp [Py.whileLoop, hc], (List.take_of_length_le hlen).symm, [], by simp⟩

/-- A round that finds an empty alignment repeats for ever. -/
theorem we_stuck (tfuel : Nat) (m : Matrix) (h0 : (findBestScore s.length t.length m).1 ≠ 0)
    (h1 : traceAlignment tfuel m (findBestScore s.length t.length m).2 = .ok []) (fuel : Nat) :
    ∀ all scores, Py.whileLoop (weCond 0) (weBody tfuel s t sim gap) fuel
      { t := m, all := all, stop := false, scores := scores } = .error .fuel := by
  induction fuel with
  | zero => intro all scores; rfl
  | succ fuel ih =>
    intro all scores
    simp [Py.whileLoop, weCond, weBody, h0, h1, bind, Except.bind, recalculate, Py.forIn]
    exact ih _ _

/-- After `k` more rounds the loop is stuck. -/
def stuckAfter (tfuel : Nat) : Nat → WEState → Bool
  | 0, st => !st.stop && decide ((findBestScore s.length t.length st.t).1 ≠ 0) &&
      decide (traceAlignment tfuel st.t (findBestScore s.length t.length st.t).2 = .ok [])
  | k + 1, st => !st.stop && match weBody tfuel s t sim gap st with
    | .ok st' => stuckAfter tfuel k st'
    | .error _ => false

theorem stuckAfter_diverges (tfuel k : Nat) : ∀ (st : WEState),
    stuckAfter s t sim gap tfuel k st = true → ∀ fuel,
    Py.whileLoop (weCond 0) (weBody tfuel s t sim gap) fuel st = .error .fuel := by
  induction k with
  | zero =>
    intro st h fuel
    obtain ⟨m, all, stop, scores⟩ := st
    simp only [stuckAfter, Bool.and_eq_true, Bool.not_eq_true', decide_eq_true_eq] at h
    obtain ⟨⟨h1, h2⟩, h3⟩ := h
    subst h1
    exact we_stuck s t sim gap tfuel m h2 h3 fuel all scores
  | succ k ih =>
    intro st h fuel
    simp only [stuckAfter, Bool.and_eq_true, Bool.not_eq_true'] at h
    obtain ⟨h1, h2⟩ := h
    rcases fuel with _ | fuel
    · rfl
    · cases hb : weBody tfuel s t sim gap st with
      | error e => rw [hb] at h2; simp at h2
      | ok st' =>
        rw [hb] at h2
        simp [Py.whileLoop, weCond, h1, hb, ih st' h2 fuel]

theorem recalcCol_frame (j : Nat) (cnt : Nat) : ∀ (k : Nat) (m m' : Matrix),
    recalcCol s t sim gap j cnt k m = .ok m' → ∀ x : Int × Int, x.2 ≠ j ∨ x.1 < k → m' x = m x := by
  induction cnt with
  | zero => intro k m m' h x _; simp [recalcCol] at h; rw [h]
  | succ cnt ih =>
    intro k m m' h x hx
    simp only [recalcCol, bind, Except.bind] at h
    split at h
    · simp at h
    split at h
    · simp at h
    split at h
    · simp at h; rw [h]
    · rw [ih (k + 1) _ m' h x (by push_cast; omega), Py.Dict.set_ne]
      rintro rfl
      simp at hx

theorem recalcRow_frame (i : Nat) (cnt : Nat) : ∀ (l : Nat) (m m' : Matrix),
    recalcRow s t sim gap i cnt l m = .ok m' → ∀ x : Int × Int, x.1 ≠ i ∨ x.2 < l → m' x = m x := by
  induction cnt with
  | zero => intro k m m' h x _; simp [recalcRow] at h; rw [h]
  | succ cnt ih =>
    intro k m m' h x hx
    simp only [recalcRow, bind, Except.bind] at h
    split at h
    · simp at h
    split at h
    · simp at h
    split at h
    · simp at h; rw [h]
    · rw [ih (k + 1) _ m' h x (by push_cast; omega), Py.Dict.set_ne]
      rintro rfl
      simp at hx

theorem recalcPair_frame (p : Nat × Nat) (m m' : Matrix)
    (h : recalcPair s t sim gap ((p.1 : Int), (p.2 : Int)) m = .ok m') :
    m' (((p.1 + 1 : Nat) : Int), ((p.2 + 1 : Nat) : Int)) = some (0, .T) ∧
    ∀ q : Nat × Nat, q.1 ≠ p.1 → q.2 ≠ p.2 →
      m' (((q.1 + 1 : Nat) : Int), ((q.2 + 1 : Nat) : Int)) =
        m (((q.1 + 1 : Nat) : Int), ((q.2 + 1 : Nat) : Int)) := by
  simp only [recalcPair, Int.toNat_natCast, bind, Except.bind] at h
  split at h
  · simp at h
  rename_i m1 h1
  constructor
  · rw [recalcRow_frame s t sim gap _ _ _ _ _ h _ (Or.inr (by push_cast; omega)),
      recalcCol_frame s t sim gap _ _ _ _ _ h1 _ (Or.inr (by push_cast; omega))]
    simp
  · intro q h3 h4
    rw [recalcRow_frame s t sim gap _ _ _ _ _ h _ (Or.inl (by push_cast; omega)),
      recalcCol_frame s t sim gap _ _ _ _ _ h1 _ (Or.inl (by push_cast; omega)), Py.Dict.set_ne]
    intro e
    simp only [Prod.mk.injEq, Int.natCast_inj] at e
    omega

theorem recalculate_frame (A : List (Nat × Nat)) : ∀ (m m' : Matrix) (B : List (Nat × Nat)),
    Increasing (B ++ A) →
    (∀ q ∈ B, m (((q.1 + 1 : Nat) : Int), ((q.2 + 1 : Nat) : Int)) = some (0, .T)) →
    recalculate s t sim gap (emb A) m = .ok m' →
    ∀ q ∈ B ++ A, m' (((q.1 + 1 : Nat) : Int), ((q.2 + 1 : Nat) : Int)) = some (0, .T) := by
  induction A with
  | nil =>
    intro m m' B _ hB h q hq
    simp [recalculate, emb, Py.forIn] at h
    subst h
    exact hB q (by simpa using hq)
  | cons p A ih =>
    intro m m' B hI hB h q hq
    simp only [recalculate, emb, List.map_cons, Py.forIn] at h
    split at h
    · rename_i m1 h1
      obtain ⟨f1, f2⟩ := recalcPair_frame s t sim gap p m m1 h1
      refine ih m1 m' (B ++ [p]) (by simpa using hI) ?_ h q (by simpa using hq)
      intro r hr
      rcases List.mem_append.1 hr with hr | hr
      · unfold Increasing at hI
        rw [List.pairwise_append] at hI
        have := hI.2.2 r hr p (by simp)
        rw [f2 r (by omega) (by omega)]
        exact hB r hr
      · simp at hr; subst hr; exact f1
    · simp at h

/-- Main-loop invariant for disjointness of consecutive alignments. -/
def DInv (st : WEState) : Prop :=
  GoodM s.length t.length st.t ∧ ∃ L : List (List (Nat × Nat)), st.all = L.map emb ∧
    L.IsChain (fun A B => ∀ p ∈ A, p ∉ B) ∧
    ∀ A, L.getLast? = some A → ∀ q ∈ A,
      st.t (((q.1 + 1 : Nat) : Int), ((q.2 + 1 : Nat) : Int)) = some (0, .T)

theorem weBody_disjoint (tfuel : Nat) (hf : s.length + t.length < tfuel) (st st' : WEState)
    (h : DInv s t st) (hb : weBody tfuel s t sim gap st = .ok st') : DInv s t st' := by
  obtain ⟨hg, L, hL, hv, hlast⟩ := h
  obtain ⟨_, _, h3⟩ := findBestScore_spec s.length t.length st.t
  unfold weBody at hb
  by_cases hz : (findBestScore s.length t.length st.t).1 = 0
  · simp only [hz, if_true] at hb
    simp at hb; subst hb
    exact ⟨hg, L, hL, hv, hlast⟩
  · obtain ⟨i, j, c, hi, hj, hc, he⟩ := h3 hz
    simp only [hz, if_false] at hb
    obtain ⟨a, c', A, e1, ha, hc', hI, hW, hR, -⟩ := trace_general s.length t.length st.t hg i j hi hj
      (fun _ _ A => ∀ p ∈ A, ∃ c : Cell, st.t (((p.1 + 1 : Nat) : Int), ((p.2 + 1 : Nat) : Int)) = some c ∧
        0 < c.1) (by simp) (by intros _ _ _ _ _ _ _ _ _ _ h; exact h)
      (by intros _ _ _ _ _ _ _ _ _ _ h; exact h)
      (by
        intro i j A c _ _ hc _ hp _ hR p hp'
        rcases List.mem_cons.1 hp' with rfl | hp'
        · exact ⟨c, hc, hp⟩
        · exact hR p hp')
      tfuel (by omega)
    have hW' : Within A 0 s.length 0 t.length := by intro p hp; have := hW p hp; omega
    obtain ⟨m', e2, hg'⟩ := recalculate_good s t sim gap A hW' st.t hg
    simp only [he, e1, e2, bind, Except.bind] at hb
    simp at hb; subst hb
    refine ⟨hg', L ++ [A], by simp [hL], ?_, ?_⟩
    · rw [List.isChain_append]
      refine ⟨hv, by simp, ?_⟩
      intro B hB C hC p hp hpC
      simp at hC; subst hC
      have q1 := hlast B hB p hp
      obtain ⟨c, q2, q3⟩ := hR p hpC
      rw [q1] at q2; simp at q2; subst q2; simp at q3
    · intro B hB
      simp at hB; subst hB
      intro q hq
      exact recalculate_frame s t sim gap A st.t m' [] (by simpa using hI) (by simp) e2 q (by simpa using hq)

theorem we_consecutive (limit fuel tfuel : Nat) (htf : s.length + t.length < tfuel)
    (res : List (List (Int × Int))) (h : watermanEggert fuel tfuel s t sim gap limit = .ok res) :
    ∃ L : List (List (Nat × Nat)), res = L.map emb ∧ L.IsChain (fun A B => ∀ p ∈ A, p ∉ B) := by
  obtain ⟨m, e1, hm⟩ := matrix_ok s t sim gap
  simp only [watermanEggert, e1, bind, Except.bind] at h
  split at h
  · simp at h
  · rename_i st hst
    simp at h
    obtain ⟨⟨hg, L, hL, hv, _⟩, _⟩ := Py.whileLoop_partial (DInv s t)
      (fun st st' hw _ hb => weBody_disjoint s t sim gap tfuel htf st st' hw hb)
      fuel _ st ⟨F_good s t sim gap m hm, [], by simp, by simp, by simp⟩ hst
    exact ⟨L, by rw [← h, hL], hv⟩

/-- A matrix and the alignment that was read off it. -/
def Round (n m : Nat) (z : Matrix × List (Nat × Nat)) : Prop :=
  (∀ i j : Nat, i ≤ n → j ≤ m → ∃ c, z.1 (i, j) = some c ∧ 0 ≤ c.1) ∧ Increasing z.2 ∧
  ∃ (b d : Nat) (c : Cell), 0 < b ∧ b ≤ n ∧ 0 < d ∧ d ≤ m ∧ z.1 (b, d) = some c ∧ 0 < c.1 ∧
    (∀ i j : Nat, i ≤ n → j ≤ m → ∀ e, z.1 (i, j) = some e → e.1 ≤ c.1) ∧
    ∀ p ∈ z.2, p.1 < b ∧ p.2 < d ∧ ∃ e : Cell, z.1 (((p.1 + 1 : Nat) : Int), ((p.2 + 1 : Nat) : Int)) = some e ∧
      e.2 = .D ∧ 0 < e.1

/-- Main-loop invariant for the copies of the matrix. -/
def SInv (m0 : Matrix) (st : WEState) : Prop :=
  GoodM s.length t.length st.t ∧ ∃ Z : List (Matrix × List (Nat × Nat)),
    st.scores = Z.map Prod.fst ∧ st.all = Z.map (fun z => emb z.2) ∧ (∀ z ∈ Z, Round s.length t.length z) ∧
    (Z = [] → st.t = m0) ∧ (∀ z, Z.head? = some z → z.1 = m0) ∧
    Z.IsChain (fun x y => ∀ q ∈ x.2, y.1 (((q.1 + 1 : Nat) : Int), ((q.2 + 1 : Nat) : Int)) = some (0, .T)) ∧
    ∀ z, Z.getLast? = some z → ∀ q ∈ z.2,
      st.t (((q.1 + 1 : Nat) : Int), ((q.2 + 1 : Nat) : Int)) = some (0, .T)

theorem weBody_scores (m0 : Matrix) (tfuel : Nat) (hf : s.length + t.length < tfuel) (st st' : WEState)
    (h : SInv s t m0 st) (hb : weBody tfuel s t sim gap st = .ok st') : SInv s t m0 st' := by
  obtain ⟨hg, Z, hS, hA, hZ, h0, hh, hch, hlast⟩ := h
  obtain ⟨hmax, hnn, h3⟩ := findBestScore_spec s.length t.length st.t
  unfold weBody at hb
  by_cases hz : (findBestScore s.length t.length st.t).1 = 0
  · simp only [hz, if_true] at hb
    simp at hb; subst hb
    exact ⟨hg, Z, hS, hA, hZ, h0, hh, hch, hlast⟩
  · obtain ⟨i, j, c, hi, hj, hc, he⟩ := h3 hz
    simp only [hz, if_false] at hb
    obtain ⟨a, c', A, e1, ha, hc', hI, hW, hR, -⟩ := trace_general s.length t.length st.t hg i j hi hj
      (fun _ _ A => ∀ p ∈ A, ∃ c : Cell, st.t (((p.1 + 1 : Nat) : Int), ((p.2 + 1 : Nat) : Int)) = some c ∧
        c.2 = .D ∧ 0 < c.1) (by simp) (by intros _ _ _ _ _ _ _ _ _ _ h; exact h)
      (by intros _ _ _ _ _ _ _ _ _ _ h; exact h)
      (by
        intro i j A c _ _ hc hd hp _ hR p hp'
        rcases List.mem_cons.1 hp' with rfl | hp'
        · exact ⟨c, hc, hd, hp⟩
        · exact hR p hp')
      tfuel (by omega)
    have hW' : Within A 0 s.length 0 t.length := by intro p hp; have := hW p hp; omega
    obtain ⟨m', e2, hg'⟩ := recalculate_good s t sim gap A hW' st.t hg
    simp only [he, e1, e2, bind, Except.bind] at hb
    simp at hb; subst hb
    rw [he] at hz hnn hmax
    have hround : Round s.length t.length (st.t, A) := by
      have hpos : 0 < c.1 := lt_of_le_of_ne hnn (Ne.symm hz)
      obtain ⟨c2, hc2, -, hc3⟩ := hg i j hi hj
      rw [hc] at hc2
      obtain rfl := Option.some.inj hc2
      refine ⟨fun i j hi hj => ?_, hI, i, j, c, (hc3 hpos).1, hi, (hc3 hpos).2.1, hj, hc, hpos, hmax, ?_⟩
      · obtain ⟨x, hx, hx0, -⟩ := hg i j hi hj
        exact ⟨x, hx, hx0⟩
      · intro p hp
        have := hW p hp
        exact ⟨by omega, by omega, hR p hp⟩
    refine ⟨hg', Z ++ [(st.t, A)], by simp [hS], by simp [hA], ?_, by simp, ?_, ?_, ?_⟩
    · intro z hz
      rcases List.mem_append.1 hz with hz | hz
      · exact hZ z hz
      · simp at hz; subst hz; exact hround
    · intro z hz
      cases Z with
      | nil => simp at hz; subst hz; exact h0 rfl
      | cons x Z => simp at hz; subst hz; exact hh x (by simp)
    · rw [List.isChain_append]
      refine ⟨hch, by simp, ?_⟩
      intro x hx y hy
      simp at hy; subst hy
      exact hlast x hx
    · intro z hz
      simp at hz; subst hz
      intro q hq
      exact recalculate_frame s t sim gap A st.t m' [] (by simpa using hI) (by simp) e2 q (by simpa using hq)

theorem we_both (limit fuel tfuel : Nat) (htf : s.length + t.length < tfuel) (S : List Matrix)
    (res : List (List (Int × Int))) (h : watermanEggertBoth fuel tfuel s t sim gap limit = .ok (S, res)) :
    watermanEggert fuel tfuel s t sim gap limit = .ok res ∧ ∃ m0, makeMatrix s t sim gap = .ok m0 ∧
    ∃ Z : List (Matrix × List (Nat × Nat)), S = Z.map Prod.fst ∧ res = Z.map (fun z => emb z.2) ∧
      (∀ z ∈ Z, Round s.length t.length z) ∧ (∀ z, Z.head? = some z → z.1 = m0) ∧
      Z.IsChain (fun x y => ∀ q ∈ x.2, y.1 (((q.1 + 1 : Nat) : Int), ((q.2 + 1 : Nat) : Int)) = some (0, .T)) := by
  obtain ⟨m, e1, hm⟩ := matrix_ok s t sim gap
  simp only [watermanEggertBoth, watermanEggert, e1, bind, Except.bind] at h ⊢
  split at h
  · simp at h
  · rename_i st hst
    simp at h
    obtain ⟨rfl, rfl⟩ := h
    obtain ⟨⟨hg, Z, hS, hA, hZ, -, hh, hch, -⟩, _⟩ := Py.whileLoop_partial (SInv s t m)
      (fun st st' hw _ hb => weBody_scores s t sim gap m tfuel htf st st' hw hb)
      fuel _ st ⟨F_good s t sim gap m hm, [], by simp, by simp, by simp, by simp, by simp, by simp, by simp⟩ hst
    exact ⟨rfl, m, rfl, Z, hS, hA, hZ, hh, hch⟩

/-- Both results are there whenever the second is. -/
theorem we_both_ok (limit fuel tfuel : Nat) : (watermanEggertBoth fuel tfuel s t sim gap limit).map Prod.snd =
    watermanEggert fuel tfuel s t sim gap limit := by
  unfold watermanEggertBoth watermanEggert
  cases makeMatrix s t sim gap with
  | error e => rfl
  | ok m =>
    simp only [bind, Except.bind]
    split <;> rfl

end
end Verif.SW
