import Verif.Lemmas.AlignFloat
import Verif.Lemmas.Rounding

set_option linter.unusedSectionVars false

namespace Verif.SW
open Verif Verif.Spec Verif.Align

variable {α : Type}

/-- A function for cells that keeps a matrix good. -/
def GoodMs (n m : Nat) (ms : Nat → Nat → Matrix → Py Cell) : Prop :=
  ∀ (i j : Nat) (M : Matrix), GoodM n m M → i < n → j < m →
    ∃ c, ms (i + 1) (j + 1) M = .ok c ∧ 0 ≤ c.1 ∧ (0 < c.1 → c.2 ≠ .T)

section
variable (s t : List α) (ms : Nat → Nat → Matrix → Py Cell) (hms : GoodMs s.length t.length ms)
include hms

theorem recalcCol_goodW (j : Nat) (hj : j < t.length) (cnt : Nat) : ∀ (k : Nat) (m : Matrix),
    GoodM s.length t.length m → k + cnt = s.length →
    ∃ m', recalcColW ms (j + 1) cnt (k + 1) m = .ok m' ∧ GoodM s.length t.length m' := by
  induction cnt with
  | zero => intro k m hm _; exact ⟨m, rfl, hm⟩
  | succ cnt ih =>
    intro k m hm hk
    obtain ⟨c, h1, h2, h3⟩ := hms k j m hm (by omega) hj
    obtain ⟨old, ho, _⟩ := hm (k + 1) (j + 1) (by omega) (by omega)
    simp only [recalcColW, h1, bind, Except.bind, Py.Dict.get_eq ho]
    split
    · exact ⟨m, rfl, hm⟩
    · exact ih (k + 1) _ (hm.set (by omega) (by omega) h2 h3) (by omega)

theorem recalcRow_goodW (i : Nat) (hi : i < s.length) (cnt : Nat) : ∀ (l : Nat) (m : Matrix),
    GoodM s.length t.length m → l + cnt = t.length →
    ∃ m', recalcRowW ms (i + 1) cnt (l + 1) m = .ok m' ∧ GoodM s.length t.length m' := by
  induction cnt with
  | zero => intro k m hm _; exact ⟨m, rfl, hm⟩
  | succ cnt ih =>
    intro l m hm hl
    obtain ⟨c, h1, h2, h3⟩ := hms i l m hm hi (by omega)
    obtain ⟨old, ho, _⟩ := hm (i + 1) (l + 1) (by omega) (by omega)
    simp only [recalcRowW, h1, bind, Except.bind, Py.Dict.get_eq ho]
    split
    · exact ⟨m, rfl, hm⟩
    · exact ih (l + 1) _ (hm.set (by omega) (by omega) h2 h3) (by omega)

theorem recalculate_goodW (A : List (Nat × Nat)) (hW : Within A 0 s.length 0 t.length) (m : Matrix)
    (hm : GoodM s.length t.length m) :
    ∃ m', recalculateW ms s.length t.length (emb A) m = .ok m' ∧ GoodM s.length t.length m' := by
  unfold recalculateW
  induction A generalizing m with
  | nil => exact ⟨m, rfl, hm⟩
  | cons p A ih =>
    have hp := hW p (by simp)
    obtain ⟨m1, h1, h2⟩ := recalcCol_goodW s t ms hms p.2 hp.2.2.2 (s.length - (p.1 + 1)) (p.1 + 1)
      (m.set (((p.1 + 1 : Nat) : Int), ((p.2 + 1 : Nat) : Int)) (0, .T))
      (hm.set (by omega) (by omega) (le_refl _) (by simp)) (by omega)
    obtain ⟨m2, h3, h4⟩ := recalcRow_goodW s t ms hms p.1 hp.2.1 (t.length - (p.2 + 1)) (p.2 + 1)
      m1 h2 (by omega)
    obtain ⟨m3, h5, h6⟩ := ih (fun q hq => hW q (by simp [hq])) m2 h4
    refine ⟨m3, ?_, h6⟩
    have : recalcPairW ms s.length t.length ((p.1 : Int), (p.2 : Int)) m = .ok m2 := by
      simp only [recalcPairW, Int.toNat_natCast, bind, Except.bind, h1, h3]
    simp only [emb, List.map_cons, Py.forIn, this]
    exact h5

theorem weBody_okW (tfuel : Nat) (hf : s.length + t.length < tfuel) (st : WEState)
    (h : WInv s t st) :
    (∃ st', weBodyW ms tfuel s.length t.length st = .ok st' ∧ WInv s t st') ∧
    ∀ st', weBodyW ms tfuel s.length t.length st = .ok st' →
      (st' = { st with stop := true }) ∨
      (∃ al, st'.all = st.all ++ [al] ∧ st'.stop = false) := by
  obtain ⟨hg, L, hL, hv⟩ := h
  obtain ⟨_, _, h3⟩ := findBestScore_spec s.length t.length st.t
  unfold weBodyW
  by_cases hz : (findBestScore s.length t.length st.t).1 = 0
  · simp only [hz, if_true]
    exact ⟨⟨_, rfl, hg, L, hL, hv⟩, fun st' h => by simp at h; exact Or.inl h.symm⟩
  · obtain ⟨i, j, c, hi, hj, hc, he⟩ := h3 hz
    simp only [hz, if_false]
    obtain ⟨a, c', A, e1, ha, hc', hI, hW, -, -⟩ := trace_general s.length t.length st.t hg i j hi hj
      (fun _ _ _ => True) trivial (by intros; trivial) (by intros; trivial) (by intros; trivial)
      tfuel (by omega)
    have hW' : Within A 0 s.length 0 t.length := by intro p hp; have := hW p hp; omega
    obtain ⟨m', e2, hg'⟩ := recalculate_goodW s t ms hms A hW' st.t hg
    simp only [he, e1, e2, bind, Except.bind]
    refine ⟨⟨_, rfl, hg', L ++ [A], by simp [hL], ?_⟩, ?_⟩
    · intro B hB
      rcases List.mem_append.1 hB with hB | hB
      · exact hv B hB
      · simp at hB; subst hB; exact ⟨hI, hW'⟩
    · intro st' h
      simp at h
      subst h
      exact Or.inr ⟨_, rfl, rfl⟩

omit hms in
theorem recalcCol_frameW (j : Nat) (cnt : Nat) : ∀ (k : Nat) (m m' : Matrix),
    recalcColW ms j cnt k m = .ok m' → ∀ x : Int × Int, x.2 ≠ j ∨ x.1 < k → m' x = m x := by
  induction cnt with
  | zero => intro k m m' h x _; simp [recalcColW] at h; rw [h]
  | succ cnt ih =>
    intro k m m' h x hx
    simp only [recalcColW, bind, Except.bind] at h
    split at h
    · simp at h
    split at h
    · simp at h
    split at h
    · simp at h; rw [h]
    · rw [ih (k + 1) _ m' h x (by push_cast; omega), Py.Dict.set_ne]
      rintro rfl
      simp at hx

omit hms in
theorem recalcRow_frameW (i : Nat) (cnt : Nat) : ∀ (l : Nat) (m m' : Matrix),
    recalcRowW ms i cnt l m = .ok m' → ∀ x : Int × Int, x.1 ≠ i ∨ x.2 < l → m' x = m x := by
  induction cnt with
  | zero => intro k m m' h x _; simp [recalcRowW] at h; rw [h]
  | succ cnt ih =>
    intro k m m' h x hx
    simp only [recalcRowW, bind, Except.bind] at h
    split at h
    · simp at h
    split at h
    · simp at h
    split at h
    · simp at h; rw [h]
    · rw [ih (k + 1) _ m' h x (by push_cast; omega), Py.Dict.set_ne]
      rintro rfl
      simp at hx

omit hms in
theorem recalcPair_frameW (p : Nat × Nat) (m m' : Matrix)
    (h : recalcPairW ms s.length t.length ((p.1 : Int), (p.2 : Int)) m = .ok m') :
    m' (((p.1 + 1 : Nat) : Int), ((p.2 + 1 : Nat) : Int)) = some (0, .T) ∧
    ∀ q : Nat × Nat, q.1 ≠ p.1 → q.2 ≠ p.2 →
      m' (((q.1 + 1 : Nat) : Int), ((q.2 + 1 : Nat) : Int)) =
        m (((q.1 + 1 : Nat) : Int), ((q.2 + 1 : Nat) : Int)) := by
  simp only [recalcPairW, Int.toNat_natCast, bind, Except.bind] at h
  split at h
  · simp at h
  rename_i m1 h1
  constructor
  · rw [recalcRow_frameW ms _ _ _ _ _ h _ (Or.inr (by push_cast; omega)),
      recalcCol_frameW ms _ _ _ _ _ h1 _ (Or.inr (by push_cast; omega))]
    simp
  · intro q h3 h4
    rw [recalcRow_frameW ms _ _ _ _ _ h _ (Or.inl (by push_cast; omega)),
      recalcCol_frameW ms _ _ _ _ _ h1 _ (Or.inl (by push_cast; omega)), Py.Dict.set_ne]
    intro e
    simp only [Prod.mk.injEq, Int.natCast_inj] at e
    omega

omit hms in
theorem recalculate_frameW (A : List (Nat × Nat)) : ∀ (m m' : Matrix) (B : List (Nat × Nat)),
    Increasing (B ++ A) →
    (∀ q ∈ B, m (((q.1 + 1 : Nat) : Int), ((q.2 + 1 : Nat) : Int)) = some (0, .T)) →
    recalculateW ms s.length t.length (emb A) m = .ok m' →
    ∀ q ∈ B ++ A, m' (((q.1 + 1 : Nat) : Int), ((q.2 + 1 : Nat) : Int)) = some (0, .T) := by
  induction A with
  | nil =>
    intro m m' B _ hB h q hq
    simp [recalculateW, emb, Py.forIn] at h
    subst h
    exact hB q (by simpa using hq)
  | cons p A ih =>
    intro m m' B hI hB h q hq
    simp only [recalculateW, emb, List.map_cons, Py.forIn] at h
    split at h
    · rename_i m1 h1
      obtain ⟨f1, f2⟩ := recalcPair_frameW s t ms p m m1 h1
      refine ih m1 m' (B ++ [p]) (by simpa using hI) ?_ h q (by simpa using hq)
      intro r hr
      rcases List.mem_append.1 hr with hr | hr
      · unfold Increasing at hI
        rw [List.pairwise_append] at hI
        have := hI.2.2 r hr p (by simp)
        rw [f2 r (by omega) (by omega)]
        exact hB r hr
      · simp at hr; subst hr; exact f1
    · simp at h

theorem weBody_disjointW (tfuel : Nat) (hf : s.length + t.length < tfuel) (st st' : WEState)
    (h : DInv s t st) (hb : weBodyW ms tfuel s.length t.length st = .ok st') : DInv s t st' := by
  obtain ⟨hg, L, hL, hv, hlast⟩ := h
  obtain ⟨_, _, h3⟩ := findBestScore_spec s.length t.length st.t
  unfold weBodyW at hb
  by_cases hz : (findBestScore s.length t.length st.t).1 = 0
  · simp only [hz, if_true] at hb
    simp at hb; subst hb
    exact ⟨hg, L, hL, hv, hlast⟩
  · obtain ⟨i, j, c, hi, hj, hc, he⟩ := h3 hz
    simp only [hz, if_false] at hb
    obtain ⟨a, c', A, e1, ha, hc', hI, hW, hR, -⟩ := trace_general s.length t.length st.t hg i j hi hj
      (fun _ _ A => ∀ p ∈ A, ∃ c : Cell, st.t (((p.1 + 1 : Nat) : Int), ((p.2 + 1 : Nat) : Int)) = some c ∧
        0 < c.1) (by simp) (by intros _ _ _ _ _ _ _ _ _ _ h; exact h)
      (by intros _ _ _ _ _ _ _ _ _ _ h; exact h)
      (by
        intro i j A c _ _ hc _ hp _ hR p hp'
        rcases List.mem_cons.1 hp' with rfl | hp'
        · exact ⟨c, hc, hp⟩
        · exact hR p hp')
      tfuel (by omega)
    have hW' : Within A 0 s.length 0 t.length := by intro p hp; have := hW p hp; omega
    obtain ⟨m', e2, hg'⟩ := recalculate_goodW s t ms hms A hW' st.t hg
    simp only [he, e1, e2, bind, Except.bind] at hb
    simp at hb; subst hb
    refine ⟨hg', L ++ [A], by simp [hL], ?_, ?_⟩
    · rw [List.isChain_append]
      refine ⟨hv, by simp, ?_⟩
      intro B hB C hC p hp hpC
      simp at hC; subst hC
      have q1 := hlast B hB p hp
      obtain ⟨c, q2, q3⟩ := hR p hpC
      rw [q1] at q2; simp at q2; subst q2; simp at q3
    · intro B hB
      simp at hB; subst hB
      intro q hq
      exact recalculate_frameW s t ms A st.t m' [] (by simpa using hI) (by simp) e2 q (by simpa using hq)

end

section
variable (fl : ℚ → ℚ) (s t : List α) (sim : α → α → ℚ) (gap : α → ℚ)

theorem maxScoreFl_good (i j : Nat) (m : Matrix) (hm : GoodM s.length t.length m) (hi : i < s.length)
    (hj : j < t.length) :
    ∃ c, maxScoreFl fl s t sim gap (i + 1) (j + 1) m = .ok c ∧ 0 ≤ c.1 ∧ (0 < c.1 → c.2 ≠ .T) := by
  obtain ⟨a, h1, _⟩ := hm i j (by omega) (by omega)
  obtain ⟨b, h2, _⟩ := hm i (j + 1) (by omega) (by omega)
  obtain ⟨c, h3, _⟩ := hm (i + 1) j (by omega) (by omega)
  refine ⟨_, maxScoreFl_ok fl s t sim gap i j m hi hj a b c h1 h2 h3, ?_, ?_⟩
  · rw [cmax_fst]; exact le_max_right _ _
  · rcases cmax_cases (cmax (cmax (fl (b.1 + gap s[i]), .U) (fl (a.1 + sim s[i] t[j]), .D))
      (fl (c.1 + gap t[j]), .L)) (0, .T) with e | e
    · rw [e]
      rcases cmax_cases (cmax (fl (b.1 + gap s[i]), .U) (fl (a.1 + sim s[i] t[j]), .D))
        (fl (c.1 + gap t[j]), .L) with e | e
      · rw [e]
        rcases cmax_cases (fl (b.1 + gap s[i]), Dir.U) (fl (a.1 + sim s[i] t[j]), .D) with e | e <;>
          rw [e] <;> simp
      · rw [e]; simp
    · rw [e]; simp

theorem we_limit_okFl (limit : Nat) (hl : 0 < limit) (fuel tfuel : Nat)
    (hf : limit + 1 < fuel) (htf : s.length + t.length < tfuel) :
    ∃ L : List (List (Nat × Nat)), watermanEggertFl fl fuel tfuel s t sim gap limit = .ok (L.map emb) ∧
      L.length ≤ limit ∧ ∀ A ∈ L, Increasing A ∧ Within A 0 s.length 0 t.length := by
  obtain ⟨m, e1, hm⟩ := matrixFl_ok fl s t sim gap
  obtain ⟨st, e2, ⟨hg, L, hL, hv⟩, hlen⟩ := Py.whileLoop_inv (cond := weCond limit)
    (body := weBodyW (maxScoreFl fl s t sim gap) tfuel s.length t.length)
    (fun st => WInv s t st ∧ st.all.length ≤ limit)
    (fun st => if st.stop then 0 else limit + 1 - st.all.length)
    (fun st => WInv s t st ∧ st.all.length ≤ limit)
    (by
      rintro st ⟨hw, hlen⟩
      by_cases hc : st.stop = true ∨ ¬ st.all.length < limit
      · left
        refine ⟨?_, hw, hlen⟩
        have : limit ≠ 0 := by omega
        rcases hc with hc | hc <;> simp [weCond, hc, this]
      · right
        push Not at hc
        obtain ⟨hc1, hc2⟩ := hc
        have hc1 : st.stop = false := by simpa using hc1
        refine ⟨by simp [weCond, hc1, hc2], ?_⟩
        obtain ⟨⟨st', e, hw'⟩, hcase⟩ := weBody_okW s t (maxScoreFl fl s t sim gap) (maxScoreFl_good fl s t sim gap) tfuel htf st hw
        refine ⟨st', e, ⟨hw', ?_⟩, ?_⟩
        · rcases hcase st' e with h | ⟨al, h, _⟩
          · rw [h]; exact hlen
          · rw [h]; simp; omega
        · rcases hcase st' e with h | ⟨al, h, h'⟩
          · rw [h]; simp [hc1]; omega
          · rw [h, h']; simp [hc1]; omega)
    fuel { t := m, all := [], stop := false }
    ⟨⟨Fr_good fl s t sim gap m hm, [], by simp, by simp⟩, by simp⟩
    (by simp; omega)
  refine ⟨L, ?_, ?_, hv⟩
  · simp only [watermanEggertFl, e1, bind, Except.bind, e2, hL]
  · simpa [hL] using hlen

theorem we_partial_okFl (limit fuel tfuel : Nat) (htf : s.length + t.length < tfuel)
    (res : List (List (Int × Int))) (h : watermanEggertFl fl fuel tfuel s t sim gap limit = .ok res) :
    ∃ L : List (List (Nat × Nat)), res = L.map emb ∧
      ∀ A ∈ L, Increasing A ∧ Within A 0 s.length 0 t.length := by
  obtain ⟨m, e1, hm⟩ := matrixFl_ok fl s t sim gap
  simp only [watermanEggertFl, e1, bind, Except.bind] at h
  split at h
  · simp at h
  · rename_i st hst
    simp at h
    obtain ⟨⟨hg, L, hL, hv⟩, _⟩ := Py.whileLoop_partial (WInv s t)
      (by
        intro st st' hw _ hb
        obtain ⟨⟨st2, e, hw'⟩, _⟩ := weBody_okW s t (maxScoreFl fl s t sim gap) (maxScoreFl_good fl s t sim gap) tfuel htf st hw
        rw [e] at hb; simp at hb; subst hb; exact hw')
      fuel _ st ⟨Fr_good fl s t sim gap m hm, [], by simp, by simp⟩ hst
    exact ⟨L, by rw [← h, hL], hv⟩

theorem we_consecutiveFl (limit fuel tfuel : Nat) (htf : s.length + t.length < tfuel)
    (res : List (List (Int × Int))) (h : watermanEggertFl fl fuel tfuel s t sim gap limit = .ok res) :
    ∃ L : List (List (Nat × Nat)), res = L.map emb ∧ L.IsChain (fun A B => ∀ p ∈ A, p ∉ B) := by
  obtain ⟨m, e1, hm⟩ := matrixFl_ok fl s t sim gap
  simp only [watermanEggertFl, e1, bind, Except.bind] at h
  split at h
  · simp at h
  · rename_i st hst
    simp at h
    obtain ⟨⟨hg, L, hL, hv, _⟩, _⟩ := Py.whileLoop_partial (DInv s t)
      (fun st st' hw _ hb => weBody_disjointW s t (maxScoreFl fl s t sim gap) (maxScoreFl_good fl s t sim gap) tfuel htf st st' hw hb)
      fuel _ st ⟨Fr_good fl s t sim gap m hm, [], by simp, by simp, by simp⟩ hst
    exact ⟨L, by rw [← h, hL], hv⟩

end
end Verif.SW
