import Verif.Model.AlignFloat
import Verif.Lemmas.WatermanEggert
import Verif.Lemmas.NeedlemanWunsch

/-! Integer scores: no rounding. -/
set_option linter.unusedSectionVars false
namespace Verif.Align
open Verif

/-- The two computations do the same, and a result satisfies `I`. -/
def Same {σ : Type} (I : σ → Prop) (x y : Py σ) : Prop := x = y ∧ ∀ s, x = .ok s → I s

theorem same_ok {σ : Type} {I : σ → Prop} {s : σ} (h : I s) : Same I (.ok s) (.ok s) :=
  ⟨rfl, by rintro _ ⟨⟩; exact h⟩

theorem same_err {σ : Type} {I : σ → Prop} (e : Err) : Same I (.error e) (.error e) :=
  ⟨rfl, by rintro _ ⟨⟩⟩

theorem same_bind {σ τ : Type} {I : σ → Prop} {J : τ → Prop} {x y : Py σ} {f g : σ → Py τ} (h : Same I x y)
    (hf : ∀ s, I s → Same J (f s) (g s)) : Same J (x >>= f) (y >>= g) := by
  obtain ⟨rfl, h2⟩ := h
  cases x with
  | error e => exact same_err e
  | ok s => exact hf s (h2 s rfl)

theorem same_forLoop {σ : Type} {I : σ → Prop} {f g : Nat → σ → Py σ} (hi : Nat) : ∀ (cnt i : Nat) (s : σ), I s →
    i + cnt ≤ hi →
    (∀ k s, i ≤ k → k < hi → I s → Same I (f k s) (g k s)) →
    Same I (Py.forLoop f cnt i s) (Py.forLoop g cnt i s)
  | 0, _, _, h, _, _ => same_ok h
  | cnt + 1, i, s, h, hle, hfg => by
    obtain ⟨e1, e2⟩ := hfg i s (le_refl _) (by omega) h
    simp only [Py.forLoop, ← e1]
    cases hx : f i s with
    | error e => exact same_err e
    | ok s' =>
      exact same_forLoop hi cnt (i + 1) s' (e2 s' hx) (by omega) fun k s hk => hfg k s (by omega)

theorem same_forRange {σ : Type} {I : σ → Prop} {f g : Nat → σ → Py σ} {a b : Nat} {s : σ} (h : I s)
    (hfg : ∀ k s, a ≤ k → k < b → I s → Same I (f k s) (g k s)) :
    Same I (Py.forRange a b s f) (Py.forRange a b s g) := by
  by_cases hab : a ≤ b
  · exact same_forLoop b (b - a) a s h (by omega) hfg
  · unfold Py.forRange
    rw [show b - a = 0 by omega]
    exact same_ok h

theorem same_forIn {σ α : Type} {I : σ → Prop} {f g : α → σ → Py σ} : ∀ (l : List α) (s : σ), I s →
    (∀ x s, I s → Same I (f x s) (g x s)) → Same I (Py.forIn l s f) (Py.forIn l s g)
  | [], _, h, _ => same_ok h
  | x :: l, s, h, hfg => by
    obtain ⟨e1, e2⟩ := hfg x s h
    simp only [Py.forIn, ← e1]
    cases hx : f x s with
    | error e => exact same_err e
    | ok s' => exact same_forIn l s' (e2 s' hx) hfg

theorem same_while {σ : Type} {I : σ → Prop} {c : σ → Py Bool} {f g : σ → Py σ}
    (hfg : ∀ s, I s → Same I (f s) (g s)) : ∀ (fuel : Nat) (s : σ), I s →
    Same I (Py.whileLoop c f fuel s) (Py.whileLoop c g fuel s)
  | 0, _, _ => same_err _
  | fuel + 1, s, h => by
    obtain ⟨e1, e2⟩ := hfg s h
    simp only [Py.whileLoop, ← e1]
    cases hc : c s with
    | error e => exact same_err e
    | ok b =>
      cases b with
      | false => exact same_ok h
      | true =>
        cases hx : f s with
        | error e => exact same_err e
        | ok s' => exact same_while hfg fuel s' (e2 s' hx)

/-- An integer of size at most `b`. -/
def WholeQ (b : Int) (x : ℚ) : Prop := ∃ z : ℤ, x = z ∧ |z| ≤ b

/-- Every entry of the matrix is an integer, not larger than the costs of the steps to it. -/
def Whole (K : Nat) (t : Matrix) : Prop :=
  ∀ k c, t k = some c → 0 ≤ k.1 ∧ 0 ≤ k.2 ∧ WholeQ (K * (k.1 + k.2)) c.1

theorem WholeQ.mono {a b : Int} {x : ℚ} (h : WholeQ a x) (hab : a ≤ b) : WholeQ b x := by
  obtain ⟨z, h1, h2⟩ := h; exact ⟨z, h1, h2.trans hab⟩

theorem WholeQ.add {a b : Int} {x y : ℚ} (h : WholeQ a x) (h' : WholeQ b y) : WholeQ (a + b) (x + y) := by
  obtain ⟨z, rfl, h2⟩ := h
  obtain ⟨w, rfl, h2'⟩ := h'
  exact ⟨z + w, by push_cast; rfl, (abs_add_le z w).trans (by omega)⟩

theorem WholeQ.cmax {a : Int} {c d : Cell} (h : WholeQ a c.1) (h' : WholeQ a d.1) : WholeQ a (cmax c d).1 := by
  unfold Align.cmax; split
  · exact h'
  · exact h

theorem Whole.set {K : Nat} {t : Matrix} (h : Whole K t) (i j : Nat) (c : Cell) (hc : WholeQ (K * (i + j)) c.1) :
    Whole K (t.set ((i : Int), (j : Int)) c) := by
  intro k d hd
  by_cases hk : k = ((i : Int), (j : Int))
  · subst hk
    simp only [Py.Dict.set_self, Option.some.injEq] at hd
    subst hd
    exact ⟨by simp, by simp, hc⟩
  · rw [Py.Dict.set_ne _ _ hk] at hd
    exact h k d hd

end Verif.Align

namespace Verif.Align
open Verif

variable {α : Type}

theorem same_get (s : List α) (i : Nat) :
    Same (fun x => x ∈ s ∧ i < s.length) (Py.get s i) (Py.get s i) := by
  refine ⟨rfl, ?_⟩
  intro x hx
  rw [Py.get_eq_ok_iff] at hx
  exact ⟨List.mem_of_getElem? hx, (List.getElem?_eq_some_iff.1 hx).1⟩

theorem same_entry {K : Nat} {t : Matrix} (h : Whole K t) (k : Int × Int) :
    Same (fun c => 0 ≤ k.1 ∧ 0 ≤ k.2 ∧ WholeQ (K * (k.1 + k.2)) c.1) (Py.Dict.get t k) (Py.Dict.get t k) := by
  refine ⟨rfl, ?_⟩
  intro c hc
  unfold Py.Dict.get at hc
  split at hc
  · rename_i v hv
    cases hc
    exact h k _ hv
  · cases hc

theorem same_any {σ : Type} (x : Py σ) : Same (fun _ => True) x x := ⟨rfl, fun _ _ => trivial⟩

/-- A step to a cell, not rounded. -/
theorem step_whole {fl : ℚ → ℚ} {K N : Nat} (hfl : ∀ z : ℤ, |z| ≤ (K : ℤ) * N → fl z = z) {i j i' j' : Int} {x w : ℚ}
    (hx : WholeQ (K * (i' + j')) x) (hw : WholeQ K w) (hij : i' + j' + 1 ≤ i + j) (hN : i + j ≤ N) :
    fl (x + w) = x + w ∧ WholeQ (K * (i + j)) (x + w) := by
  have hK : (0 : Int) ≤ K := by omega
  have h1 := hx.add hw
  have h2 : (K : Int) * (i' + j') + K ≤ K * (i + j) := by nlinarith
  have h3 : (K : Int) * (i + j) ≤ K * N := by nlinarith
  have h4 := h1.mono h2
  refine ⟨?_, h4⟩
  obtain ⟨z, e, hz⟩ := h4
  rw [e]; exact hfl z (hz.trans h3)

theorem same_fillInner {K n m : Nat} {f g : Nat → Nat → Matrix → Py Cell} {t : Matrix} (h : Whole K t)
    (hfg : ∀ (i j : Nat) t, Whole K t → Same (fun c => WholeQ (K * (i + j)) c.1) (f i j t) (g i j t)) :
    Same (Whole K) (fillInner n m f t) (fillInner n m g t) := by
  unfold fillInner
  refine same_forRange h fun i t _ _ ht => same_forRange ht fun j t _ _ ht => same_bind (hfg i j t ht) fun c hc => ?_
  exact same_ok (ht.set i j c hc)

theorem whole_start (K : Nat) : Whole K (Py.Dict.empty.set (0, 0) (0, .T)) := by
  refine Whole.set (t := Py.Dict.empty) ?_ 0 0 _ ⟨0, by simp, by simp⟩
  intro k c hc
  simp [Py.Dict.empty] at hc

end Verif.Align

namespace Verif.NW
open Verif Verif.Align

variable {α : Type}

section
variable (fl : ℚ → ℚ) (s t : List α) (sim : α → α → ℚ) (gap : α → ℚ) (K : Nat)
  (hfl : ∀ z : ℤ, |z| ≤ (K : ℤ) * (s.length + t.length : Nat) → fl z = z)
  (hsim : ∀ x ∈ s, ∀ y ∈ t, WholeQ K (sim x y)) (hs : ∀ x ∈ s, WholeQ K (gap x)) (ht : ∀ y ∈ t, WholeQ K (gap y))
include hfl hsim hs ht

theorem border_whole (g : ℚ) (hg : WholeQ K g) (i : Nat) (hi : i ≤ s.length + t.length) :
    fl (g * i) = g * i ∧ WholeQ (K * i) (g * i) := by
  obtain ⟨z, rfl, hz⟩ := hg
  have h1 : |z * (i : ℤ)| ≤ (K : ℤ) * i := by
    rw [abs_mul, Nat.abs_cast]
    exact mul_le_mul_of_nonneg_right hz (by omega)
  have h2 : (K : ℤ) * i ≤ K * (s.length + t.length : Nat) :=
    mul_le_mul_of_nonneg_left (by exact_mod_cast hi) (by omega)
  refine ⟨?_, z * i, by push_cast; rfl, h1⟩
  have := hfl (z * i) (h1.trans h2)
  push_cast at this
  exact this

theorem border_same : Same (Whole K) (borderFl fl s t gap) (border s t gap) := by
  unfold borderFl border
  refine same_bind (same_forRange (whole_start K) ?_) ?_
  · intro i m hi hi' hm
    refine same_bind (same_get s (i - 1)) ?_
    rintro x ⟨hx, hl⟩
    obtain ⟨e1, e2⟩ := border_whole fl s t sim gap K hfl hsim hs ht _ (hs x hx) i (by omega)
    rw [e1]
    exact same_ok (hm.set i 0 _ (by simpa using e2))
  · intro m hm
    refine same_forRange hm ?_
    intro i m hi hi' hm
    refine same_bind (same_get t (i - 1)) ?_
    rintro x ⟨hx, hl⟩
    obtain ⟨e1, e2⟩ := border_whole fl s t sim gap K hfl hsim hs ht _ (ht x hx) i (by omega)
    rw [e1]
    exact same_ok (hm.set 0 i _ (by simpa using e2))

theorem cell_same (i j : Nat) (m : Matrix) (hm : Whole K m) :
    Same (fun c => WholeQ (K * (i + j)) c.1) (cellFl fl s t sim gap i j m) (cell s t sim gap i j m) := by
  unfold cellFl cell
  refine same_bind (same_get s (i - 1)) ?_
  rintro x ⟨hx, hl⟩
  refine same_bind (same_get t (j - 1)) ?_
  rintro y ⟨hy, hl'⟩
  refine same_bind (same_entry hm _) ?_
  rintro u ⟨u1, u2, u3⟩
  refine same_bind (same_entry hm _) ?_
  rintro d ⟨d1, d2, d3⟩
  refine same_bind (same_entry hm _) ?_
  rintro l ⟨l1, l2, l3⟩
  simp only at u1 u2 d1 d2 l1 l2
  obtain ⟨a1, a2⟩ := step_whole hfl (i := i) (j := j) u3 (hs x hx) (by dsimp only; omega) (by push_cast; omega)
  obtain ⟨b1, b2⟩ := step_whole hfl (i := i) (j := j) d3 (hsim x hx y hy) (by dsimp only; omega) (by push_cast; omega)
  obtain ⟨c1, c2⟩ := step_whole hfl (i := i) (j := j) l3 (ht y hy) (by dsimp only; omega) (by push_cast; omega)
  rw [a1, b1, c1]
  exact same_ok ((a2.cmax b2).cmax c2)

theorem nw_same (fuel : Nat) : needlemanWunschFl fl fuel s t sim gap = needlemanWunsch fuel s t sim gap := by
  unfold needlemanWunschFl needlemanWunsch
  refine (same_bind (J := fun _ => True) (border_same fl s t sim gap K hfl hsim hs ht) fun m hm => ?_).1
  refine same_bind (same_fillInner hm (cell_same fl s t sim gap K hfl hsim hs ht)) fun m _ => ?_
  exact same_any _

end
end Verif.NW

namespace Verif.SW
open Verif Verif.Align

variable {α : Type}

theorem recalcCol_same {K : Nat} {f g : Nat → Nat → Matrix → Py Cell}
    (hfg : ∀ (i j : Nat) t, Whole K t → Same (fun c => WholeQ (K * (i + j)) c.1) (f i j t) (g i j t)) (j : Nat) :
    ∀ (cnt k : Nat) (m : Matrix), Whole K m → Same (Whole K) (recalcColW f j cnt k m) (recalcColW g j cnt k m)
  | 0, _, _, hm => same_ok hm
  | cnt + 1, k, m, hm => by
    unfold recalcColW
    refine same_bind (hfg k j m hm) fun c hc => same_bind (same_any _) fun old _ => ?_
    by_cases h : c = old
    · rw [if_pos h, if_pos h]; exact same_ok hm
    · rw [if_neg h, if_neg h]; exact recalcCol_same hfg j cnt (k + 1) _ (hm.set k j c hc)

theorem recalcRow_same {K : Nat} {f g : Nat → Nat → Matrix → Py Cell}
    (hfg : ∀ (i j : Nat) t, Whole K t → Same (fun c => WholeQ (K * (i + j)) c.1) (f i j t) (g i j t)) (i : Nat) :
    ∀ (cnt k : Nat) (m : Matrix), Whole K m → Same (Whole K) (recalcRowW f i cnt k m) (recalcRowW g i cnt k m)
  | 0, _, _, hm => same_ok hm
  | cnt + 1, k, m, hm => by
    unfold recalcRowW
    refine same_bind (hfg i k m hm) fun c hc => same_bind (same_any _) fun old _ => ?_
    by_cases h : c = old
    · rw [if_pos h, if_pos h]; exact same_ok hm
    · rw [if_neg h, if_neg h]; exact recalcRow_same hfg i cnt (k + 1) _ (hm.set i k c hc)

theorem recalculate_same {K : Nat} {f g : Nat → Nat → Matrix → Py Cell} (n m : Nat)
    (hfg : ∀ (i j : Nat) t, Whole K t → Same (fun c => WholeQ (K * (i + j)) c.1) (f i j t) (g i j t)) (al : List (Int × Int))
    (M : Matrix) (hM : Whole K M) : Same (Whole K) (recalculateW f n m al M) (recalculateW g n m al M) := by
  unfold recalculateW
  refine same_forIn al M hM fun p M hM => ?_
  unfold recalcPairW
  have h0 : Whole K (M.set (((p.1.toNat + 1 : Nat) : Int), ((p.2.toNat + 1 : Nat) : Int)) (0, .T)) :=
    hM.set _ _ _ ⟨0, by simp, by simp; positivity⟩
  exact same_bind (recalcCol_same hfg _ _ _ _ h0) fun M' hM' => recalcRow_same hfg _ _ _ _ hM'

theorem weBody_same {K : Nat} {f g : Nat → Nat → Matrix → Py Cell} (tfuel n m : Nat)
    (hfg : ∀ (i j : Nat) t, Whole K t → Same (fun c => WholeQ (K * (i + j)) c.1) (f i j t) (g i j t)) (st : WEState)
    (h : Whole K st.t) : Same (fun st => Whole K st.t) (weBodyW f tfuel n m st) (weBodyW g tfuel n m st) := by
  unfold weBodyW
  dsimp only
  by_cases hz : (findBestScore n m st.t).1 = 0
  · rw [if_pos hz, if_pos hz]; exact same_ok h
  · rw [if_neg hz, if_neg hz]
    refine same_bind (same_any _) fun al _ => same_bind (recalculate_same n m hfg al st.t h) fun M hM => ?_
    exact same_ok hM

/-- The model of the exact case is the instance without rounding. -/
theorem recalcColW_eq (s t : List α) (sim : α → α → ℚ) (gap : α → ℚ) (j : Nat) : ∀ (cnt k : Nat) (m : Matrix),
    recalcColW (maxScore s t sim gap) j cnt k m = recalcCol s t sim gap j cnt k m
  | 0, _, _ => rfl
  | cnt + 1, k, m => by
    unfold recalcColW recalcCol
    simp only [recalcColW_eq s t sim gap j cnt]

theorem recalcRowW_eq (s t : List α) (sim : α → α → ℚ) (gap : α → ℚ) (j : Nat) : ∀ (cnt k : Nat) (m : Matrix),
    recalcRowW (maxScore s t sim gap) j cnt k m = recalcRow s t sim gap j cnt k m
  | 0, _, _ => rfl
  | cnt + 1, k, m => by
    unfold recalcRowW recalcRow
    simp only [recalcRowW_eq s t sim gap j cnt]

theorem weBodyW_eq (tfuel : Nat) (s t : List α) (sim : α → α → ℚ) (gap : α → ℚ) (st : WEState) :
    weBodyW (maxScore s t sim gap) tfuel s.length t.length st = weBody tfuel s t sim gap st := by
  unfold weBodyW weBody recalculateW recalculate
  have : recalcPairW (maxScore s t sim gap) s.length t.length = recalcPair s t sim gap := by
    funext p m
    unfold recalcPairW recalcPair
    simp only [recalcColW_eq, recalcRowW_eq]
  rw [this]

section
variable (fl : ℚ → ℚ) (s t : List α) (sim : α → α → ℚ) (gap : α → ℚ) (K : Nat)
  (hfl : ∀ z : ℤ, |z| ≤ (K : ℤ) * (s.length + t.length : Nat) → fl z = z)
  (hsim : ∀ x ∈ s, ∀ y ∈ t, WholeQ K (sim x y)) (hs : ∀ x ∈ s, WholeQ K (gap x)) (ht : ∀ y ∈ t, WholeQ K (gap y))

theorem border_same : Same (Whole K) (border s t) (border s t) := by
  unfold border
  refine same_bind (same_forRange (whole_start K) ?_) ?_
  · intro i m hi hi' hm
    exact same_ok (hm.set i 0 _ ⟨0, by simp, by simp; positivity⟩)
  · intro m hm
    refine same_forRange hm ?_
    intro i m hi hi' hm
    exact same_ok (hm.set 0 i _ ⟨0, by simp, by simp; positivity⟩)

include hfl hsim hs ht

theorem maxScore_same (i j : Nat) (m : Matrix) (hm : Whole K m) :
    Same (fun c => WholeQ (K * (i + j)) c.1) (maxScoreFl fl s t sim gap i j m) (maxScore s t sim gap i j m) := by
  unfold maxScoreFl maxScore
  refine same_bind (same_get s (i - 1)) ?_
  rintro x ⟨hx, hl⟩
  refine same_bind (same_get t (j - 1)) ?_
  rintro y ⟨hy, hl'⟩
  refine same_bind (same_entry hm _) ?_
  rintro u ⟨u1, u2, u3⟩
  refine same_bind (same_entry hm _) ?_
  rintro d ⟨d1, d2, d3⟩
  refine same_bind (same_entry hm _) ?_
  rintro l ⟨l1, l2, l3⟩
  simp only at u1 u2 d1 d2 l1 l2
  obtain ⟨a1, a2⟩ := step_whole hfl (i := i) (j := j) u3 (hs x hx) (by dsimp only; omega) (by push_cast; omega)
  obtain ⟨b1, b2⟩ := step_whole hfl (i := i) (j := j) d3 (hsim x hx y hy) (by dsimp only; omega) (by push_cast; omega)
  obtain ⟨c1, c2⟩ := step_whole hfl (i := i) (j := j) l3 (ht y hy) (by dsimp only; omega) (by push_cast; omega)
  rw [a1, b1, c1]
  exact same_ok (((a2.cmax b2).cmax c2).cmax ⟨0, by simp, by simp; positivity⟩)

theorem matrix_same : Same (Whole K) (makeMatrixFl fl s t sim gap) (makeMatrix s t sim gap) := by
  unfold makeMatrixFl makeMatrix
  exact same_bind (border_same s t K) fun m hm =>
    same_fillInner hm (maxScore_same fl s t sim gap K hfl hsim hs ht)

theorem sw_same (fuel : Nat) : smithWatermanFl fl fuel s t sim gap = smithWaterman fuel s t sim gap := by
  unfold smithWatermanFl smithWaterman
  exact (same_bind (J := fun _ => True) (matrix_same fl s t sim gap K hfl hsim hs ht) fun m _ => same_any _).1

theorem we_same (fuel tfuel limit : Nat) :
    watermanEggertFl fl fuel tfuel s t sim gap limit = watermanEggert fuel tfuel s t sim gap limit := by
  unfold watermanEggertFl watermanEggert
  refine (same_bind (J := fun _ => True) (matrix_same fl s t sim gap K hfl hsim hs ht) fun m hm => ?_).1
  refine same_bind (I := fun st : WEState => Whole K st.t) ?_ fun st _ => same_any _
  refine same_while (fun st h => ?_) fuel _ hm
  rw [← weBodyW_eq tfuel s t sim gap st]
  exact weBody_same tfuel s.length t.length (maxScore_same fl s t sim gap K hfl hsim hs ht) st h

end
end Verif.SW
