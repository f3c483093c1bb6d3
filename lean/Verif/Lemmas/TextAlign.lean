import Verif.Model.TextAlign
import Verif.Spec.TextAlign
import Verif.Lemmas.HitaextDoc
import Verif.Lemmas.Base

/-! Lemmas about text alignment. -/
set_option linter.unusedSectionVars false
namespace Verif.TextAlign
open Verif Verif.Etree Verif.IElemTree Verif.HitaextDoc Verif.Spec

theorem sum_sq_nonneg (v : List ℝ) : 0 ≤ (v.map fun x => x ^ 2).sum := by
  induction v with
  | nil => simp
  | cons x v ih => simp only [List.map_cons, List.sum_cons]; positivity

theorem sum_sq_zero (v : List ℝ) : (v.map fun x => x ^ 2).sum = 0 ↔ ∀ x ∈ v, x = 0 := by
  induction v with
  | nil => simp
  | cons x v ih =>
    have h1 := sum_sq_nonneg v
    simp only [List.map_cons, List.sum_cons, List.forall_mem_cons, ← ih]
    constructor
    · intro h
      have h2 : x ^ 2 = 0 := by nlinarith [sq_nonneg x]
      exact ⟨by simpa using h2, by nlinarith [sq_nonneg x]⟩
    · rintro ⟨rfl, h⟩; simp [h]

theorem cauchy (v w : List ℝ) : (List.zipWith (· * ·) v w).sum ^ 2 ≤
    (v.map fun x => x ^ 2).sum * (w.map fun x => x ^ 2).sum := by
  induction v generalizing w with
  | nil => simp
  | cons x v ih =>
    cases w with
    | nil => simp
    | cons y w =>
      simp only [List.zipWith_cons_cons, List.sum_cons, List.map_cons]
      have h := ih w
      have hA := sum_sq_nonneg v
      have hB := sum_sq_nonneg w
      generalize (List.zipWith (· * ·) v w).sum = a at *
      generalize (v.map fun x => x ^ 2).sum = A at *
      generalize (w.map fun x => x ^ 2).sum = B at *
      have h1 : 2 * (x * y * a) ≤ x ^ 2 * B + y ^ 2 * A := by
        refine abs_le_of_sq_le_sq' ?_ (by positivity) |>.2
        nlinarith [sq_nonneg (x ^ 2 * B - y ^ 2 * A), mul_nonneg (sq_nonneg (x * y)) (sub_nonneg.2 h)]
      nlinarith

theorem zip_comm (v w : List ℝ) : List.zipWith (· * ·) v w = List.zipWith (· * ·) w v := by
  induction v generalizing w with
  | nil => simp
  | cons x v ih => cases w with
    | nil => simp
    | cons y w => simp [ih w, mul_comm]

theorem zip_nonneg (v w : List ℝ) (hv : ∀ x ∈ v, 0 ≤ x) (hw : ∀ x ∈ w, 0 ≤ x) :
    0 ≤ (List.zipWith (· * ·) v w).sum := by
  induction v generalizing w with
  | nil => simp
  | cons x v ih => cases w with
    | nil => simp
    | cons y w =>
      simp only [List.forall_mem_cons] at hv hw
      simp only [List.zipWith_cons_cons, List.sum_cons]
      have := ih w hv.2 hw.2
      have := mul_nonneg hv.1 hw.1
      linarith

theorem zip_self (v : List ℝ) : (List.zipWith (· * ·) v v).sum = (v.map fun x => x ^ 2).sum := by
  induction v with
  | nil => simp
  | cons x v ih => simp [ih, sq]

/-! The non-crossing filter. -/

theorem crossed_iff (n n' : Nat → Nat) (x : Nat × Nat) (out : List Scored) :
    crossed (n x.1) (n' x.2) (out.map fun y => (n y.2.1, n' y.2.2)) = true ↔ ∃ y ∈ out, Cross n n' x y.2 := by
  unfold crossed Cross
  simp only [List.any_map, List.any_eq_true, Function.comp, Bool.or_eq_true, Bool.and_eq_true, decide_eq_true_eq]
  constructor
  · rintro ⟨y, hy, h | h⟩
    · exact ⟨y, hy, Or.inr h⟩
    · exact ⟨y, hy, Or.inl h⟩
  · rintro ⟨y, hy, h | h⟩
    · exact ⟨y, hy, Or.inr h⟩
    · exact ⟨y, hy, Or.inl h⟩

theorem noCross_spec (t : ℝ) (n n' : Nat → Nat) (xs out : List Scored) (hs : xs.Pairwise fun x y => y.1 ≤ x.1)
    (ho : ∀ y ∈ out, ∀ x ∈ xs, x.1 ≤ y.1) (hp : out.Pairwise fun x y => ¬ Cross n n' y.2 x.2) :
    ∃ r, noCrossLoop t n n' xs (out.map fun y => (n y.2.1, n' y.2.2)) out = out ++ r ∧ r.Sublist xs ∧
      (∀ x ∈ r, t ≤ x.1) ∧ (out ++ r).Pairwise (fun x y => ¬ Cross n n' y.2 x.2) ∧
      ∀ x ∈ xs, t ≤ x.1 → x ∈ r ∨ ∃ y ∈ out ++ r, x.1 ≤ y.1 ∧ Cross n n' x.2 y.2 := by
  induction xs generalizing out with
  | nil => exact ⟨[], by simp [noCrossLoop], by simp, by simp, by simpa using hp, by simp⟩
  | cons x xs ih =>
    rw [List.pairwise_cons] at hs
    unfold noCrossLoop
    by_cases h1 : x.1 < t
    · rw [if_pos h1]
      refine ⟨[], by simp, by simp, by simp, by simpa using hp, ?_⟩
      intro z hz ht
      rcases List.mem_cons.1 hz with rfl | hz
      · linarith
      · have := hs.1 z hz; linarith
    · rw [if_neg h1]
      by_cases h2 : crossed (n x.2.1) (n' x.2.2) (out.map fun y => (n y.2.1, n' y.2.2)) = true
      · rw [if_pos h2]
        obtain ⟨r, a, b, c, d, e⟩ := ih out hs.2 (fun y hy z hz => ho y hy z (by simp [hz])) hp
        refine ⟨r, a, b.cons _, c, d, ?_⟩
        intro z hz ht
        rcases List.mem_cons.1 hz with rfl | hz
        · obtain ⟨y, hy, hc⟩ := (crossed_iff n n' z.2 out).1 h2
          exact Or.inr ⟨y, by simp [hy], ho y hy z (by simp), hc⟩
        · exact e z hz ht
      · rw [if_neg h2]
        have hm : (out.map fun y => (n y.2.1, n' y.2.2)) ++ [(n x.2.1, n' x.2.2)] =
            (out ++ [x]).map fun y => (n y.2.1, n' y.2.2) := by simp
        rw [hm]
        obtain ⟨r, a, b, c, d, e⟩ := ih (out ++ [x]) hs.2 (by
            intro y hy z hz
            rcases List.mem_append.1 hy with hy | hy
            · exact ho y hy z (by simp [hz])
            · simp only [List.mem_singleton] at hy; subst hy; exact hs.1 z hz) (by
            rw [List.pairwise_append]
            refine ⟨hp, by simp, ?_⟩
            intro y hy z hz
            simp only [List.mem_singleton] at hz
            subst hz
            exact fun hc => h2 ((crossed_iff n n' z.2 out).2 ⟨y, hy, hc⟩))
        refine ⟨x :: r, by rw [a]; simp, b.cons₂ _, ?_, by simpa using d, ?_⟩
        · intro z hz
          rcases List.mem_cons.1 hz with rfl | hz
          · linarith
          · exact c z hz
        · intro z hz ht
          rcases List.mem_cons.1 hz with rfl | hz
          · simp
          · rcases e z hz ht with h | ⟨y, hy, h⟩
            · exact Or.inl (by simp [h])
            · exact Or.inr ⟨y, by simpa using hy, h⟩

theorem cross_symm {n n' : Nat → Nat} {p q : Nat × Nat} (h : Cross n n' p q) : Cross n n' q p := h.symm

/-! Alignments. -/

/-- Every list of alignments is extended, by different new ones with a property. -/
def Ext (A A' : Nat → List Nat) (P : Nat → Nat → Prop) : Prop :=
  ∀ a, ∃ new, A' a = A a ++ new ∧ new.Nodup ∧ ∀ b ∈ new, b ∉ A a ∧ P a b

theorem Ext.refl (A : Nat → List Nat) (P : Nat → Nat → Prop) : Ext A A P := fun a => ⟨[], by simp⟩

theorem Ext.trans {A B C : Nat → List Nat} {P : Nat → Nat → Prop} (h : Ext A B P) (h' : Ext B C P) : Ext A C P := by
  intro a
  obtain ⟨l, h1, h2, h3⟩ := h a
  obtain ⟨l', h4, h5, h6⟩ := h' a
  refine ⟨l ++ l', by rw [h4, h1, List.append_assoc], ?_, ?_⟩
  · rw [List.nodup_append]
    refine ⟨h2, h5, ?_⟩
    rintro x hx _ hy rfl
    exact (h6 _ hy).1 (by rw [h1]; simp [hx])
  · intro b hb
    rcases List.mem_append.1 hb with hb | hb
    · exact h3 b hb
    · exact ⟨fun hc => (h6 b hb).1 (by rw [h1]; simp [hc]), (h6 b hb).2⟩

theorem Ext.mono {A B : Nat → List Nat} {P Q : Nat → Nat → Prop} (h : Ext A B P) (hpq : ∀ a b, P a b → Q a b) :
    Ext A B Q := by
  intro a
  obtain ⟨l, h1, h2, h3⟩ := h a
  exact ⟨l, h1, h2, fun b hb => ⟨(h3 b hb).1, hpq a b (h3 b hb).2⟩⟩

theorem Ext.subset {A B : Nat → List Nat} {P : Nat → Nat → Prop} (h : Ext A B P) {a b : Nat} (hb : b ∈ A a) :
    b ∈ B a := by
  obtain ⟨l, h1, -⟩ := h a
  rw [h1]; simp [hb]

theorem Ext.same {A B : Nat → List Nat} {P : Nat → Nat → Prop} (h : Ext A B P) {a : Nat} (hn : ∀ b, ¬ P a b) :
    B a = A a := by
  obtain ⟨l, h1, -, h3⟩ := h a
  cases l with
  | nil => simpa using h1
  | cons b l => exact absurd (h3 b (by simp)).2 (hn b)

theorem create_spec (l : List Scored) (s : St) :
    SameBut (createAlignments s l) s ∧
    Ext s.aligns (createAlignments s l).aligns (fun a b => ∃ r, (r, a, b) ∈ l) ∧
    ∀ r a b, (r, a, b) ∈ l → b ∈ (createAlignments s l).aligns a := by
  induction l generalizing s with
  | nil => exact ⟨.refl _, .refl _ _, by simp⟩
  | cons x l ih =>
    obtain ⟨r, a, b⟩ := x
    by_cases hb : b ∈ s.aligns a
    · have hc : createAlignments s ((r, a, b) :: l) = createAlignments s l := by
        simp [createAlignments, hb]
      rw [hc]
      obtain ⟨h1, h2, h3⟩ := ih s
      refine ⟨h1, h2.mono ?_, ?_⟩
      · rintro a' b' ⟨r', h⟩; exact ⟨r', by simp [h]⟩
      · intro r' a' b' h
        rcases List.mem_cons.1 h with h | h
        · cases h; exact h2.subset hb
        · exact h3 _ _ _ h
    · have hc : createAlignments s ((r, a, b) :: l) =
          createAlignments { s with aligns := put s.aligns a (s.aligns a ++ [b]) } l := by
        simp [createAlignments, hb]
      rw [hc]
      obtain ⟨h1, h2, h3⟩ := ih { s with aligns := put s.aligns a (s.aligns a ++ [b]) }
      have hE : Ext s.aligns (put s.aligns a (s.aligns a ++ [b])) (fun a' b' => ∃ r', (r', a', b') ∈ (r, a, b) :: l) := by
        intro a'
        by_cases ha : a' = a
        · subst ha
          exact ⟨[b], by simp [put], by simp, by
            intro b' hb'
            simp only [List.mem_singleton] at hb'
            subst hb'
            exact ⟨hb, r, by simp⟩⟩
        · exact ⟨[], by simp [put, ha], by simp, by simp⟩
      refine ⟨h1.trans ⟨rfl, rfl, rfl, rfl, rfl, rfl⟩, hE.trans (h2.mono ?_), ?_⟩
      · rintro a' b' ⟨r', h⟩; exact ⟨r', by simp [h]⟩
      · intro r' a' b' h
        rcases List.mem_cons.1 h with h | h
        · cases h; exact h2.subset (by simp [put])
        · exact h3 _ _ _ h

/-- Documents that differ in alignments only. -/
structure Same (d d' : Doc) : Prop where
  root : d.root = d'.root
  text : d.text = d'.text
  st : SameBut d.st d'.st

theorem Same.refl (d : Doc) : Same d d := ⟨rfl, rfl, .refl _⟩
theorem Same.trans {a b c : Doc} (h : Same a b) (h' : Same b c) : Same a c :=
  ⟨h.1.trans h'.1, h.2.trans h'.2, h.3.trans h'.3⟩
theorem Same.symm {a b : Doc} (h : Same a b) : Same b a := ⟨h.1.symm, h.2.symm, h.3.symm⟩

variable {τ ω : Type}

/-- What a pair of scope elements yields. -/
def Yields (c : Config τ ω) (dF dT : Doc) (S T : Tree) (a b : Nat) : Prop :=
  focusElems dF S c.focusS ≠ [] ∧ focusElems dT T c.focusT ≠ [] ∧
  ∃ l l' r, scores c dF dT (focusElems dF S c.focusS) (focusElems dT T c.focusT) = .ok l ∧
    c.filter (fun a => (dF.st.n a).getD 0) (fun a => (dT.st.n a).getD 0) l = .ok l' ∧ (r, a, b) ∈ l'

theorem focusElems_same {d d' : Doc} (h : Same d d') (S : Tree) (tag : String) :
    focusElems d S tag = focusElems d' S tag := by unfold focusElems; rw [h.st.ignored]

theorem scores_same (c : Config τ ω) {d d' : Doc} (h : Same d d') (dT : Doc) (ss ts : List Tree) :
    scores c d dT ss ts = scores c d' dT ss ts := by
  unfold scores
  have : ∀ a, getElemText d a = getElemText d' a := by
    intro a; unfold getElemText; rw [h.text, h.st.start, h.st.stop]
  simp only [this]

theorem Yields.same {c : Config τ ω} {d d' : Doc} (h : Same d d') {dT : Doc} {S T : Tree} {a b : Nat}
    (hy : Yields c d dT S T a b) : Yields c d' dT S T a b := by
  unfold Yields at *
  rw [← focusElems_same h, ← scores_same c h, ← h.st.n]
  exact hy

theorem alignWithin_spec (c : Config τ ω) (dF dT dF' : Doc) (S T : Tree) (h : alignWithin c dF dT S T = .ok dF') :
    Same dF' dF ∧ Ext dF.st.aligns dF'.st.aligns (Yields c dF dT S T) ∧
      ∀ a b, Yields c dF dT S T a b → b ∈ dF'.st.aligns a := by
  unfold alignWithin at h
  dsimp only at h
  split at h
  · rename_i hc
    injection h with h
    subst h
    refine ⟨.refl _, .refl _ _, ?_⟩
    rintro a b ⟨h1, h2, -⟩
    rcases hc with hc | hc
    · exact absurd hc h1
    · exact absurd hc h2
  · rename_i hc
    rw [not_or] at hc
    split at h
    · simp at h
    · rename_i l hl
      split at h
      · simp at h
      · rename_i l' hl'
        injection h with h
        subst h
        obtain ⟨h1, h2, h3⟩ := create_spec l' dF.st
        refine ⟨⟨rfl, rfl, h1⟩, h2.mono ?_, ?_⟩
        · rintro a b ⟨r, hr⟩
          exact ⟨hc.1, hc.2, l, l', r, hl, hl', hr⟩
        · rintro a b ⟨-, -, m, m', r, e1, e2, hr⟩
          rw [hl] at e1
          injection e1 with e1
          subst e1
          rw [hl'] at e2
          injection e2 with e2
          subst e2
          exact h3 r a b hr

theorem loop_ext {α : Type} (d0 : Doc) (body : α → Doc → Py Doc) (P : α → Nat → Nat → Prop) (I : Doc → Prop)
    (items : List α)
    (hb : ∀ x ∈ items, ∀ d d', Same d d0 → I d → body x d = .ok d' →
      Same d' d0 ∧ I d' ∧ Ext d.st.aligns d'.st.aligns (P x) ∧ ∀ a b, P x a b → b ∈ d'.st.aligns a)
    (d d' : Doc) (hs : Same d d0) (hi : I d) (h : Py.forIn items d body = .ok d') :
    Same d' d0 ∧ I d' ∧ Ext d.st.aligns d'.st.aligns (fun a b => ∃ x ∈ items, P x a b) ∧
      ∀ x ∈ items, ∀ a b, P x a b → b ∈ d'.st.aligns a := by
  induction items generalizing d with
  | nil =>
    simp only [Py.forIn] at h
    injection h with h
    subst h
    exact ⟨hs, hi, .refl _ _, by simp⟩
  | cons x items ih =>
    unfold Py.forIn at h
    cases hx : body x d with
    | error e => rw [hx] at h; simp at h
    | ok d1 =>
      rw [hx] at h
      dsimp only at h
      obtain ⟨a1, a2, a3, a4⟩ := hb x (by simp) d d1 hs hi hx
      obtain ⟨b1, b2, b3, b4⟩ := ih (fun y hy => hb y (by simp [hy])) d1 a1 a2 h
      refine ⟨b1, b2, (a3.mono ?_).trans (b3.mono ?_), ?_⟩
      · intro a b hp; exact ⟨x, by simp, hp⟩
      · rintro a b ⟨y, hy, hp⟩; exact ⟨y, by simp [hy], hp⟩
      · intro y hy a b hp
        rcases List.mem_cons.1 hy with rfl | hy
        · exact b3.subset (a4 a b hp)
        · exact b4 y hy a b hp

/-- What a scope element yields, with the elements it is aligned to. -/
def ScopeYields (c : Config τ ω) (scopeT : List String) (dF dT : Doc) (S : Tree) (L : List Nat) (a b : Nat) : Prop :=
  ∃ x ∈ L, ∃ T, elemAt dT.root x = .ok T ∧ T.tag ∈ scopeT ∧ Yields c dF dT S T a b

theorem alignScope_spec (c : Config τ ω) (scopeT : List String) (dT dF dF' : Doc) (S : Tree)
    (h : alignScope c scopeT dT S dF = .ok dF') :
    Same dF' dF ∧ Ext dF.st.aligns dF'.st.aligns (ScopeYields c scopeT dF dT S (dF.st.aligns S.addr)) ∧
      ∀ a b, ScopeYields c scopeT dF dT S (dF.st.aligns S.addr) a b → b ∈ dF'.st.aligns a := by
  unfold alignScope at h
  obtain ⟨h1, -, h2, h3⟩ := loop_ext dF _ (fun x a b => ∃ T, elemAt dT.root x = .ok T ∧ T.tag ∈ scopeT ∧
    Yields c dF dT S T a b) (fun _ => True) _ (by
      intro x _ d d' hs _ hb
      cases hT : elemAt dT.root x with
      | error e => rw [hT] at hb; simp at hb
      | ok T =>
        rw [hT] at hb
        dsimp only at hb
        by_cases ht : T.tag ∈ scopeT
        · rw [if_neg (by simpa using ht)] at hb
          obtain ⟨g1, g2, g3⟩ := alignWithin_spec c d dT d' S T hb
          refine ⟨g1.trans hs, trivial, g2.mono ?_, ?_⟩
          · intro a b hy; exact ⟨T, rfl, ht, hy.same hs⟩
          · rintro a b ⟨T', e1, -, hy⟩
            injection e1 with e1
            subst e1
            exact g3 a b (hy.same hs.symm)
        · rw [if_pos ht] at hb
          injection hb with hb
          subst hb
          refine ⟨hs, trivial, .refl _ _, ?_⟩
          rintro a b ⟨T', e1, e2, -⟩
          injection e1 with e1
          subst e1
          exact absurd e2 ht) dF dF' (.refl _) trivial h
  refine ⟨h1, h2, ?_⟩
  rintro a b ⟨x, hx, hy⟩
  exact h3 x hx a b hy

theorem ScopeYields.same {c : Config τ ω} {scopeT : List String} {d d' : Doc} (h : Same d d') {dT : Doc} {S : Tree}
    {L L' : List Nat} (hL : ∀ x ∈ L, x ∈ L') {a b : Nat} (hy : ScopeYields c scopeT d dT S L a b) :
    ScopeYields c scopeT d' dT S L' a b := by
  obtain ⟨x, hx, T, h1, h2, h3⟩ := hy
  exact ⟨x, hL x hx, T, h1, h2, h3.same h⟩

theorem forIn_partial {σ α : Type} {f : α → σ → Py σ} (P : σ → Prop) {l : List α} {s s' : σ} (h0 : P s)
    (hstep : ∀ x ∈ l, ∀ s s', P s → f x s = .ok s' → P s') (h : Py.forIn l s f = .ok s') : P s' := by
  induction l generalizing s with
  | nil => simp only [Py.forIn] at h; injection h with h; exact h ▸ h0
  | cons x l ih =>
    unfold Py.forIn at h
    cases hx : f x s with
    | error e => rw [hx] at h; simp at h
    | ok s1 =>
      rw [hx] at h
      exact ih (hstep x (by simp) s s1 h0 hx) (fun y hy => hstep y (by simp [hy])) h

/-- Whatever the tags: new alignments come from scope elements that are aligned in the end. -/
theorem alignScopes_sound (c : Config τ ω) (scopeS scopeT : List String) (dF dT dF' : Doc)
    (h : alignScopes c scopeS scopeT dF dT = .ok dF') :
    Same dF' dF ∧ Ext dF.st.aligns dF'.st.aligns (fun a b => ∃ S ∈ iter dF.root, S.tag ∈ scopeS ∧
      ScopeYields c scopeT dF dT S (dF'.st.aligns S.addr) a b) := by
  unfold alignScopes at h
  refine forIn_partial (fun d => Same d dF ∧ Ext dF.st.aligns d.st.aligns (fun a b => ∃ S ∈ iter dF.root,
    S.tag ∈ scopeS ∧ ScopeYields c scopeT dF dT S (d.st.aligns S.addr) a b)) ⟨.refl _, .refl _ _⟩ ?_ h
  rintro S hS d d' ⟨h1, h2⟩ hb
  by_cases ht : S.tag ∈ scopeS
  · rw [if_neg (by simpa using ht)] at hb
    obtain ⟨g1, g2, -⟩ := alignScope_spec c scopeT dT d d' S hb
    refine ⟨g1.trans h1, (h2.mono ?_).trans (g2.mono ?_)⟩
    · rintro a b ⟨S', e1, e2, e3⟩
      exact ⟨S', e1, e2, e3.same (.refl _) fun x hx => g2.subset hx⟩
    · intro a b hy
      exact ⟨S, hS, ht, hy.same h1 fun x hx => g2.subset hx⟩
  · rw [if_pos ht] at hb
    injection hb with hb
    subst hb
    exact ⟨h1, h2⟩

/-! Scores. -/

theorem mapM_mem {α β : Type} (f : α → Py β) (l : List α) (r : List β) (h : l.mapM f = .ok r) (y : β) :
    y ∈ r ↔ ∃ x ∈ l, f x = .ok y := by
  induction l generalizing r with
  | nil => simp [pure, Except.pure] at h; subst h; simp
  | cons x l ih =>
    rw [List.mapM_cons] at h
    simp only [bind, Except.bind, pure, Except.pure] at h
    cases hx : f x with
    | error e => rw [hx] at h; simp at h
    | ok z =>
      rw [hx] at h
      dsimp only at h
      cases hl : l.mapM f with
      | error e => rw [hl] at h; simp at h
      | ok zs =>
        rw [hl] at h
        injection h with h
        subst h
        simp only [List.mem_cons, ih zs hl]
        constructor
        · rintro (rfl | ⟨w, hw, h⟩)
          · exact ⟨x, Or.inl rfl, hx⟩
          · exact ⟨w, Or.inr hw, h⟩
        · rintro ⟨w, rfl | hw, h⟩
          · rw [hx] at h; injection h with h; exact Or.inl h.symm
          · exact Or.inr ⟨w, hw, h⟩

theorem scoreSim_mem (sim : τ → τ → ω → ω → Py ℝ) (A B : List (Tree × τ × ω)) (l : List Scored)
    (h : scoreSim sim A B = .ok l) (r : ℝ) (a b : Nat) :
    (r, a, b) ∈ l ↔ ∃ s ∈ A, ∃ t ∈ B, sim s.2.1 t.2.1 s.2.2 t.2.2 = .ok r ∧ a = s.1.addr ∧ b = t.1.addr := by
  induction A generalizing l with
  | nil => simp only [scoreSim] at h; injection h with h; subst h; simp
  | cons s A ih =>
    unfold scoreSim at h
    split at h
    · simp at h
    · rename_i row hrow
      split at h
      · rename_i rest hrest
        injection h with h
        subst h
        rw [List.mem_append, ih rest hrest, mapM_mem _ _ _ hrow]
        constructor
        · rintro (⟨t, ht, h⟩ | ⟨s', hs, t, ht, h⟩)
          · refine ⟨s, by simp, t, ht, ?_⟩
            unfold pairScore at h
            split at h
            · rename_i q hq
              injection h with h
              cases h
              exact ⟨hq, rfl, rfl⟩
            · simp at h
          · exact ⟨s', by simp [hs], t, ht, h⟩
        · rintro ⟨s', hs, t, ht, h, rfl, rfl⟩
          rcases List.mem_cons.1 hs with rfl | hs
          · exact Or.inl ⟨t, ht, by unfold pairScore; rw [h]⟩
          · exact Or.inr ⟨s', hs, t, ht, h, rfl, rfl⟩
      · simp at h

theorem mem_take_index {α : Type} (l : List α) (n : Nat) (x : α) : x ∈ l.take n ↔ ∃ i, i < n ∧ l[i]? = some x := by
  rw [List.mem_iff_getElem?]
  constructor
  · rintro ⟨i, h⟩
    rw [List.getElem?_take] at h
    split at h
    · exact ⟨i, by assumption, h⟩
    · simp at h
  · rintro ⟨i, h1, h2⟩
    exact ⟨i, by rw [List.getElem?_take, if_pos h1]; exact h2⟩

theorem mem_drop_index {α : Type} (l : List α) (n : Nat) (x : α) : x ∈ l.drop n ↔ ∃ i, l[n + i]? = some x := by
  rw [List.mem_iff_getElem?]
  simp only [List.getElem?_drop]

/-- The score of the i-th source and the j-th target element. -/
theorem scores_mem (c : Config τ ω) (dF dT : Doc) (ss ts : List IElemTree.Tree) (l : List Scored)
    (h : scores c dF dT ss ts = .ok l) (r : ℝ) (a b : Nat) :
    (r, a, b) ∈ l ↔ ∃ (ws : List ω) (i j : Nat) (e e' : IElemTree.Tree) (w w' : ω),
      c.weight (ss.map (fun e => c.term (getElemText dF e.addr)) ++ ts.map (fun e => c.term (getElemText dT e.addr))) =
        .ok ws ∧ ss[i]? = some e ∧ ts[j]? = some e' ∧ ws[i]? = some w ∧ ws[ss.length + j]? = some w' ∧
      c.sim (c.term (getElemText dF e.addr)) (c.term (getElemText dT e'.addr)) w w' = .ok r ∧
      a = e.addr ∧ b = e'.addr := by
  unfold scores at h
  dsimp only at h
  split at h
  · simp at h
  · rename_i ws hws
    rw [scoreSim_mem _ _ _ _ h]
    constructor
    · rintro ⟨s, hs, t, ht, h1, h2, h3⟩
      rw [mem_take_index] at hs
      rw [mem_drop_index] at ht
      obtain ⟨i, hi, hs⟩ := hs
      obtain ⟨j, ht⟩ := ht
      rw [List.getElem?_zip_eq_some] at hs ht
      obtain ⟨hs1, hs2⟩ := hs
      obtain ⟨ht1, ht2⟩ := ht
      rw [List.getElem?_zip_eq_some] at hs2 ht2
      rw [List.getElem?_append_left hi] at hs1
      rw [List.getElem?_append_right (by omega)] at ht1
      rw [List.getElem?_append_left (by simpa using hi), List.getElem?_map, hs1] at hs2
      rw [List.getElem?_append_right (by simp), List.getElem?_map] at ht2
      simp only [List.length_map, Nat.add_sub_cancel_left] at ht1 ht2
      rw [ht1] at ht2
      simp only [Option.map_some, Option.some.injEq] at hs2 ht2
      refine ⟨ws, i, j, s.1, t.1, s.2.2, t.2.2, hws, hs1, ht1, hs2.2, ht2.2, ?_, h2, h3⟩
      rw [hs2.1, ht2.1]
      exact h1
    · rintro ⟨ws', i, j, e, e', w, w', e0, e1, e2, e3, e4, e5, e6, e7⟩
      rw [hws] at e0
      injection e0 with e0
      subst e0
      have hi : i < ss.length := (List.getElem?_eq_some_iff.1 e1).1
      refine ⟨(e, c.term (getElemText dF e.addr), w), ?_, (e', c.term (getElemText dT e'.addr), w'), ?_, e5, e6, e7⟩
      · rw [mem_take_index]
        refine ⟨i, hi, ?_⟩
        rw [List.getElem?_zip_eq_some]
        refine ⟨by rw [List.getElem?_append_left hi]; exact e1, ?_⟩
        rw [List.getElem?_zip_eq_some]
        refine ⟨?_, e3⟩
        rw [List.getElem?_append_left (by simpa using hi), List.getElem?_map, e1]
        rfl
      · rw [mem_drop_index]
        refine ⟨j, ?_⟩
        rw [List.getElem?_zip_eq_some]
        refine ⟨by rw [List.getElem?_append_right (by omega), Nat.add_sub_cancel_left]; exact e2, ?_⟩
        rw [List.getElem?_zip_eq_some]
        refine ⟨?_, e4⟩
        rw [List.getElem?_append_right (by simp), List.getElem?_map, List.length_map, Nat.add_sub_cancel_left, e2]
        rfl

theorem findall_eq (e : Tree) (tag : String) : findall e tag = (below e).filter fun x => x.tag = tag := by
  unfold findall below
  cases e
  rw [iter_eq]
  simp [elems, Tree.children]

mutual
theorem below_sub : ∀ (t e x : Tree), e ∈ elems t → x ∈ below e → x ∈ elems t
  | .node a tag id text tail cs, e, x, he, hx => by
    unfold elems at he ⊢
    rcases List.mem_cons.1 he with rfl | he
    · exact List.mem_cons_of_mem _ hx
    · exact List.mem_cons_of_mem _ (belowOf_sub cs e x he hx)
theorem belowOf_sub : ∀ (cs : List Tree) (e x : Tree), e ∈ elemsOf cs → x ∈ below e → x ∈ elemsOf cs
  | [], e, x, he, hx => by simp [elemsOf] at he
  | d :: ds, e, x, he, hx => by
    unfold elemsOf at he ⊢
    rcases List.mem_append.1 he with he | he
    · exact List.mem_append_left _ (below_sub d e x he hx)
    · exact List.mem_append_right _ (belowOf_sub ds e x he hx)
end

/-- A filter that only drops scores. -/
def Filters (c : Config τ ω) : Prop := ∀ n n' l l', c.filter n n' l = .ok l' → ∀ x ∈ l', x ∈ l

theorem Yields.focus {c : Config τ ω} (hf : Filters c) {dF dT : Doc} {S T : Tree} {a b : Nat}
    (h : Yields c dF dT S T a b) : (∃ e ∈ focusElems dF S c.focusS, e.addr = a) ∧
      ∃ e ∈ focusElems dT T c.focusT, e.addr = b := by
  obtain ⟨-, -, l, l', r, h1, h2, h3⟩ := h
  have := hf _ _ _ _ h2 _ h3
  rw [scores_mem c dF dT _ _ l h1] at this
  obtain ⟨ws, i, j, e, e', w, w', -, g1, g2, -, -, -, g3, g4⟩ := this
  exact ⟨⟨e, List.mem_of_getElem? g1, g3.symm⟩, ⟨e', List.mem_of_getElem? g2, g4.symm⟩⟩

/-- Focus elements that are no scope elements: exactly what the scope elements yield is added. -/
theorem alignScopes_exact (c : Config τ ω) (hf : Filters c) (scopeS scopeT : List String) (dF dT dF' : Doc)
    (hd : Distinct dF.root) (hfs : c.focusS ∉ scopeS) (h : alignScopes c scopeS scopeT dF dT = .ok dF') :
    Same dF' dF ∧
    Ext dF.st.aligns dF'.st.aligns (fun a b => ∃ S ∈ iter dF.root, S.tag ∈ scopeS ∧
      ScopeYields c scopeT dF dT S (dF.st.aligns S.addr) a b) ∧
    ∀ S ∈ iter dF.root, S.tag ∈ scopeS → ∀ a b, ScopeYields c scopeT dF dT S (dF.st.aligns S.addr) a b →
      b ∈ dF'.st.aligns a := by
  unfold alignScopes at h
  obtain ⟨h1, -, h2, h3⟩ := loop_ext dF _ (fun S a b => S.tag ∈ scopeS ∧
    ScopeYields c scopeT dF dT S (dF.st.aligns S.addr) a b)
    (fun d => ∀ S ∈ iter dF.root, S.tag ∈ scopeS → d.st.aligns S.addr = dF.st.aligns S.addr) _ (by
      intro S hS d d' hs hI hb
      by_cases ht : S.tag ∈ scopeS
      · rw [if_neg (by simpa using ht)] at hb
        obtain ⟨g1, g2, g3⟩ := alignScope_spec c scopeT dT d d' S hb
        rw [hI S hS ht] at g2 g3
        refine ⟨g1.trans hs, ?_, g2.mono fun a b hy => ⟨ht, hy.same hs fun _ h => h⟩, ?_⟩
        · intro S' hS' ht'
          rw [← hI S' hS' ht']
          refine g2.same ?_
          rintro b ⟨x, -, T, -, -, hy⟩
          obtain ⟨⟨e, he, hea⟩, -⟩ := hy.focus hf
          unfold focusElems at he
          rw [findall_eq, List.mem_filter, List.mem_filter] at he
          have het : e.tag = c.focusS := by simpa using he.1.2
          rw [iter_eq] at hS hS'
          have h4 := below_sub _ _ _ hS he.1.1
          have : e = S' := List.inj_on_of_nodup_map hd h4 hS' hea
          subst this
          exact hfs (het ▸ ht')
        · rintro a b ⟨-, hy⟩
          exact g3 a b (hy.same hs.symm fun _ h => h)
      · rw [if_pos ht] at hb
        injection hb with hb
        subst hb
        exact ⟨hs, hI, .refl _ _, fun a b h => absurd h.1 ht⟩) dF dF' (.refl _) (fun _ _ _ => rfl) h
  exact ⟨h1, h2, fun S hS ht a b hy => h3 S hS a b ⟨ht, hy⟩⟩

end Verif.TextAlign
