import Verif.Model.TfIdf
import Verif.Lemmas.Base

namespace Verif.TfIdf
open Verif
set_option linter.unusedSectionVars false

variable {τ : Type} [LinearOrder τ]

/-- A dict that represents the counts `f`. -/
def Cnt (d : AD τ Nat) (f : τ → Nat) : Prop :=
  d.WF ∧ ∀ t, d.get? t = if f t = 0 then none else some (f t)

theorem Cnt.nil : Cnt ([] : AD τ Nat) (fun _ => 0) := ⟨AD.WF.nil, by simp⟩

theorem Cnt.incr {d : AD τ Nat} {f : τ → Nat} (h : Cnt d f) (t : τ) :
    Cnt (incr d t) (fun x => f x + if x = t then 1 else 0) := by
  obtain ⟨hw, hg⟩ := h
  have hd : TfIdf.incr d t = d.set t (f t + 1) := by
    unfold TfIdf.incr
    rw [hg t]
    by_cases h0 : f t = 0 <;> simp [h0]
  rw [hd]
  refine ⟨hw.set _ _, ?_⟩
  intro x
  rw [AD.get?_set]
  by_cases hx : x = t
  · subst hx; simp
  · simp [hx, hg x]

theorem Cnt.congr {d : AD τ Nat} {f g : τ → Nat} (h : Cnt d f) (hfg : ∀ t, f t = g t) : Cnt d g := by
  have : f = g := funext hfg
  rw [← this]; exact h

theorem Cnt.foldl {d : AD τ Nat} {f : τ → Nat} (h : Cnt d f) (l : List τ) :
    Cnt (l.foldl TfIdf.incr d) (fun x => f x + l.count x) := by
  induction l generalizing d f with
  | nil => simpa using h
  | cons t l ih =>
    simp only [List.foldl_cons]
    refine (ih (h.incr t)).congr ?_
    intro x
    rw [List.count_cons]
    by_cases hx : x = t
    · subst hx; simp; omega
    · have : ¬ t = x := fun h => hx h.symm
      simp [hx, this]

theorem mem_keys_cnt {d : AD τ Nat} {f : τ → Nat} (h : Cnt d f) (t : τ) : t ∈ d.keys ↔ f t ≠ 0 := by
  rw [AD.mem_keys_iff, h.2 t]
  by_cases h0 : f t = 0 <;> simp [h0]

theorem docLoop_spec (doc : List τ) (terms : AD τ Unit) :
    docLoop doc terms = (doc.foldl (fun d t => d.set t ()) terms, doc.foldl TfIdf.incr []) := by
  unfold docLoop
  suffices H : ∀ (a : AD τ Unit) (b : AD τ Nat),
      doc.foldl (fun s t => (s.1.set t (), TfIdf.incr s.2 t)) (a, b) =
        (doc.foldl (fun d t => d.set t ()) a, doc.foldl TfIdf.incr b) from H _ _
  induction doc with
  | nil => intro a b; rfl
  | cons x xs ih => intro a b; simp only [List.foldl_cons]; exact ih _ _

theorem setAll_spec (doc : List τ) : ∀ (d : AD τ Unit), d.WF →
    (doc.foldl (fun d t => d.set t ()) d).WF ∧
    ∀ t, t ∈ (doc.foldl (fun d t => d.set t ()) d).keys ↔ t ∈ d.keys ∨ t ∈ doc := by
  induction doc with
  | nil => intro d h; exact ⟨h, by simp⟩
  | cons x xs ih =>
    intro d h
    simp only [List.foldl_cons]
    obtain ⟨h1, h2⟩ := ih (d.set x ()) (h.set _ _)
    refine ⟨h1, fun t => ?_⟩
    rw [h2 t, AD.keys_set]
    split
    · rename_i hx
      simp only [List.mem_cons]
      constructor
      · rintro (h | h) <;> simp [h]
      · rintro (h | rfl | h)
        · exact Or.inl h
        · exact Or.inl hx
        · exact Or.inr h
    · simp only [List.mem_append, List.mem_cons, List.not_mem_nil, or_false]; tauto

theorem termLoop_spec (docs : List (List τ)) : ∀ (a : AD τ Unit) (b : List (AD τ Nat)), a.WF →
    ∃ a', docs.foldl (fun (s : AD τ Unit × List (AD τ Nat)) doc =>
        let r := docLoop doc s.1
        (r.1, s.2 ++ [r.2])) (a, b) = (a', b ++ docs.map fun doc => doc.foldl TfIdf.incr []) ∧
      a'.WF ∧ ∀ t, t ∈ a'.keys ↔ t ∈ a.keys ∨ ∃ doc ∈ docs, t ∈ doc := by
  induction docs with
  | nil => intro a b h; exact ⟨a, by simp, h, by simp⟩
  | cons doc docs ih =>
    intro a b h
    simp only [List.foldl_cons, docLoop_spec]
    obtain ⟨h1, h2⟩ := setAll_spec doc a h
    simp only [docLoop_spec] at ih
    obtain ⟨a', e1, e2, e3⟩ := ih (doc.foldl (fun d t => d.set t ()) a)
      (b ++ [doc.foldl TfIdf.incr []]) h1
    refine ⟨a', by rw [e1]; simp, e2, ?_⟩
    intro t
    rw [e3, h2]
    simp only [List.mem_cons, exists_eq_or_imp]
    tauto

theorem termFrequencies_spec (docs : List (List τ)) :
    (termFrequencies docs).2 = docs.map (fun doc => doc.foldl TfIdf.incr []) ∧
    (termFrequencies docs).1.Pairwise (· < ·) ∧
    ∀ t, t ∈ (termFrequencies docs).1 ↔ ∃ doc ∈ docs, t ∈ doc := by
  obtain ⟨a', e1, e2, e3⟩ := termLoop_spec docs [] [] AD.WF.nil
  have hp := List.mergeSort_perm a'.keys (fun a b => decide (a ≤ b))
  have hs : (a'.keys.mergeSort (fun a b => decide (a ≤ b))).Pairwise (· ≤ ·) := by
    have := List.pairwise_mergeSort (le := fun a b : τ => decide (a ≤ b))
      (by intro a b c; simp; exact le_trans) (by intro a b; simp; exact le_total a b) a'.keys
    simpa using this
  have hn : (a'.keys.mergeSort (fun a b => decide (a ≤ b))).Nodup := hp.nodup_iff.2 e2
  unfold termFrequencies
  simp only [e1]
  refine ⟨by simp, ?_, ?_⟩
  · exact (hs.and hn).imp fun h => lt_of_le_of_ne h.1 h.2
  · intro t
    rw [hp.mem_iff, e3]
    simp [AD.keys]

theorem documentFrequencies_spec (docs : List (List τ)) :
    Cnt (documentFrequencies (docs.map (fun doc => doc.foldl TfIdf.incr [])))
      (fun t => docs.countP fun doc => t ∈ doc) := by
  unfold documentFrequencies
  suffices H : ∀ (d : AD τ Nat) (f : τ → Nat), Cnt d f →
      Cnt ((docs.map (fun doc => doc.foldl TfIdf.incr [])).foldl (fun d tf => tf.keys.foldl TfIdf.incr d) d)
        (fun t => f t + docs.countP fun doc => t ∈ doc) from
    (H [] (fun _ => 0) Cnt.nil).congr (by simp)
  induction docs with
  | nil => intro d f h; simpa using h
  | cons doc docs ih =>
    intro d f h
    simp only [List.map_cons, List.foldl_cons]
    have hc := Cnt.foldl (Cnt.nil (τ := τ)) doc
    refine (ih _ _ (h.foldl (AD.keys (doc.foldl TfIdf.incr [])))).congr ?_
    intro t
    rw [List.countP_cons]
    have : (AD.keys (doc.foldl TfIdf.incr [])).count t = if t ∈ doc then 1 else 0 := by
      have hm := mem_keys_cnt hc t
      have : t ∈ doc ↔ doc.count t ≠ 0 := by
        rw [← List.count_pos_iff]; omega
      by_cases ht : t ∈ doc
      · simp only [ht, if_true]
        exact (List.Nodup.count hc.1) |>.trans (by rw [if_pos]; rw [hm]; simpa using this.1 ht)
      · simp only [ht, if_false]
        apply List.count_eq_zero.2
        rw [hm]; simp only [Nat.zero_add, ne_eq, not_not]
        by_contra hcon; exact ht (this.2 hcon)
    rw [this]
    simp; omega

theorem mapM_ok {α β : Type} (l : List α) (f : α → Py β) (g : α → β) (h : ∀ x ∈ l, f x = .ok (g x)) :
    l.mapM f = .ok (l.map g) := by
  induction l with
  | nil => rfl
  | cons x xs ih =>
    rw [List.mapM_cons, h x (by simp), ih (fun y hy => h y (by simp [hy]))]
    rfl

end Verif.TfIdf
