import Verif.Spec.Xml
import Verif.Lemmas.Base
import Verif.Spec.Layout

/-! Property C40 (lib/daeso/utils/etree.py). -/
namespace Verif.Props.Etree
open Verif Verif.Etree Verif.Spec Verif.Spec.Xml

private theorem str_ok {x : Option Text} (h : AsciiText x) : str x = .ok (x.getD "None".toList) := by
  cases x with
  | none => rfl
  | some s =>
    unfold str
    dsimp only
    rw [if_pos]
    · rfl
    · simp only [List.all_eq_true, decide_eq_true_eq]; exact h s rfl

private theorem str_err {x : Option Text} (h : ¬ AsciiText x) : str x = .error .unicodeError := by
  cases x with
  | none => exact absurd (by intro s hs; simp at hs) h
  | some s =>
    unfold str
    dsimp only
    rw [if_neg]
    intro hc
    simp only [List.all_eq_true, decide_eq_true_eq] at hc
    apply h
    intro s' hs'
    simp only [Option.some.injEq] at hs'
    subst hs'; exact hc

private theorem dictEq_iff {d e : AD String String} (hd : d.WF) (he : e.WF) :
    dictEq d e = true ↔ ∀ k, d.get? k = e.get? k := by
  unfold dictEq
  simp only [Bool.and_eq_true, decide_eq_true_eq, List.all_eq_true]
  constructor
  · rintro ⟨hl, hall⟩ k
    have hsub : d.keys ⊆ e.keys := by
      intro k hk
      unfold AD.keys at hk
      rw [List.mem_map] at hk
      obtain ⟨x, hx, rfl⟩ := hk
      rw [AD.mem_keys_iff, hall x hx]; rfl
    have hperm := (List.subperm_of_subset hd hsub).perm_of_length_le (by unfold AD.keys; simp [hl])
    cases h1 : d.get? k with
    | some v => exact (hall (k, v) (AD.mem_of_get? h1)).symm
    | none =>
      rw [← AD.not_mem_keys_iff, hperm.mem_iff, AD.not_mem_keys_iff] at h1
      exact h1.symm
  · intro h
    have hperm : d.keys.Perm e.keys := by
      rw [List.perm_ext_iff_of_nodup hd he]
      intro k; rw [AD.mem_keys_iff, AD.mem_keys_iff, h]
    refine ⟨by simpa [AD.keys] using hperm.length_eq, ?_⟩
    intro x hx
    rw [← h]; exact AD.get?_of_mem hd hx

mutual
private theorem equals_spec (ws : Char → Bool) : ∀ (e1 e2 : Elem), Ascii e1 → Ascii e2 →
    ∃ b, equals ws e1 e2 = .ok b ∧ (b = true ↔ Same ws e1 e2)
  | .mk t1 a1 x1 l1 c1, .mk t2 a2 x2 l2 c2, h1, h2 => by
    simp only [Ascii] at h1 h2
    obtain ⟨w1, p1, q1, r1⟩ := h1
    obtain ⟨w2, p2, q2, r2⟩ := h2
    simp only [equals, Same, str_ok p1, str_ok p2, str_ok q1, str_ok q2]
    by_cases ht : t1 = t2
    · by_cases hx : shown ws x1 = shown ws x2
      · by_cases hl : shown ws l1 = shown ws l2
        · by_cases ha : dictEq a1 a2 = true
          · by_cases hc : c1.length = c2.length
            · obtain ⟨bs, e1, e2⟩ := equalsList_spec ws c1 c2 r1 r2 hc
              refine ⟨bs.all id, ?_, ?_⟩
              · unfold shown at hx hl
                simp only [ne_eq, not_true_eq_false, not_false_eq_true, if_false, if_true, Bool.not_eq_true, Bool.true_eq_false, ht, hx, hl, ha, hc, e1]
              · rw [e2]; simp [ht, hx, hl, (dictEq_iff w1 w2).1 ha]
            · refine ⟨false, ?_, ?_⟩
              · unfold shown at hx hl
                simp only [ne_eq, not_true_eq_false, not_false_eq_true, if_false, if_true, Bool.not_eq_true, Bool.true_eq_false, ht, hx, hl, ha, hc]
              · simp only [Bool.false_eq_true, false_iff]
                rintro ⟨_, _, _, _, h⟩
                exact hc (sameList_length ws c1 c2 h)
          · refine ⟨false, ?_, ?_⟩
            · unfold shown at hx hl
              simp only [ne_eq, not_true_eq_false, not_false_eq_true, if_false, if_true, Bool.not_eq_true, Bool.true_eq_false, ht, hx, hl, ha]
            · simp only [Bool.false_eq_true, false_iff]
              rintro ⟨_, _, _, h, _⟩
              exact ha ((dictEq_iff w1 w2).2 h)
        · refine ⟨false, ?_, by simp [hl]⟩
          unfold shown at hx hl
          simp only [ht, hx, hl, ne_eq, not_true_eq_false, not_false_eq_true, if_false, if_true]
      · refine ⟨false, ?_, by simp [hx]⟩
        unfold shown at hx
        simp only [ht, hx, ne_eq, not_true_eq_false, not_false_eq_true, if_false, if_true]
    · exact ⟨false, by simp [ht], by simp [ht]⟩
private theorem equalsList_spec (ws : Char → Bool) : ∀ (l1 l2 : List Elem), AsciiList l1 → AsciiList l2 →
    l1.length = l2.length → ∃ bs, equalsList ws l1 l2 = .ok bs ∧ (bs.all id = true ↔ SameList ws l1 l2)
  | [], [], _, _, _ => ⟨[], by simp [equalsList], by simp [SameList]⟩
  | e1 :: l1, e2 :: l2, h1, h2, hl => by
    simp only [AsciiList] at h1 h2
    obtain ⟨b, i1, i2⟩ := equals_spec ws e1 e2 h1.1 h2.1
    obtain ⟨bs, i3, i4⟩ := equalsList_spec ws l1 l2 h1.2 h2.2 (by simpa using hl)
    refine ⟨b :: bs, by simp [equalsList, i1, i3], ?_⟩
    simp only [List.all_cons, Bool.and_eq_true, SameList, id_eq]
    rw [i2, ← i4]
  | [], _ :: _, _, _, hl => by simp at hl
  | _ :: _, [], _, _, hl => by simp at hl
private theorem sameList_length (ws : Char → Bool) : ∀ (l1 l2 : List Elem), SameList ws l1 l2 → l1.length = l2.length
  | [], [], _ => rfl
  | e1 :: l1, e2 :: l2, h => by
    simp only [SameList] at h
    simp [sameList_length ws l1 l2 h.2]
  | [], _ :: _, h => by simp [SameList] at h
  | _ :: _, [], h => by simp [SameList] at h
end

/-- C40.  On ASCII elements `equals` never raises and is true exactly on the same content. -/
theorem equals_iff (ws : Char → Bool) {e1 e2 : Elem} (h1 : Ascii e1) (h2 : Ascii e2) :
    ∃ b, equals ws e1 e2 = .ok b ∧ (b = true ↔ Same ws e1 e2) := equals_spec ws e1 e2 h1 h2

mutual
private theorem same_refl (ws : Char → Bool) : ∀ e : Elem, Same ws e e
  | .mk t a x l c => by simp only [Same, true_and, implies_true]; exact sameList_refl ws c
private theorem sameList_refl (ws : Char → Bool) : ∀ l : List Elem, SameList ws l l
  | [] => by simp [SameList]
  | e :: l => by simp only [SameList]; exact ⟨same_refl ws e, sameList_refl ws l⟩
end

mutual
private theorem same_symm (ws : Char → Bool) : ∀ e1 e2 : Elem, Same ws e1 e2 → Same ws e2 e1
  | .mk t a x l c, .mk t' a' x' l' c', h => by
    simp only [Same] at h ⊢
    exact ⟨h.1.symm, h.2.1.symm, h.2.2.1.symm, fun k => (h.2.2.2.1 k).symm, sameList_symm ws c c' h.2.2.2.2⟩
private theorem sameList_symm (ws : Char → Bool) : ∀ l1 l2 : List Elem, SameList ws l1 l2 → SameList ws l2 l1
  | [], [], _ => by simp [SameList]
  | e1 :: l1, e2 :: l2, h => by
    simp only [SameList] at h ⊢; exact ⟨same_symm ws e1 e2 h.1, sameList_symm ws l1 l2 h.2⟩
  | [], _ :: _, h => by simp [SameList] at h
  | _ :: _, [], h => by simp [SameList] at h
end

mutual
private theorem same_trans (ws : Char → Bool) : ∀ e1 e2 e3 : Elem, Same ws e1 e2 → Same ws e2 e3 → Same ws e1 e3
  | .mk t a x l c, .mk t' a' x' l' c', .mk t'' a'' x'' l'' c'', h, h' => by
    simp only [Same] at h h' ⊢
    exact ⟨h.1.trans h'.1, h.2.1.trans h'.2.1, h.2.2.1.trans h'.2.2.1,
      fun k => (h.2.2.2.1 k).trans (h'.2.2.2.1 k), sameList_trans ws c c' c'' h.2.2.2.2 h'.2.2.2.2⟩
private theorem sameList_trans (ws : Char → Bool) : ∀ l1 l2 l3 : List Elem, SameList ws l1 l2 → SameList ws l2 l3 →
    SameList ws l1 l3
  | [], [], l3, _, h => h
  | e1 :: l1, e2 :: l2, e3 :: l3, h, h' => by
    simp only [SameList] at h h' ⊢
    exact ⟨same_trans ws e1 e2 e3 h.1 h'.1, sameList_trans ws l1 l2 l3 h.2 h'.2⟩
  | [], _ :: _, _, h, _ => by simp [SameList] at h
  | _ :: _, [], _, h, _ => by simp [SameList] at h
  | _ :: _, _ :: _, [], _, h => by simp [SameList] at h
end

private theorem equals_true {ws : Char → Bool} {e1 e2 : Elem} (h1 : Ascii e1) (h2 : Ascii e2) :
    equals ws e1 e2 = .ok true ↔ Same ws e1 e2 := by
  obtain ⟨b, i1, i2⟩ := equals_spec ws e1 e2 h1 h2
  rw [i1, Except.ok.injEq, i2]

/-- C40.  On ASCII elements `equals` is reflexive. -/
theorem equals_refl (ws : Char → Bool) {e : Elem} (h : Ascii e) : equals ws e e = .ok true :=
  (equals_true h h).2 (same_refl ws e)

/-- C40.  On ASCII elements `equals` is symmetric. -/
theorem equals_symm (ws : Char → Bool) {e1 e2 : Elem} (h1 : Ascii e1) (h2 : Ascii e2) :
    equals ws e1 e2 = equals ws e2 e1 := by
  obtain ⟨b, i1, i2⟩ := equals_spec ws e1 e2 h1 h2
  obtain ⟨b', i3, i4⟩ := equals_spec ws e2 e1 h2 h1
  rw [i1, i3]
  have : b = true ↔ b' = true := by rw [i2, i4]; exact ⟨same_symm ws e1 e2, same_symm ws e2 e1⟩
  cases b <;> cases b' <;> simp_all

/-- C40.  On ASCII elements `equals` is transitive. -/
theorem equals_trans (ws : Char → Bool) {e1 e2 e3 : Elem} (h1 : Ascii e1) (h2 : Ascii e2) (h3 : Ascii e3)
    (h12 : equals ws e1 e2 = .ok true) (h23 : equals ws e2 e3 = .ok true) : equals ws e1 e3 = .ok true :=
  (equals_true h1 h3).2 (same_trans ws _ _ _ ((equals_true h1 h2).1 h12) ((equals_true h2 h3).1 h23))

mutual
/-- Some text or tail in the tree is not ASCII. -/
def NonAscii : Elem → Prop
  | .mk _ _ x l c => ¬ AsciiText x ∨ ¬ AsciiText l ∨ NonAsciiList c
/-- The same for some element of a list. -/
def NonAsciiList : List Elem → Prop
  | [] => False
  | e :: es => NonAscii e ∨ NonAsciiList es
end

mutual
/-- Every attribute table is a dict. -/
def AttribWF : Elem → Prop
  | .mk _ a _ _ c => a.WF ∧ AttribWFList c
/-- The same for all elements of a list. -/
def AttribWFList : List Elem → Prop
  | [] => True
  | e :: es => AttribWF e ∧ AttribWFList es
end

mutual
private theorem nonAscii_or (e : Elem) (h : AttribWF e) : Ascii e ∨ NonAscii e := by
  cases e with
  | mk t a x l c =>
    simp only [AttribWF] at h
    simp only [Ascii, NonAscii]
    by_cases hx : AsciiText x
    · by_cases hl : AsciiText l
      · rcases nonAsciiList_or c h.2 with hc | hc
        · exact Or.inl ⟨h.1, hx, hl, hc⟩
        · exact Or.inr (Or.inr (Or.inr hc))
      · exact Or.inr (Or.inr (Or.inl hl))
    · exact Or.inr (Or.inl hx)
private theorem nonAsciiList_or (l : List Elem) (h : AttribWFList l) : AsciiList l ∨ NonAsciiList l := by
  cases l with
  | nil => simp [AsciiList]
  | cons e l =>
    simp only [AttribWFList] at h
    simp only [AsciiList, NonAsciiList]
    rcases nonAscii_or e h.1 with h1 | h1
    · rcases nonAsciiList_or l h.2 with h2 | h2
      · exact Or.inl ⟨h1, h2⟩
      · exact Or.inr (Or.inr h2)
    · exact Or.inr (Or.inl h1)
end

mutual
private theorem equals_self_err (ws : Char → Bool) (e : Elem) (h : AttribWF e) (hn : NonAscii e) :
    equals ws e e = .error .unicodeError := by
  cases e with
  | mk t a x l c =>
    simp only [AttribWF] at h
    simp only [NonAscii] at hn
    simp only [equals, ne_eq, not_true_eq_false, if_false]
    by_cases hx : AsciiText x
    · rw [str_ok hx]
      dsimp only
      by_cases hl : AsciiText l
      · rw [str_ok hl]
        dsimp only
        have ha : dictEq a a = true := (dictEq_iff h.1 h.1).2 fun _ => rfl
        rw [equalsList_self_err ws c h.2 ((hn.resolve_left (by simp [hx])).resolve_left (by simp [hl]))]
        simp [ha]
      · rw [str_err hl]; simp
    · rw [str_err hx]
private theorem equalsList_self_err (ws : Char → Bool) (l : List Elem) (h : AttribWFList l) (hn : NonAsciiList l) :
    equalsList ws l l = .error .unicodeError := by
  cases l with
  | nil => simp [NonAsciiList] at hn
  | cons e l =>
    simp only [AttribWFList] at h
    simp only [NonAsciiList] at hn
    simp only [equalsList]
    rcases nonAscii_or e h.1 with h1 | h1
    · rw [equals_refl ws h1]
      dsimp only
      rcases nonAsciiList_or l h.2 with h2 | h2
      · rcases hn with h3 | h3
        · have := equals_refl ws h1
          rw [equals_self_err ws e h.1 h3] at this
          simp at this
        · rw [equalsList_self_err ws l h.2 h3]
      · rw [equalsList_self_err ws l h.2 h2]
    · rw [equals_self_err ws e h.1 h1]
end

/-- C40.  On the other elements reflexivity fails: comparing an element with itself (or a copy) raises
UnicodeEncodeError as soon as some text or tail is not ASCII. -/
theorem equals_non_ascii_raises (ws : Char → Bool) {e : Elem} (h : AttribWF e) (hn : NonAscii e) :
    equals ws e e = .error .unicodeError := equals_self_err ws e h hn

/-! ### Indentation -/

private theorem dropWhile_nil_iff {ws : Char → Bool} {l : Text} : l.dropWhile ws = [] ↔ ∀ x ∈ l, ws x = true := by
  induction l with
  | nil => simp
  | cons c l ih =>
    rw [List.dropWhile_cons]
    by_cases h : ws c = true
    · simp [h, ih]
    · simp [h]

private theorem blank_newline {ws : Char → Bool} (h1 : ws '\n' = true) (h2 : ws ' ' = true) (n : Nat) :
    blank ws (some (newline n)) = true := by
  unfold blank newline
  simp only [List.all_cons, Bool.and_eq_true, List.all_eq_true, List.mem_replicate]
  exact ⟨h1, by rintro c ⟨_, rfl⟩; exact h2⟩

private theorem blank_indented {ws : Char → Bool} (h1 : ws '\n' = true) (h2 : ws ' ' = true) (n : Nat) :
    blank ws (some (newline n ++ "  ".toList)) = true := by
  have := blank_newline h1 h2 n
  unfold blank at this ⊢
  dsimp only at this ⊢
  rw [List.all_append, this]
  simp [h2]

private theorem sameText_refl (ws : Char → Bool) (x : Option Text) : SameText ws x x := Or.inl rfl

private theorem sameText_trans {ws : Char → Bool} {x y z : Option Text} (h1 : SameText ws x y) (h2 : SameText ws y z) :
    SameText ws x z := by
  rcases h1 with rfl | h1
  · exact h2
  · rcases h2 with rfl | h2
    · exact Or.inr h1
    · exact Or.inr ⟨h1.1, h2.2⟩

private theorem respacedList_fixLast {ws : Char → Bool} {i : Text} (hi : blank ws (some i) = true) :
    ∀ (l l' : List Elem), RespacedList ws l l' → RespacedList ws l (fixLast ws i l')
  | [], [], h => by simpa [fixLast] using h
  | [], _ :: _, h => by simp [RespacedList] at h
  | _ :: _, [], h => by simp [RespacedList] at h
  | e :: l, e' :: l', h => by
    simp only [RespacedList] at h
    cases l' with
    | nil =>
      simp only [fixLast, RespacedList]
      refine ⟨?_, h.2⟩
      split
      · rename_i hb
        obtain ⟨h, _⟩ := h
        cases e; cases e'
        simp only [Respaced, Elem.setTail, Elem.tail] at h hb ⊢
        refine ⟨h.1, h.2.1, h.2.2.1, ?_, h.2.2.2.2⟩
        exact sameText_trans h.2.2.2.1 (Or.inr ⟨hb, hi⟩)
      · exact h.1
    | cons e'' l' =>
      simp only [fixLast]
      rw [show RespacedList ws (e :: l) (e' :: fixLast ws i (e'' :: l')) =
        (Respaced ws e e' ∧ RespacedList ws l (fixLast ws i (e'' :: l'))) by simp only [RespacedList]]
      exact ⟨h.1, respacedList_fixLast hi l (e'' :: l') h.2⟩

mutual
private theorem indent_respaced_aux {ws : Char → Bool} (h1 : ws '\n' = true) (h2 : ws ' ' = true) :
    ∀ (n : Nat) (e : Elem), Respaced ws e (indent ws n e)
  | n, .mk t a x l c => by
    simp only [indent, Respaced, true_and]
    refine ⟨?_, ?_, ?_⟩
    · split
      · rename_i h; exact Or.inr ⟨h.2, blank_indented h1 h2 n⟩
      · exact Or.inl rfl
    · split
      · rename_i h; exact Or.inr ⟨h.2, blank_newline h1 h2 n⟩
      · exact Or.inl rfl
    · exact respacedList_fixLast (blank_newline h1 h2 n) _ _ (indentList_respaced h1 h2 (n + 1) c)
private theorem indentList_respaced {ws : Char → Bool} (h1 : ws '\n' = true) (h2 : ws ' ' = true) :
    ∀ (n : Nat) (l : List Elem), RespacedList ws l (indentList ws n l)
  | n, [] => by simp [indentList, RespacedList]
  | n, e :: l => by
    simp only [indentList, RespacedList]
    exact ⟨indent_respaced_aux h1 h2 n e, indentList_respaced h1 h2 n l⟩
end

/-- C40.  `indent` keeps tags, attributes, the tree and every text and tail that is not blank; blank ones stay
blank. -/
theorem indent_respaced {ws : Char → Bool} (h1 : ws '\n' = true) (h2 : ws ' ' = true) (n : Nat) (e : Elem) :
    Respaced ws e (indent ws n e) := indent_respaced_aux h1 h2 n e

private theorem fixLast_ne (ws : Char → Bool) (i : Text) (l : List Elem) : fixLast ws i l = [] ↔ l = [] := by
  cases l with
  | nil => simp [fixLast]
  | cons e l => cases l <;> simp [fixLast]

private theorem indentList_ne (ws : Char → Bool) (n : Nat) (l : List Elem) : indentList ws n l = [] ↔ l = [] := by
  cases l <;> simp [indentList]

private theorem setTail_setTail (e : Elem) (x y : Option Text) : (e.setTail x).setTail y = e.setTail y := by
  cases e; rfl

private theorem tail_setTail (e : Elem) (x : Option Text) : (e.setTail x).tail = x := by cases e; rfl

private theorem indent_setTail_fix {ws : Char → Bool} {n m : Nat} {e : Elem} (hn : n ≠ 0) {i : Text}
    (hi : blank ws (some i) = true) (he : indent ws n (indent ws n e) = indent ws n e) (_ : m = m)
    (hb : blank ws (indent ws n e).tail = true) (hnl : blank ws (some (newline n)) = true) :
    (indent ws n ((indent ws n e).setTail (some i))).setTail (some i) = (indent ws n e).setTail (some i) ∧
      blank ws (indent ws n ((indent ws n e).setTail (some i))).tail = true := by
  generalize hf : indent ws n e = f at he hb ⊢
  cases f with
  | mk t a x l c =>
    simp only [indent, Elem.setTail, Elem.tail] at he hb ⊢
    simp only [Elem.mk.injEq, true_and] at he
    constructor
    · simp only [Elem.mk.injEq, true_and]
      exact ⟨he.1, he.2.2⟩
    · rw [if_pos ⟨hn, hi⟩]; exact hnl

private theorem fix_idem {ws : Char → Bool} {n : Nat} (hn : n ≠ 0) {i : Text} (hi : blank ws (some i) = true)
    (hnl : blank ws (some (newline n)) = true) : ∀ (l : List Elem),
    (∀ e ∈ l, indent ws n (indent ws n e) = indent ws n e) →
    fixLast ws i (indentList ws n (fixLast ws i (indentList ws n l))) = fixLast ws i (indentList ws n l)
  | [], _ => by simp [indentList, fixLast]
  | [e], h => by
    have he := h e (by simp)
    simp only [indentList, fixLast]
    by_cases hb : blank ws (indent ws n e).tail = true
    · rw [if_pos hb]
      obtain ⟨h3, h4⟩ := indent_setTail_fix (m := 0) hn hi he rfl hb hnl
      rw [if_pos h4, h3]
    · rw [if_neg hb]
      rw [he, if_neg hb]
  | e :: e' :: l, h => by
    have he := h e (by simp)
    have ih := fix_idem hn hi hnl (e' :: l) (fun x hx => h x (by simp [hx]))
    have hstep : fixLast ws i (indentList ws n (e :: e' :: l)) =
        indent ws n e :: fixLast ws i (indentList ws n (e' :: l)) := by
      simp [indentList, fixLast]
    rw [hstep]
    simp only [indentList] at ih ⊢
    generalize hL : fixLast ws i (indent ws n e' :: indentList ws n l) = L at ih ⊢
    cases L with
    | nil => rw [fixLast_ne] at hL; simp at hL
    | cons f L =>
      simp only [indentList] at ih ⊢
      rw [he]
      simp only [fixLast]
      rw [ih]

mutual
private theorem indent_idem_aux {ws : Char → Bool} (h1 : ws '\n' = true) (h2 : ws ' ' = true) :
    ∀ (n : Nat) (e : Elem), indent ws n (indent ws n e) = indent ws n e
  | n, .mk t a x l c => by
    have hc : ∀ e ∈ c, indent ws (n + 1) (indent ws (n + 1) e) = indent ws (n + 1) e := indentList_idem h1 h2 (n + 1) c
    simp only [indent, Elem.mk.injEq, true_and]
    refine ⟨?_, ?_, fix_idem (by omega) (blank_newline h1 h2 n) (blank_newline h1 h2 (n + 1)) c hc⟩
    · have : fixLast ws (newline n) (indentList ws (n + 1) c) ≠ [] ↔ c ≠ [] := by
        rw [ne_eq, fixLast_ne, indentList_ne]
      simp only [this]
      split <;> simp_all
    · split <;> simp_all
private theorem indentList_idem {ws : Char → Bool} (h1 : ws '\n' = true) (h2 : ws ' ' = true) :
    ∀ (n : Nat) (l : List Elem), ∀ e ∈ l, indent ws n (indent ws n e) = indent ws n e
  | n, [] => by simp
  | n, e :: l => by
    intro e' he'
    rcases List.mem_cons.1 he' with h | h
    · rw [h]; exact indent_idem_aux h1 h2 n e
    · exact indentList_idem h1 h2 n l e' h
end

/-- C40.  `indent` is idempotent. -/
theorem indent_idempotent {ws : Char → Bool} (h1 : ws '\n' = true) (h2 : ws ' ' = true) (n : Nat) (e : Elem) :
    indent ws n (indent ws n e) = indent ws n e := indent_idem_aux h1 h2 n e

/-- C40, limits.  An element with children and no text is not equal to its indented self. -/
theorem indent_not_equal {ws : Char → Bool} (h1 : ws '\n' = true) (h2 : ws ' ' = true) (hN : ws 'N' = false)
    (t : String) (a : AD String String) (l : Option Text) (c : Elem) (cs : List Elem) (n : Nat) :
    equals ws (.mk t a none l (c :: cs)) (indent ws n (.mk t a none l (c :: cs))) = .ok false := by
  have hall : ∀ x ∈ newline n ++ "  ".toList, ws x = true := by
    have := blank_indented h1 h2 n
    unfold blank at this
    simpa only [List.all_eq_true] using this
  have hs : strip ws (newline n ++ "  ".toList) = [] := by
    unfold strip
    rw [dropWhile_nil_iff.2 hall]; rfl
  have hs2 : strip ws "None".toList ≠ [] := by
    unfold strip
    have : "None".toList.dropWhile ws = "None".toList := by
      simp [List.dropWhile, hN]
    rw [this]
    intro hc
    rw [List.reverse_eq_nil_iff, dropWhile_nil_iff] at hc
    have := hc 'N' (by decide)
    rw [hN] at this; simp at this
  have hasc : AsciiText (some (newline n ++ "  ".toList)) := by
    intro s hs c hc
    simp only [Option.some.injEq] at hs
    subst hs
    simp only [newline, List.cons_append, List.mem_cons, List.mem_append, List.mem_replicate] at hc
    rcases hc with rfl | ⟨_, rfl⟩ | hc
    · decide
    · decide
    · have : c = ' ' := by simpa using hc
      subst this; decide
  simp only [indent, blank, ne_eq, reduceCtorEq, not_false_eq_true, true_and, if_true, equals, not_true_eq_false,
    if_false]
  rw [str_ok hasc]
  simp only [str, Option.getD_some, hs]
  rw [if_pos hs2]

/-! ### The layout -/

private theorem newline_eq (n : Nat) : newline n = Layout.lineBreak n := by
  unfold newline Layout.lineBreak
  congr 1
  induction n with
  | zero => rfl
  | succ n ih =>
    rw [show 2 * (n + 1) = 2 * n + 1 + 1 by omega, List.replicate_succ, List.replicate_succ, List.replicate_succ,
      List.flatten_cons, ih]
    rfl

private theorem newline_succ (n : Nat) : newline n ++ "  ".toList = newline (n + 1) := by
  unfold newline
  rw [show 2 * (n + 1) = 2 * n + 2 by omega, List.replicate_add]
  rfl

private theorem fill_eq (ws : Char → Bool) (x : Option Text) (n : Nat) :
    (if blank ws x = true then some (newline n) else x) = Layout.fill ws x n := by
  unfold Layout.fill
  rw [← newline_eq]
  cases x <;> simp [blank]

mutual
private theorem indent_laid_aux {ws : Char → Bool} (h1 : ws '\n' = true) (h2 : ws ' ' = true) :
    ∀ (n : Nat) (e : Elem), indent ws n e = Layout.laid ws n (if n = 0 then none else some n) e
  | n, .mk t a x l c => by
    have hc := children_laid h1 h2 n c
    simp only [indent, Layout.laid, hc]
    congr 1
    · by_cases hn : c = []
      · simp [hn]
      · simp only [ne_eq, hn, not_false_eq_true, true_and, if_false]
        rw [newline_succ, fill_eq]
    · by_cases hn : n = 0
      · simp [hn]
      · simp only [ne_eq, hn, not_false_eq_true, true_and, if_false, Option.elim]
        rw [fill_eq]
private theorem children_laid {ws : Char → Bool} (h1 : ws '\n' = true) (h2 : ws ' ' = true) :
    ∀ (n : Nat) (l : List Elem), fixLast ws (newline n) (indentList ws (n + 1) l) = Layout.laidChildren ws n l
  | n, [] => rfl
  | n, [e] => by
    have he := indent_laid_aux h1 h2 (n + 1) e
    simp only [indentList, fixLast, Layout.laidChildren, he, Nat.add_one_ne_zero, if_false]
    cases e with
    | mk t a x l c =>
      have key : (if blank ws (Layout.fill ws l (n + 1)) = true then some (newline n) else Layout.fill ws l (n + 1)) =
          Layout.fill ws l n := by
        rw [← fill_eq, ← fill_eq]
        cases hb : blank ws l with
        | true =>
          simp only [if_true]
          rw [if_pos (blank_newline h1 h2 _)]
        | false => simp [hb]
      simp only [Layout.laid, Option.elim, ← key]
      show [if blank ws (Layout.fill ws l (n + 1)) = true then _ else _] = _
      split <;> rfl
  | n, e :: e' :: l => by
    have he := indent_laid_aux h1 h2 (n + 1) e
    have hl := children_laid h1 h2 n (e' :: l)
    simp only [indentList, fixLast, Layout.laidChildren, he, Nat.add_one_ne_zero, if_false] at hl ⊢
    rw [hl]
end

/-- C40.  Indentation starts every child and the end tag of an element with children on a new line, with two spaces per
level, wherever there was only white space, and leaves all other text. -/
theorem indent_layout {ws : Char → Bool} (h1 : ws '\n' = true) (h2 : ws ' ' = true) (e : Elem) :
    indent ws 0 e = Layout.laid ws 0 none e := by
  simpa using indent_laid_aux h1 h2 0 e

/-! ### Concrete cases -/

/-- Python 2 `str.isspace`. -/
def space (c : Char) : Bool := c ∈ [' ', '\t', '\n', '\r', '\x0b', '\x0c']

/-- `<a x="1" y="2"> t<b/>u</a>`. -/
def sample : Elem := .mk "a" [("x", "1"), ("y", "2")] (some " t".toList) none [.mk "b" [] none (some "u".toList) []]

example : Ascii sample := by
  simp only [sample, Ascii, AsciiList, AsciiText, and_true]
  refine ⟨by unfold AD.WF; decide, ?_, by simp, by unfold AD.WF; decide, by simp, ?_⟩ <;>
  · intro s hs c hc
    simp only [Option.some.injEq] at hs
    subst hs
    revert c
    decide

example : equals space sample (.mk "a" [("y", "2"), ("x", "1")] (some "t\n".toList) none
    [.mk "b" [] none (some "u ".toList) []]) = .ok true := by
  simp [sample, equals, equalsList, str, dictEq, strip, space, AD.get?]

end Verif.Props.Etree
