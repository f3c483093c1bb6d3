import Verif.Spec.Pair
import Verif.Lemmas.Base
import Verif.Lemmas.AlignPrint

set_option linter.unusedSectionVars false
namespace Verif.Pair
open Verif.Spec.Pair
open Verif.Etree (Text)
open Verif.StatsTable

theorem get_some {α : Type _} {l : List α} {i : Nat} {x : α} (h : l[i]? = some x) : Py.get l i = .ok x := by
  simp only [Py.get, h]

theorem codes_inj {s t : Text} (h : s.map Char.toNat = t.map Char.toNat) : s = t :=
  List.map_injective_iff.2 (fun a b hab => Char.toNat_inj.1 hab) h

theorem bytes_inj {s t : List (Fin 256)} (h : s.map Fin.val = t.map Fin.val) : s = t :=
  List.map_injective_iff.2 (fun a b hab => Fin.ext hab) h

theorem textEq_iff (s : List (Fin 256)) (t : Text) :
    textEq s t = true ↔ (∀ b ∈ s, b.val < 128) ∧ s.map Fin.val = t.map Char.toNat := by
  simp [textEq]

theorem Same_str_uni (s : List (Fin 256)) (t : Text) : Same (.str s) (.uni t) ↔ textEq s t = true := by
  rw [textEq_iff]
  constructor
  · intro h; cases h with | ascii _ _ h1 h2 => exact ⟨h1, h2⟩
  · rintro ⟨h1, h2⟩; exact .ascii _ _ h1 h2

theorem Same_uni_str (s : List (Fin 256)) (t : Text) : Same (.uni t) (.str s) ↔ textEq s t = true := by
  rw [textEq_iff]
  constructor
  · intro h; cases h with | unicode _ _ h1 h2 => exact ⟨h1, h2⟩
  · rintro ⟨h1, h2⟩; exact .unicode _ _ h1 h2

theorem Same_pair (s t s' t' : Tree) : Same (.pair s t) (.pair s' t') ↔ Same s s' ∧ Same t t' := by
  constructor
  · intro h
    cases h with
    | refl => exact ⟨.refl _, .refl _⟩
    | pair _ _ _ _ h1 h2 => exact ⟨h1, h2⟩
  · rintro ⟨h1, h2⟩; exact .pair _ _ _ _ h1 h2

theorem Same.symm {s t : Tree} (h : Same s t) : Same t s := by
  induction h with
  | refl t => exact .refl t
  | ascii s t h1 h2 => exact .unicode s t h1 h2
  | unicode s t h1 h2 => exact .ascii s t h1 h2
  | pair _ _ _ _ _ _ h1 h2 => exact .pair _ _ _ _ h1 h2

theorem Same.trans {s t u : Tree} (h : Same s t) (h' : Same t u) : Same s u := by
  induction h generalizing u with
  | refl t => exact h'
  | ascii s t h1 h2 =>
    cases h' with
    | refl => exact .ascii s t h1 h2
    | unicode s' _ h3 h4 => rw [bytes_inj (h2.trans h4.symm)]; exact .refl _
  | unicode s t h1 h2 =>
    cases h' with
    | refl => exact .unicode s t h1 h2
    | ascii _ t' h3 h4 => rw [codes_inj (h2.symm.trans h4)]; exact .refl _
  | pair s t s' t' g1 g2 h1 h2 =>
    cases h' with
    | refl => exact .pair _ _ _ _ g1 g2
    | pair _ _ _ _ g3 g4 => exact .pair _ _ _ _ (h1 g3) (h2 g4)

theorem Content.unique {h : Heap} {i : Item} {s t : Tree} (hs : Content h i s) (ht : Content h i t) : s = t := by
  induction hs generalizing t with
  | none => cases ht; rfl
  | int n => cases ht; rfl
  | str s => cases ht; rfl
  | uni s => cases ht; rfl
  | pair a x y s u ha _ _ h1 h2 =>
    cases ht with
    | pair _ x' y' s' t' ha' g1 g2 =>
      rw [ha] at ha'
      obtain ⟨rfl, rfl⟩ := Prod.ext_iff.1 (Option.some.inj ha')
      rw [h1 g1, h2 g2]

theorem eq_content {h : Heap} {i j : Item} {s t : Tree} (hi : Content h i s) (hj : Content h j t) (limit : Nat)
    (hs : s.depth ≤ limit) (ht : t.depth ≤ limit) :
    ∃ r, eq h limit i j = .ok r ∧ (r = some true ↔ Same s t) := by
  induction hi generalizing j t limit with
  | pair a x y s u ha hx hy h1 h2 =>
    obtain ⟨l, rfl⟩ : ∃ l, limit = l + 1 := ⟨limit - 1, by simp [Tree.depth] at hs; omega⟩
    have hs' : s.depth ≤ l ∧ u.depth ≤ l := by simpa [Tree.depth] using hs
    cases hj with
    | pair b x' y' s' u' hb hx' hy' =>
      have ht' : s'.depth ≤ l ∧ u'.depth ≤ l := by simpa [Tree.depth] using ht
      obtain ⟨r, hr, hrs⟩ := h1 hx' l hs'.1 ht'.1
      obtain ⟨r', hr', hrs'⟩ := h2 hy' l hs'.2 ht'.2
      rw [Same_pair]
      by_cases hc : r = some true
      · refine ⟨r', ?_, ?_⟩
        · simp only [eq, get_some ha, get_some hb, bind, Except.bind, hr, hc, if_true, hr']
        · rw [hrs']; exact ⟨fun g => ⟨hrs.1 hc, g⟩, fun g => g.2⟩
      · refine ⟨r, ?_, ?_⟩
        · simp only [eq, get_some ha, get_some hb, bind, Except.bind, hr, if_neg hc, pure, Except.pure]
        · exact ⟨fun g => absurd g hc, fun g => hrs.2 g.1⟩
    | none => exact ⟨none, by simp [eq, pure, Except.pure], by simp, by rintro ⟨⟩⟩
    | int n => exact ⟨none, by simp [eq, pure, Except.pure], by simp, by rintro ⟨⟩⟩
    | str n => exact ⟨none, by simp [eq, pure, Except.pure], by simp, by rintro ⟨⟩⟩
    | uni n => exact ⟨none, by simp [eq, pure, Except.pure], by simp, by rintro ⟨⟩⟩
  | none =>
    cases hj with
    | pair b x' y' s' u' hb hx' hy' =>
      obtain ⟨l, rfl⟩ : ∃ l, limit = l + 1 := ⟨limit - 1, by simp [Tree.depth] at ht; omega⟩
      exact ⟨none, by simp [eq, pure, Except.pure], by simp, by rintro ⟨⟩⟩
    | none => exact ⟨some true, by cases limit <;> simp [eq, pure, Except.pure], fun _ => .refl _, fun _ => rfl⟩
    | int n => exact ⟨some false, by cases limit <;> simp [eq, pure, Except.pure], by simp, by rintro ⟨⟩⟩
    | str n => exact ⟨some false, by cases limit <;> simp [eq, pure, Except.pure], by simp, by rintro ⟨⟩⟩
    | uni n => exact ⟨some false, by cases limit <;> simp [eq, pure, Except.pure], by simp, by rintro ⟨⟩⟩
  | int m =>
    cases hj with
    | pair b x' y' s' u' hb hx' hy' =>
      obtain ⟨l, rfl⟩ : ∃ l, limit = l + 1 := ⟨limit - 1, by simp [Tree.depth] at ht; omega⟩
      exact ⟨none, by simp [eq, pure, Except.pure], by simp, by rintro ⟨⟩⟩
    | none => exact ⟨some false, by cases limit <;> simp [eq, pure, Except.pure], by simp, by rintro ⟨⟩⟩
    | int n =>
      refine ⟨some (decide (m = n)), by cases limit <;> simp [eq, pure, Except.pure], ?_⟩
      constructor
      · intro g; rw [show m = n by simpa using g]; exact .refl _
      · rintro ⟨⟩; simp
    | str n => exact ⟨some false, by cases limit <;> simp [eq, pure, Except.pure], by simp, by rintro ⟨⟩⟩
    | uni n => exact ⟨some false, by cases limit <;> simp [eq, pure, Except.pure], by simp, by rintro ⟨⟩⟩
  | str m =>
    cases hj with
    | pair b x' y' s' u' hb hx' hy' =>
      obtain ⟨l, rfl⟩ : ∃ l, limit = l + 1 := ⟨limit - 1, by simp [Tree.depth] at ht; omega⟩
      exact ⟨none, by simp [eq, pure, Except.pure], by simp, by rintro ⟨⟩⟩
    | none => exact ⟨some false, by cases limit <;> simp [eq, pure, Except.pure], by simp, by rintro ⟨⟩⟩
    | int n => exact ⟨some false, by cases limit <;> simp [eq, pure, Except.pure], by simp, by rintro ⟨⟩⟩
    | str n =>
      refine ⟨some (decide (m = n)), by cases limit <;> simp [eq, pure, Except.pure], ?_⟩
      constructor
      · intro g; rw [show m = n by simpa using g]; exact .refl _
      · rintro ⟨⟩; simp
    | uni n =>
      refine ⟨some (textEq m n), by cases limit <;> simp [eq, pure, Except.pure], ?_⟩
      rw [Same_str_uni]; simp
  | uni m =>
    cases hj with
    | pair b x' y' s' u' hb hx' hy' =>
      obtain ⟨l, rfl⟩ : ∃ l, limit = l + 1 := ⟨limit - 1, by simp [Tree.depth] at ht; omega⟩
      exact ⟨none, by simp [eq, pure, Except.pure], by simp, by rintro ⟨⟩⟩
    | none => exact ⟨some false, by cases limit <;> simp [eq, pure, Except.pure], by simp, by rintro ⟨⟩⟩
    | int n => exact ⟨some false, by cases limit <;> simp [eq, pure, Except.pure], by simp, by rintro ⟨⟩⟩
    | uni n =>
      refine ⟨some (decide (m = n)), by cases limit <;> simp [eq, pure, Except.pure], ?_⟩
      constructor
      · intro g; rw [show m = n by simpa using g]; exact .refl _
      · rintro ⟨⟩; simp
    | str n =>
      refine ⟨some (textEq n m), by cases limit <;> simp [eq, pure, Except.pure], ?_⟩
      rw [Same_uni_str]; simp

/-- The comparison of the same content needs a limit as deep as the content. -/
theorem eq_deep {h : Heap} {i j : Item} {s t : Tree} (hi : Content h i s) (hj : Content h j t) (hst : Same s t)
    (limit : Nat) (hs : limit < s.depth) : eq h limit i j = .error .fuel := by
  induction limit generalizing i j s t with
  | zero =>
    cases hi with
    | pair a x y s u ha hx hy => simp [eq]
    | _ => simp [Tree.depth] at hs
  | succ l ih =>
    cases hi with
    | pair a x y s u ha hx hy =>
      cases hj with
      | pair b x' y' s' u' hb hx' hy' =>
        obtain ⟨g1, g2⟩ := (Same_pair _ _ _ _).1 hst
        simp only [eq, get_some ha, get_some hb, bind, Except.bind]
        by_cases hc : l < s.depth
        · rw [ih hx hx' g1 hc]
        · have hd : s'.depth ≤ l := by rw [← Same.depth g1]; omega
          obtain ⟨r, hr, hrs⟩ := eq_content hx hx' l (by omega) hd
          rw [hr]
          simp only [hrs.2 g1, if_true]
          refine ih hy hy' g2 ?_
          simp [Tree.depth] at hs; omega
      | _ => cases hst
    | _ => simp [Tree.depth] at hs
where
  Same.depth {s t : Tree} (h : Same s t) : s.depth = t.depth := by
    induction h with
    | pair _ _ _ _ _ _ h1 h2 => simp [Tree.depth, h1, h2]
    | _ => simp [Tree.depth]

theorem eq_self_content {h : Heap} (limit : Nat) (i : Item) {r : Option Bool} (hr : eq h limit i i = .ok r) :
    r = some true ∧ ∃ t, Content h i t := by
  induction limit generalizing i r with
  | zero =>
    cases i with
    | pair a => simp [eq] at hr
    | none => simp [eq, pure, Except.pure] at hr; exact ⟨hr.symm, _, .none⟩
    | int n => simp [eq, pure, Except.pure] at hr; exact ⟨hr.symm, _, .int n⟩
    | str n => simp [eq, pure, Except.pure] at hr; exact ⟨hr.symm, _, .str n⟩
    | uni n => simp [eq, pure, Except.pure] at hr; exact ⟨hr.symm, _, .uni n⟩
  | succ l ih =>
    cases i with
    | pair a =>
      simp only [eq, bind, Except.bind, Py.get] at hr
      rcases ha : h[a]? with _ | ⟨x, y⟩
      · simp [ha] at hr
      · simp only [ha] at hr
        rcases hx : eq h l x x with e | r1
        · simp [hx] at hr
        · obtain ⟨rfl, s, hs⟩ := ih x hx
          simp only [hx, if_true] at hr
          obtain ⟨rfl, t, ht⟩ := ih y hr
          exact ⟨rfl, _, .pair a x y s t ha hs ht⟩
    | none => simp [eq, pure, Except.pure] at hr; exact ⟨hr.symm, _, .none⟩
    | int n => simp [eq, pure, Except.pure] at hr; exact ⟨hr.symm, _, .int n⟩
    | str n => simp [eq, pure, Except.pure] at hr; exact ⟨hr.symm, _, .str n⟩
    | uni n => simp [eq, pure, Except.pure] at hr; exact ⟨hr.symm, _, .uni n⟩

/-- Without dangling addresses the only error is the recursion limit. -/
theorem eq_error {h : Heap} (hc : Closed h) (limit : Nat) (i j : Item) (hi : ∀ a, i = .pair a → a < h.length)
    (hj : ∀ a, j = .pair a → a < h.length) {e : Err} (he : eq h limit i j = .error e) : e = .fuel := by
  induction limit generalizing i j with
  | zero =>
    cases i <;> cases j <;> simp [eq, pure, Except.pure] at he <;> exact he.symm
  | succ l ih =>
    cases i with
    | pair a =>
      cases j with
      | pair b =>
        obtain ⟨p, hp⟩ : ∃ p, h[a]? = some p := ⟨_, List.getElem?_eq_getElem (hi a rfl)⟩
        obtain ⟨q, hq⟩ : ∃ q, h[b]? = some q := ⟨_, List.getElem?_eq_getElem (hj b rfl)⟩
        simp only [eq, get_some hp, get_some hq, bind, Except.bind] at he
        obtain ⟨p1, p2⟩ := hc a p.1 p.2 hp
        obtain ⟨q1, q2⟩ := hc b q.1 q.2 hq
        rcases hx : eq h l p.1 q.1 with e' | r
        · simp only [hx] at he
          cases he
          exact ih _ _ p1 q1 hx
        · simp only [hx] at he
          by_cases hr : r = some true
          · rw [if_pos hr] at he; exact ih _ _ p2 q2 he
          · rw [if_neg hr] at he; simp [pure, Except.pure] at he
      | _ => simp [eq, pure, Except.pure] at he
    | _ => cases j <;> simp [eq, pure, Except.pure] at he

/-! ### Lists -/

/-- Two objects are taken as equal by a list. -/
theorem same_content {h : Heap} {i j : Item} {s t : Tree} (hi : Content h i s) (hj : Content h j t) (limit : Nat)
    (hs : s.depth ≤ limit) (ht : t.depth ≤ limit) :
    ∃ b, same h limit i j = .ok b ∧ (b = true ↔ Same s t) := by
  unfold same
  by_cases hij : i = j
  · subst hij
    rw [Content.unique hi hj]
    exact ⟨true, by simp [pure, Except.pure], fun _ => .refl _, fun _ => rfl⟩
  · obtain ⟨r, hr, hrs⟩ := eq_content hi hj limit hs ht
    exact ⟨decide (r = some true), by simp [hij, hr, bind, Except.bind, pure, Except.pure], by simpa using hrs⟩

theorem same_self (h : Heap) (limit : Nat) (i : Item) : same h limit i i = .ok true := by
  simp [same, pure, Except.pure]

/-! ### Heaps -/

theorem Content.mono {h h' : Heap} {i : Item} {t : Tree} (hi : Content h i t)
    (hh : ∀ a p, Reaches h a i → h[a]? = some p → h'[a]? = some p) : Content h' i t := by
  induction hi with
  | none => exact .none
  | int n => exact .int n
  | str s => exact .str s
  | uni s => exact .uni s
  | pair a x y s u ha _ _ h1 h2 =>
    exact .pair a x y s u (hh a _ .here ha) (h1 (fun b p hb => hh b p (.source a x y ha hb)))
      (h2 (fun b p hb => hh b p (.target a x y ha hb)))

end Verif.Pair
