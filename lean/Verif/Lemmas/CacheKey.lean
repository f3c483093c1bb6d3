import Verif.Model.CacheKey
import Verif.Lemmas.CacheRun
import Verif.Lemmas.PairRepr

/-! Lemmas for C87: the keys of memoised calls. -/
set_option linter.unusedSectionVars false
namespace Verif.CacheKey
open Verif Verif.GenericCache Verif.Etree Verif.Pair

/-- What can follow a value. -/
def Stop (u : Text) : Prop := ∀ c ∈ u.head?, intChar c = false

theorem stop_cons {c : Char} {u : Text} (h : intChar c = false) : Stop (c :: u) := by
  intro d hd
  simp at hd
  rw [← hd]
  exact h

def kind : Value → Nat
  | .none => 0 | .bool true => 1 | .bool false => 2 | .int _ => 3 | .str _ => 4 | .uni _ => 5 | .tuple _ => 6 | .list _ => 7 | .dict _ => 8

def kindOf (c : Char) : Nat :=
  if c = 'N' then 0 else if c = 'T' then 1 else if c = 'F' then 2 else if intChar c then 3 else if c = '\'' ∨ c = '"' then 4
  else if c = 'u' then 5 else if c = '(' then 6 else if c = '[' then 7 else 8

theorem repr_kind (v : Value) : ∃ c r, repr v = c :: r ∧ kindOf c = kind v := by
  match v with
  | .none => exact ⟨'N', "one".toList, by simp [repr], rfl⟩
  | .bool true => exact ⟨'T', "rue".toList, by simp [repr], rfl⟩
  | .bool false => exact ⟨'F', "alse".toList, by simp [repr], rfl⟩
  | .int n =>
    obtain ⟨c, r, hc, hi⟩ := reprInt_first n
    refine ⟨c, r, by rw [repr, hc], ?_⟩
    have h1 : c ≠ 'N' := by rintro rfl; revert hi; decide
    have h2 : c ≠ 'T' := by rintro rfl; revert hi; decide
    have h3 : c ≠ 'F' := by rintro rfl; revert hi; decide
    simp [kindOf, h1, h2, h3, hi, kind]
  | .str s =>
    refine ⟨_, _, by rw [repr]; rfl, ?_⟩
    rcases quote_or (s.map Fin.val) with h | h <;> rw [h] <;> show kindOf _ = 4 <;> decide
  | .uni s => exact ⟨_, _, by rw [repr], by show kindOf _ = 5; decide⟩
  | .tuple [] => exact ⟨_, _, by rw [repr], by show kindOf _ = 6; decide⟩
  | .tuple [x] => exact ⟨_, _, by rw [repr]; rfl, by show kindOf _ = 6; decide⟩
  | .tuple (x :: y :: l) => exact ⟨_, _, by rw [repr]; rfl, by show kindOf _ = 6; decide⟩
  | .list [] => exact ⟨_, _, by rw [repr], by show kindOf _ = 7; decide⟩
  | .list (x :: l) => exact ⟨_, _, by rw [repr]; rfl, by show kindOf _ = 7; decide⟩
  | .dict [] => exact ⟨_, _, by rw [repr], by show kindOf _ = 8; decide⟩
  | .dict ((k, v) :: l) => exact ⟨_, _, by rw [repr]; rfl, by show kindOf _ = 8; decide⟩

theorem same_kind {v w : Value} {u u' : Text} (h : repr v ++ u = repr w ++ u') : kind v = kind w := by
  obtain ⟨c, r, hc, h1⟩ := repr_kind v
  obtain ⟨d, r', hd, h2⟩ := repr_kind w
  rw [hc, hd] at h
  rw [← h1, ← h2, (List.cons.inj h).1]

/-- No value starts with a bracket at the end. -/
theorem repr_close {v : Value} {u r : Text} {c : Char} (hc : c = ')' ∨ c = ']' ∨ c = '}') (h : repr v ++ u = c :: r) : False := by
  obtain ⟨d, s, hd, h1⟩ := repr_kind v
  rw [hd] at h
  obtain ⟨rfl, -⟩ := List.cons.inj h
  have key : ∀ v, repr v = d :: s → d ≠ ')' ∧ d ≠ ']' ∧ d ≠ '}' := by
    intro v hd
    match v with
    | .none | .bool true | .bool false =>
      rw [repr] at hd
      obtain ⟨rfl, -⟩ := List.cons.inj hd.symm
      decide
    | .int n =>
      obtain ⟨c', r', hc', hi⟩ := reprInt_first n
      rw [repr, hc'] at hd
      obtain ⟨rfl, -⟩ := List.cons.inj hd
      refine ⟨?_, ?_, ?_⟩ <;> rintro rfl <;> revert hi <;> decide
    | .str s =>
      rw [repr] at hd
      obtain ⟨rfl, -⟩ := List.cons.inj hd
      rcases quote_or (s.map Fin.val) with h | h <;> rw [h] <;> decide
    | .uni s | .tuple [] | .tuple [x] | .tuple (x :: y :: l) | .list [] | .list (x :: l) | .dict [] | .dict ((k, v) :: l) =>
      rw [repr] at hd
      obtain ⟨rfl, -⟩ := List.cons.inj hd
      decide
  obtain ⟨k1, k2, k3⟩ := key v hd
  rcases hc with h | h | h
  · exact k1 h
  · exact k2 h
  · exact k3 h

theorem more_stop (c : Char) (hc : intChar c = false) (l : List Value) (u : Text) : Stop (more c l ++ u) := by
  cases l with
  | nil => rw [more]; exact stop_cons hc
  | cons x l => rw [more]; exact stop_cons (by decide)

theorem items_stop (l : List (Value × Value)) (u : Text) : Stop (items l ++ u) := by
  rcases l with _ | ⟨⟨k, v⟩, l⟩
  · rw [items]; exact stop_cons (by decide)
  · rw [items]; exact stop_cons (by decide)

mutual
theorem repr_inj : ∀ (v w : Value) (u u' : Text), Stop u → Stop u' → repr v ++ u = repr w ++ u' → v = w ∧ u = u'
  | .none, w, u, u', _, _, h => by
    have hk := same_kind h
    match w, hk, h with
    | .none, _, h => exact ⟨rfl, List.append_cancel_left h⟩
    | .bool true, hk, _ | .bool false, hk, _ | .int _, hk, _ | .str _, hk, _ | .uni _, hk, _ | .tuple _, hk, _ | .list _, hk, _
    | .dict _, hk, _ => cases hk
  | .bool true, w, u, u', _, _, h => by
    have hk := same_kind h
    match w, hk, h with
    | .bool true, _, h => exact ⟨rfl, List.append_cancel_left h⟩
    | .none, hk, _ | .bool false, hk, _ | .int _, hk, _ | .str _, hk, _ | .uni _, hk, _ | .tuple _, hk, _ | .list _, hk, _
    | .dict _, hk, _ => cases hk
  | .bool false, w, u, u', _, _, h => by
    have hk := same_kind h
    match w, hk, h with
    | .bool false, _, h => exact ⟨rfl, List.append_cancel_left h⟩
    | .bool true, hk, _ | .none, hk, _ | .int _, hk, _ | .str _, hk, _ | .uni _, hk, _ | .tuple _, hk, _ | .list _, hk, _
    | .dict _, hk, _ => cases hk
  | .int n, w, u, u', hu, hu', h => by
    have hk := same_kind h
    match w, hk, h with
    | .int m, _, h =>
      rw [repr, repr] at h
      obtain ⟨rfl, h2⟩ := reprInt_inj hu hu' h
      exact ⟨rfl, h2⟩
    | .bool true, hk, _ | .bool false, hk, _ | .none, hk, _ | .str _, hk, _ | .uni _, hk, _ | .tuple _, hk, _ | .list _, hk, _
    | .dict _, hk, _ => cases hk
  | .str s, w, u, u', _, _, h => by
    have hk := same_kind h
    match w, hk, h with
    | .str m, _, h =>
      rw [repr, repr] at h
      obtain ⟨h1, h2⟩ := quoted_inj _ _ (by simp; intro a _; have := a.isLt; omega) (by simp; intro a _; have := a.isLt; omega) _ _ h
      rw [bytes_inj h1]
      exact ⟨rfl, h2⟩
    | .bool true, hk, _ | .bool false, hk, _ | .none, hk, _ | .int _, hk, _ | .uni _, hk, _ | .tuple _, hk, _ | .list _, hk, _
    | .dict _, hk, _ => cases hk
  | .uni s, w, u, u', _, _, h => by
    have hk := same_kind h
    match w, hk, h with
    | .uni m, _, h =>
      rw [repr, repr] at h
      have hb : ∀ c : Char, c.toNat < 0x110000 := by
        intro c
        have := c.valid
        rcases this with h | h
        · have : c.toNat < 0xd800 := h
          omega
        · exact h.2
      obtain ⟨h1, h2⟩ := quoted_inj _ _ (by simp; intro a _; exact hb a) (by simp; intro a _; exact hb a) _ _ (List.cons.inj h).2
      rw [codes_inj h1]
      exact ⟨rfl, h2⟩
    | .bool true, hk, _ | .bool false, hk, _ | .none, hk, _ | .int _, hk, _ | .str _, hk, _ | .tuple _, hk, _ | .list _, hk, _
    | .dict _, hk, _ => cases hk
  | .tuple l, w, u, u', _, _, h => by
    have hk := same_kind h
    match w, hk, h with
    | .tuple m, _, h =>
      match l, m, h with
      | [], [], h => exact ⟨rfl, List.append_cancel_left h⟩
      | [], [y], h | [], y :: y' :: m, h =>
        rw [repr, repr] at h
        simp only [List.cons_append, List.nil_append, List.append_assoc, List.cons.injEq, true_and] at h
        exact (repr_close (.inl rfl) h.symm).elim
      | [x], [], h | x :: x' :: l, [], h =>
        rw [repr, repr] at h
        simp only [List.cons_append, List.nil_append, List.append_assoc, List.cons.injEq, true_and] at h
        exact (repr_close (.inl rfl) h).elim
      | [x], [y], h =>
        rw [repr, repr] at h
        simp only [List.cons_append, List.nil_append, List.append_assoc, List.cons.injEq, true_and] at h
        obtain ⟨rfl, h2⟩ := repr_inj x y _ _ (stop_cons (by decide)) (stop_cons (by decide)) h
        simp only [List.cons.injEq, true_and] at h2
        exact ⟨rfl, h2⟩
      | [x], y :: y' :: m, h =>
        rw [repr, repr] at h
        simp only [List.cons_append, List.nil_append, List.append_assoc, List.cons.injEq, true_and] at h
        obtain ⟨rfl, h2⟩ := repr_inj x y _ _ (stop_cons (by decide)) (more_stop _ (by decide) _ _) h
        rw [more] at h2
        simp at h2
      | x :: x' :: l, [y], h =>
        rw [repr, repr] at h
        simp only [List.cons_append, List.nil_append, List.append_assoc, List.cons.injEq, true_and] at h
        obtain ⟨rfl, h2⟩ := repr_inj x y _ _ (more_stop _ (by decide) _ _) (stop_cons (by decide)) h
        rw [more] at h2
        simp at h2
      | x :: x' :: l, y :: y' :: m, h =>
        rw [repr, repr] at h
        simp only [List.cons_append, List.nil_append, List.append_assoc, List.cons.injEq, true_and] at h
        obtain ⟨rfl, h2⟩ := repr_inj x y _ _ (more_stop _ (by decide) _ _) (more_stop _ (by decide) _ _) h
        obtain ⟨h3, h4⟩ := more_inj ')' (by decide) (x' :: l) (y' :: m) _ _ h2
        rw [h3]
        exact ⟨rfl, h4⟩
    | .bool true, hk, _ | .bool false, hk, _ | .none, hk, _ | .int _, hk, _ | .str _, hk, _ | .uni _, hk, _ | .list _, hk, _
    | .dict _, hk, _ => cases hk
  | .list l, w, u, u', _, _, h => by
    have hk := same_kind h
    match w, hk, h with
    | .list m, _, h =>
      match l, m, h with
      | [], [], h => exact ⟨rfl, List.append_cancel_left h⟩
      | [], y :: m, h =>
        rw [repr, repr] at h
        simp only [List.cons_append, List.nil_append, List.append_assoc, List.cons.injEq, true_and] at h
        exact (repr_close (.inr (.inl rfl)) h.symm).elim
      | x :: l, [], h =>
        rw [repr, repr] at h
        simp only [List.cons_append, List.nil_append, List.append_assoc, List.cons.injEq, true_and] at h
        exact (repr_close (.inr (.inl rfl)) h).elim
      | x :: l, y :: m, h =>
        rw [repr, repr] at h
        simp only [List.cons_append, List.nil_append, List.append_assoc, List.cons.injEq, true_and] at h
        obtain ⟨rfl, h2⟩ := repr_inj x y _ _ (more_stop _ (by decide) _ _) (more_stop _ (by decide) _ _) h
        obtain ⟨rfl, h4⟩ := more_inj ']' (by decide) l m _ _ h2
        exact ⟨rfl, h4⟩
    | .bool true, hk, _ | .bool false, hk, _ | .none, hk, _ | .int _, hk, _ | .str _, hk, _ | .uni _, hk, _ | .tuple _, hk, _
    | .dict _, hk, _ => cases hk
  | .dict l, w, u, u', _, _, h => by
    have hk := same_kind h
    match w, hk, h with
    | .dict m, _, h =>
      match l, m, h with
      | [], [], h => exact ⟨rfl, List.append_cancel_left h⟩
      | [], (y, y') :: m, h =>
        rw [repr, repr] at h
        simp only [List.cons_append, List.nil_append, List.append_assoc, List.cons.injEq, true_and] at h
        exact (repr_close (.inr (.inr rfl)) h.symm).elim
      | (x, x') :: l, [], h =>
        rw [repr, repr] at h
        simp only [List.cons_append, List.nil_append, List.append_assoc, List.cons.injEq, true_and] at h
        exact (repr_close (.inr (.inr rfl)) h).elim
      | (x, x') :: l, (y, y') :: m, h =>
        rw [repr, repr] at h
        simp only [List.cons_append, List.nil_append, List.append_assoc, List.cons.injEq, true_and] at h
        obtain ⟨rfl, h2⟩ := repr_inj x y _ _ (stop_cons (by decide)) (stop_cons (by decide)) h
        simp only [List.cons.injEq, true_and] at h2
        obtain ⟨rfl, h3⟩ := repr_inj x' y' _ _ (items_stop _ _) (items_stop _ _) h2
        obtain ⟨rfl, h4⟩ := items_inj l m _ _ h3
        exact ⟨rfl, h4⟩
    | .bool true, hk, _ | .bool false, hk, _ | .none, hk, _ | .int _, hk, _ | .str _, hk, _ | .uni _, hk, _ | .tuple _, hk, _
    | .list _, hk, _ => cases hk
theorem more_inj (c : Char) (hc : intChar c = false ∧ c ≠ ',') : ∀ (l m : List Value) (u u' : Text),
    more c l ++ u = more c m ++ u' → l = m ∧ u = u'
  | [], [], u, u', h => ⟨rfl, by rw [more] at h; simpa using h⟩
  | [], y :: m, u, u', h => by
    rw [more, more] at h
    simp only [List.cons_append, List.cons.injEq] at h
    exact absurd h.1 hc.2
  | x :: l, [], u, u', h => by
    rw [more, more] at h
    simp only [List.cons_append, List.cons.injEq] at h
    exact absurd h.1.symm hc.2
  | x :: l, y :: m, u, u', h => by
    rw [more, more] at h
    simp only [List.cons_append, List.append_assoc, List.cons.injEq, true_and] at h
    obtain ⟨rfl, h2⟩ := repr_inj x y _ _ (more_stop _ hc.1 _ _) (more_stop _ hc.1 _ _) h
    obtain ⟨rfl, h4⟩ := more_inj c hc l m _ _ h2
    exact ⟨rfl, h4⟩
theorem items_inj : ∀ (l m : List (Value × Value)) (u u' : Text), items l ++ u = items m ++ u' → l = m ∧ u = u'
  | [], [], u, u', h => ⟨rfl, by rw [items] at h; simpa using h⟩
  | [], (y, y') :: m, u, u', h => by
    rw [items, items] at h
    simp at h
  | (x, x') :: l, [], u, u', h => by
    rw [items, items] at h
    simp at h
  | (x, x') :: l, (y, y') :: m, u, u', h => by
    rw [items, items] at h
    simp only [List.cons_append, List.append_assoc, List.cons.injEq, true_and] at h
    obtain ⟨rfl, h2⟩ := repr_inj x y _ _ (stop_cons (by decide)) (stop_cons (by decide)) h
    simp only [List.cons.injEq, true_and] at h2
    obtain ⟨rfl, h3⟩ := repr_inj x' y' _ _ (items_stop _ _) (items_stop _ _) h2
    obtain ⟨rfl, h4⟩ := items_inj l m _ _ h3
    exact ⟨rfl, h4⟩
end

theorem key_inj {f g : Bytes} {a b : List Value} {k l : List (Bytes × Value)} (h : key f a k = key g b l) : f = g ∧ a = b ∧ k = l := by
  unfold key at h
  have h1 := String.ofList_injective h
  obtain ⟨h2, -⟩ := repr_inj _ _ [] [] (by intro c hc; cases hc) (by intro c hc; cases hc) (congrArg (· ++ []) h1)
  simp only [Value.tuple.injEq, List.cons.injEq, Value.str.injEq, Value.dict.injEq, and_true] at h2
  refine ⟨h2.1, h2.2.1, ?_⟩
  refine (List.map_injective_iff.2 ?_) h2.2.2
  rintro ⟨x, y⟩ ⟨x', y'⟩ h
  simpa using h

end Verif.CacheKey
