import Verif.Model.LRUStock
import Verif.Lemmas.Base

set_option linter.unusedSectionVars false

namespace Verif.LRUStock
open Verif
variable {κ : Type} [DecidableEq κ]

/-- Consecutive addresses are linked both ways. -/
def Linked (next prev : Nat → Nat) : List Nat → Prop
  | a :: b :: l => next a = b ∧ prev b = a ∧ Linked next prev (b :: l)
  | _ => True

theorem linked_append (next prev : Nat → Nat) (A : List Nat) (x : Nat) (B : List Nat) :
    Linked next prev (A ++ x :: B) ↔ Linked next prev (A ++ [x]) ∧ Linked next prev (x :: B) := by
  induction A with
  | nil => simp [Linked]
  | cons a A ih =>
    cases A with
    | nil =>
      cases B with
      | nil => simp [Linked]
      | cons b B => simp [Linked]; tauto
    | cons b A =>
      simp only [List.cons_append, Linked] at ih ⊢
      rw [ih]; tauto

theorem linked_congr {next prev next' prev' : Nat → Nat} {l : List Nat}
    (h : Linked next prev l) (hn : ∀ a ∈ l.dropLast, next' a = next a) (hp : ∀ a ∈ l.tail, prev' a = prev a) :
    Linked next' prev' l := by
  induction l with
  | nil => trivial
  | cons a l ih =>
    cases l with
    | nil => trivial
    | cons b l =>
      obtain ⟨h1, h2, h3⟩ := h
      refine ⟨by rw [hn a (by simp), h1], by rw [hp b (by simp), h2], ih h3 ?_ ?_⟩
      · intro x hx; exact hn x (by simp [hx])
      · intro x hx; apply hp; simp only [List.tail_cons] at hx ⊢; exact List.mem_cons_of_mem _ hx

/-- The list structure holds the keys `ks`, oldest first. -/
structure Rep (s : Stock κ) (ks : List κ) : Prop where
  nodup : ks.Nodup
  fresh : 0 < s.fresh
  ids : ∃ l : List Nat, Linked s.next s.prev (0 :: l ++ [0]) ∧ l.Nodup ∧ (∀ a ∈ l, 0 < a ∧ a < s.fresh) ∧
    l.map s.item = ks.map some ∧ ∀ k a, s.keys.get? k = some a ↔ (a ∈ l ∧ s.item a = some k)

theorem Rep.empty : Rep (empty : Stock κ) [] := by
  refine ⟨by simp, by simp [LRUStock.empty], [], ?_, by simp, by simp, by simp, ?_⟩
  · simp [Linked, LRUStock.empty]
  · simp [LRUStock.empty]

theorem Rep.clear {s : Stock κ} {ks : List κ} (h : Rep s ks) : Rep (clear s) [] := by
  refine ⟨by simp, h.fresh, [], ?_, by simp, by simp, by simp, ?_⟩
  · simp [Linked, LRUStock.clear, upd]
  · simp [LRUStock.clear]

theorem Rep.has {s : Stock κ} {ks : List κ} (h : Rep s ks) (k : κ) :
    (∃ a, s.keys.get? k = some a) ↔ k ∈ ks := by
  obtain ⟨l, h1, h2, h3, h4, h5⟩ := h.ids
  constructor
  · rintro ⟨a, ha⟩
    rw [h5] at ha
    have : some k ∈ l.map s.item := List.mem_map.2 ⟨a, ha⟩
    rw [h4, List.mem_map] at this
    obtain ⟨x, hx, e⟩ := this
    simp only [Option.some.injEq] at e
    exact e ▸ hx
  · intro hk
    have : some k ∈ l.map s.item := by rw [h4]; exact List.mem_map.2 ⟨k, hk, rfl⟩
    obtain ⟨a, ha, e⟩ := List.mem_map.1 this
    exact ⟨a, (h5 k a).2 ⟨ha, e⟩⟩

theorem Rep.add {s : Stock κ} {ks : List κ} (h : Rep s ks) (k : κ) (hk : k ∉ ks) :
    Rep (add s k) (ks ++ [k]) := by
  have hhas := h.has k
  obtain ⟨l, h1, h2, h3, h4, h5⟩ := h.ids
  have hfr := h.fresh
  refine ⟨?_, by simp [LRUStock.add], l ++ [s.fresh], ?_, ?_, ?_, ?_, ?_⟩
  · rw [List.nodup_append]
    refine ⟨h.nodup, by simp, ?_⟩
    intro a ha b hb; simp at hb; subst hb; rintro rfl; exact hk ha
  · -- the last element
    obtain ⟨m, x, hmx⟩ : ∃ m x, (0 :: l : List Nat) = m ++ [x] := by
      rcases List.eq_nil_or_concat (0 :: l) with h | ⟨m, x, h⟩
      · simp at h
      · exact ⟨m, x, by simpa using h⟩
    have hprev0 : s.prev 0 = x := by
      have := h1
      rw [hmx, List.append_assoc, List.singleton_append, linked_append] at this
      exact this.2.2.1
    have hxlt : x < s.fresh := by
      have : x ∈ (0 :: l : List Nat) := by rw [hmx]; simp
      rcases List.mem_cons.1 this with rfl | hx
      · exact hfr
      · exact (h3 x hx).2
    have hxm : x ∉ m := by
      have hnd : (0 :: l : List Nat).Nodup :=
        List.nodup_cons.2 ⟨fun h0 => by have := (h3 0 h0).1; omega, h2⟩
      rw [hmx, List.nodup_append] at hnd
      intro hx; exact hnd.2.2 x hx x (by simp) rfl
    have hlt : ∀ a ∈ (0 :: l : List Nat), a < s.fresh := by
      intro a ha
      rcases List.mem_cons.1 ha with rfl | ha
      · exact hfr
      · exact (h3 a ha).2
    have goal : Linked (LRUStock.add s k).next (LRUStock.add s k).prev (m ++ x :: [s.fresh, 0]) := by
      rw [linked_append]
      constructor
      · have hl : Linked s.next s.prev (m ++ [x]) := by
          have := h1
          rw [hmx, List.append_assoc, List.singleton_append, linked_append] at this
          exact this.1
        apply linked_congr hl
        · intro a ha
          rw [List.dropLast_concat] at ha
          have hax : a ≠ x := fun e => hxm (e ▸ ha)
          have := hlt a (by rw [hmx]; simp [ha])
          simp only [LRUStock.add, upd, if_true]
          rw [hprev0, if_neg hax, if_neg (by omega)]
        · intro a ha
          have hmem : a ∈ l := by
            have : (0 :: l : List Nat).tail = (m ++ [x]).tail := by rw [hmx]
            rw [List.tail_cons] at this; rw [this]; exact ha
          have := h3 a hmem
          simp only [LRUStock.add, upd]
          rw [if_neg (by omega), if_neg (by omega)]
      · refine ⟨?_, ?_, ?_, ?_, trivial⟩
        · simp only [LRUStock.add, upd, if_true]; rw [hprev0, if_pos rfl]
        · simp only [LRUStock.add, upd, if_true]; rw [if_neg (by omega), hprev0]
        · simp only [LRUStock.add, upd, if_true]; rw [hprev0, if_neg (by omega)]
        · simp only [LRUStock.add, upd, if_true]
    have e : (0 :: (l ++ [s.fresh]) ++ [0] : List Nat) = m ++ x :: [s.fresh, 0] := by
      have : (0 :: (l ++ [s.fresh]) ++ [0] : List Nat) = (0 :: l) ++ [s.fresh, 0] := by simp
      rw [this, hmx]; simp
    rw [e]; exact goal
  · rw [List.nodup_append]
    refine ⟨h2, by simp, ?_⟩
    intro a ha b hb; simp at hb; subst hb
    have := (h3 a ha).2; omega
  · intro a ha
    simp only [LRUStock.add]
    rcases List.mem_append.1 ha with ha | ha
    · have := h3 a ha; omega
    · simp at ha; omega
  · rw [List.map_append, List.map_append, ← h4]
    congr 1
    · apply List.map_congr_left
      intro a ha
      have := (h3 a ha).2
      simp only [LRUStock.add, upd]
      rw [if_neg (by omega)]
    · simp [LRUStock.add, upd]
  · intro k' a
    simp only [LRUStock.add]
    rw [AD.get?_set]
    simp only [upd, List.mem_append, List.mem_singleton]
    by_cases hk' : k' = k
    · subst hk'
      simp only [if_true, Option.some.injEq]
      constructor
      · rintro rfl; simp
      · rintro ⟨ha | ha, e⟩
        · have := (h3 a ha).2
          rw [if_neg (by omega)] at e
          exact absurd (hhas.1 ⟨a, (h5 k' a).2 ⟨ha, e⟩⟩) hk
        · exact ha.symm
    · simp only [hk', if_false]
      rw [h5]
      constructor
      · rintro ⟨ha, e⟩
        have := (h3 a ha).2
        exact ⟨.inl ha, by rw [if_neg (by omega)]; exact e⟩
      · rintro ⟨ha | ha, e⟩
        · have := (h3 a ha).2
          rw [if_neg (by omega)] at e
          exact ⟨ha, e⟩
        · rw [if_pos ha] at e
          simp only [Option.some.injEq] at e
          exact absurd e.symm hk'

theorem linked_remove {next prev : Nat → Nat} {A B : List Nat} {p x q : Nat}
    (h : Linked next prev (A ++ p :: x :: q :: B)) (hpA : p ∉ A) (hq : q ∉ B)
    (hpB : p ∉ (q :: B).dropLast) (hqA : q ∉ (A ++ [p]).tail) :
    Linked (upd next p q) (upd prev q p) (A ++ p :: q :: B) := by
  rw [linked_append] at h ⊢
  obtain ⟨g1, g2, g3, g4, g5, g6⟩ := h
  refine ⟨?_, ?_, ?_, ?_⟩
  · apply linked_congr g1
    · intro a ha
      rw [List.dropLast_concat] at ha
      have : a ≠ p := fun e => hpA (e ▸ ha)
      simp [upd, this]
    · intro a ha
      have : a ≠ q := fun e => hqA (e ▸ ha)
      simp [upd, this]
  · simp [upd]
  · simp [upd]
  · apply linked_congr g6
    · intro a ha
      have : a ≠ p := fun e => hpB (e ▸ ha)
      simp [upd, this]
    · intro a ha
      rw [List.tail_cons] at ha
      have : a ≠ q := fun e => hq (e ▸ ha)
      simp [upd, this]

theorem Rep.discard {s : Stock κ} {ks : List κ} (h : Rep s ks) (k : κ) :
    Rep (discard s k) (ks.filter (fun x => x ≠ k)) := by
  have hhas := h.has k
  cases hget : s.keys.get? k with
  | none =>
    have hk : k ∉ ks := by
      intro hc; obtain ⟨a, ha⟩ := hhas.2 hc; simp [hget] at ha
    have e : ks.filter (fun x => x ≠ k) = ks := by
      rw [List.filter_eq_self]
      intro a ha
      simp only [decide_eq_true_eq]
      rintro rfl; exact hk ha
    rw [e]
    simpa [LRUStock.discard, hget] using h
  | some x =>
    obtain ⟨l, h1, h2, h3, h4, h5⟩ := h.ids
    obtain ⟨hxl, hxi⟩ := (h5 k x).1 hget
    obtain ⟨l1, l2, rfl⟩ := List.append_of_mem hxl
    have hx0 := h3 x hxl
    have hnd := h2
    rw [List.nodup_append, List.nodup_cons] at hnd
    have hx1 : x ∉ l1 := fun hc => hnd.2.2 x hc x (by simp) rfl
    have hx2 : x ∉ l2 := hnd.2.1.1
    -- neighbours
    obtain ⟨A, p, hAp⟩ : ∃ A p, (0 :: l1 : List Nat) = A ++ [p] := by
      rcases List.eq_nil_or_concat (0 :: l1) with h | ⟨m, x, h⟩
      · simp at h
      · exact ⟨m, x, by simpa using h⟩
    obtain ⟨q, B, hqB⟩ : ∃ q B, (l2 ++ [0] : List Nat) = q :: B := by
      cases l2 with
      | nil => exact ⟨0, [], rfl⟩
      | cons b l => exact ⟨b, l ++ [0], rfl⟩
    have hfull : (0 :: (l1 ++ x :: l2) ++ [0] : List Nat) = A ++ p :: x :: q :: B := by
      have : (0 :: (l1 ++ x :: l2) ++ [0] : List Nat) = (0 :: l1) ++ x :: (l2 ++ [0]) := by simp
      rw [this, hAp, hqB]; simp
    have hnew : (0 :: (l1 ++ l2) ++ [0] : List Nat) = A ++ p :: q :: B := by
      have : (0 :: (l1 ++ l2) ++ [0] : List Nat) = (0 :: l1) ++ (l2 ++ [0]) := by simp
      rw [this, hAp, hqB]; simp
    rw [hfull] at h1
    have hl : s.prev x = p ∧ s.next x = q := by
      have := (linked_append _ _ _ _ _).1 h1
      exact ⟨this.2.2.1, this.2.2.2.1⟩
    have hpx : p ≠ x := by
      rintro rfl
      have : p ∈ (0 :: l1 : List Nat) := by rw [hAp]; simp
      rcases List.mem_cons.1 this with h | h
      · omega
      · exact hx1 h
    have hnd1 : (0 :: l1 : List Nat).Nodup :=
      List.nodup_cons.2 ⟨fun h0 => by have := (h3 0 (by simp [h0])).1; omega, hnd.1⟩
    have hnd2 : (l2 ++ [0] : List Nat).Nodup := by
      rw [List.nodup_append]
      refine ⟨hnd.2.1.2, by simp, ?_⟩
      intro a ha b hb; simp at hb; subst hb
      have := (h3 a (by simp [ha])).1; omega
    have hmemA : ∀ a, a ∈ A ++ [p] → a = 0 ∨ a ∈ l1 := by
      intro a ha; rw [← hAp] at ha; exact List.mem_cons.1 ha
    have hdis : ∀ a, a ∈ l1 → a ∉ l2 := fun a ha hb => hnd.2.2 a ha a (by simp [hb]) rfl
    have hrem := linked_remove h1
      (by rw [hAp, List.nodup_append] at hnd1
          intro hc; exact hnd1.2.2 p hc p (by simp) rfl)
      (by rw [hqB, List.nodup_cons] at hnd2; exact hnd2.1)
      (by rw [← hqB, List.dropLast_concat]
          intro hc
          rcases hmemA p (by simp) with rfl | hp
          · have := (h3 0 (by simp [hc])).1; omega
          · exact hdis p hp hc)
      (by rw [← hAp, List.tail_cons]
          intro hc
          have : q ∈ l2 ++ [0] := by rw [hqB]; simp
          rcases List.mem_append.1 this with hq | hq
          · exact hdis q hc hq
          · simp at hq; subst hq
            have := (h3 0 (by simp [hc])).1; omega)
    have hdisc : LRUStock.discard s k =
        { s with next := upd s.next p q, prev := upd s.prev q p, keys := s.keys.del k } := by
      simp only [LRUStock.discard, hget, hl.1, hl.2]
      congr
      simp [upd, Ne.symm hpx, hl.2]
    have hsplit : ∃ k1 k2, ks = k1 ++ k :: k2 ∧ l1.map s.item = k1.map some ∧ l2.map s.item = k2.map some := by
      rw [List.map_append, List.map_cons, hxi] at h4
      obtain ⟨k1, k', e1, e2, e3⟩ := List.append_eq_map_iff.1 h4
      cases k' with
      | nil => simp at e3
      | cons b k2 =>
        simp only [List.map_cons, List.cons.injEq, Option.some.injEq] at e3
        exact ⟨k1, k2, by rw [e1, e3.1], e2.symm, e3.2.symm⟩
    obtain ⟨k1, k2, rfl, e1, e2⟩ := hsplit
    have hknd := h.nodup
    rw [List.nodup_append, List.nodup_cons] at hknd
    have hfil : (k1 ++ k :: k2).filter (fun x => x ≠ k) = k1 ++ k2 := by
      rw [List.filter_append, List.filter_cons]
      have a1 : k1.filter (fun x => decide (x ≠ k)) = k1 := by
        rw [List.filter_eq_self]; intro a ha
        simp only [decide_eq_true_eq]
        rintro rfl; exact hknd.2.2 a ha a (by simp) rfl
      have a2 : k2.filter (fun x => decide (x ≠ k)) = k2 := by
        rw [List.filter_eq_self]; intro a ha
        simp only [decide_eq_true_eq]
        rintro rfl; exact hknd.2.1.1 ha
      rw [a1, a2]; simp
    rw [hfil, hdisc]
    have hsub : (l1 ++ l2).Sublist (l1 ++ x :: l2) := by simp
    refine ⟨?_, h.fresh, l1 ++ l2, ?_, h2.sublist hsub, ?_, ?_, ?_⟩
    · exact h.nodup.sublist (by simp)
    · dsimp only; rw [hnew]; exact hrem
    · intro a ha; exact h3 a (hsub.subset ha)
    · rw [List.map_append, List.map_append, ← e1, ← e2]
    · intro k' a
      dsimp only
      rw [AD.get?_del]
      by_cases hk' : k' = k
      · subst hk'
        simp only [if_true]
        constructor
        · simp
        · rintro ⟨ha, e⟩
          have := (h5 k' a).2 ⟨hsub.subset ha, e⟩
          rw [hget] at this
          simp only [Option.some.injEq] at this
          subst this
          rcases List.mem_append.1 ha with h | h
          · exact absurd h hx1
          · exact absurd h hx2
      · simp only [hk', if_false]
        rw [h5]
        constructor
        · rintro ⟨ha, e⟩
          refine ⟨?_, e⟩
          rcases List.mem_append.1 ha with h | h
          · exact List.mem_append_left _ h
          · rcases List.mem_cons.1 h with rfl | h
            · rw [hxi] at e; simp only [Option.some.injEq] at e; exact absurd e.symm hk'
            · exact List.mem_append_right _ h
        · rintro ⟨ha, e⟩; exact ⟨hsub.subset ha, e⟩

theorem Rep.update {s : Stock κ} {ks : List κ} (h : Rep s ks) (k : κ) :
    Rep (update s k) (ks.filter (fun x => x ≠ k) ++ [k]) :=
  (h.discard k).add k (by simp)

theorem Rep.pop {s : Stock κ} {ks : List κ} (h : Rep s ks) : pop s = ks.head? := by
  obtain ⟨l, h1, h2, h3, h4, h5⟩ := h.ids
  cases l with
  | nil =>
    cases ks with
    | nil => simp [Linked] at h1; simp [LRUStock.pop, h1]
    | cons k ks => simp at h4
  | cons a l =>
    cases ks with
    | nil => simp at h4
    | cons k ks =>
      have : s.next 0 = a := h1.1
      have ha := (h3 a (by simp)).1
      simp only [List.map_cons, List.cons.injEq] at h4
      simp [LRUStock.pop, this, h4.1, show a ≠ 0 by omega]

theorem Rep.size {s : Stock κ} {ks : List κ} (h : Rep s ks) (hw : s.keys.WF) : size s = ks.length := by
  have hp : s.keys.keys.Perm ks := by
    rw [List.perm_ext_iff_of_nodup hw h.nodup]
    intro k
    rw [AD.mem_keys_iff, ← h.has k, Option.isSome_iff_exists]
  have := hp.length_eq
  simpa [AD.keys, LRUStock.size] using this

theorem toListFrom_ok {s : Stock κ} (f : Nat) : ∀ (l : List Nat) (a : Nat), l.length < f →
    Linked s.next s.prev (a :: l ++ [0]) → (∀ x ∈ l, x ≠ 0) →
    toListFrom s f a = .ok (l.map s.item) := by
  induction f with
  | zero => intro l a h; omega
  | succ f ih =>
    intro l a hf h hl
    cases l with
    | nil => simp [Linked] at h; simp [toListFrom, h]
    | cons b l =>
      have h1 : s.next a = b := h.1
      have hb := hl b (by simp)
      have := ih l b (by simp at hf; omega) h.2.2 (fun x hx => hl x (by simp [hx]))
      simp [toListFrom, h1, hb, this]

theorem backFrom_ok {s : Stock κ} (f : Nat) : ∀ (l : List Nat) (x : Nat), l.length < f →
    Linked s.next s.prev (0 :: l ++ [x]) → (∀ a ∈ l, a ≠ 0) →
    backFrom s f (s.prev x) = .ok (l.reverse.map s.item) := by
  induction f with
  | zero => intro l a h; omega
  | succ f ih =>
    intro l x hf h hl
    rcases List.eq_nil_or_concat l with rfl | ⟨m, y, rfl⟩
    · have : s.prev x = 0 := by simp [Linked] at h; exact h.2
      simp [backFrom, this]
    · simp only [List.concat_eq_append] at *
      have h' : Linked s.next s.prev ((0 :: m) ++ y :: [x]) := by simpa using h
      rw [linked_append] at h'
      have hp : s.prev x = y := h'.2.2.1
      have hy := hl y (by simp)
      have := ih m y (by simp at hf; omega) h'.1 (fun a ha => hl a (by simp [ha]))
      simp [backFrom, hp, hy, this]

end Verif.LRUStock
