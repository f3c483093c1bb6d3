import Verif.Model.Corpus
import Verif.Spec.CorpusEq
import Verif.Lemmas.Base

/-! Lemmas about `purge`. -/
namespace Verif.Corpus
open Verif Verif.Spec
set_option linter.unusedSectionVars false

section purge
variable {eq : Nat → Nat → Py Bool} {B : Nat → Prop} {E : Nat → Nat → Prop} [∀ a b, Decidable (E a b)]

/-- The dictionary of `purge`: entries are equal banks, values are representatives. -/
structure Table (B : Nat → Prop) (E : Nat → Nat → Prop) (t : AD Nat Nat) : Prop where
  mem : ∀ k v, t.get? k = some v → B k ∧ B v ∧ E k v
  rep : ∀ k v, t.get? k = some v → t.get? v = some v
  uniq : ∀ k v k' v', t.get? k = some v → t.get? k' = some v' → E v v' → v = v'

theorem findBank_spec (hE : ∀ a b, B a → B b → eq a b = .ok (decide (E a b))) {old : Nat} (ho : B old) :
    ∀ l : List Nat, (∀ x ∈ l, B x) → ∃ r, findBank eq old l = .ok r ∧
      (∀ x, r = some x → x ∈ l ∧ E old x) ∧ (r = none → ∀ x ∈ l, ¬ E old x)
  | [], _ => ⟨none, rfl, by simp, by simp⟩
  | x :: l, h => by
    unfold findBank
    rw [hE old x ho (h x (by simp))]
    by_cases hx : E old x
    · simp only [hx, decide_true]
      exact ⟨some x, rfl, by simp [hx], by simp⟩
    · simp only [hx, decide_false]
      obtain ⟨r, e1, e2, e3⟩ := findBank_spec hE ho l (fun y hy => h y (by simp [hy]))
      refine ⟨r, e1, fun y hy => ⟨by simp [(e2 y hy).1], (e2 y hy).2⟩, ?_⟩
      intro hr y hy
      rcases List.mem_cons.1 hy with rfl | hy
      · exact hx
      · exact e3 hr y hy

theorem newBank_spec (hE : ∀ a b, B a → B b → eq a b = .ok (decide (E a b)))
    (hrefl : ∀ a, B a → E a a) (hsymm : ∀ a b, B a → B b → E a b → E b a) {t : AD Nat Nat} (htW : t.WF) (ht : Table B E t) {old : Nat} (ho : B old) :
    ∃ t' b, newBank eq t old = .ok (t', b) ∧ t'.WF ∧ Table B E t' ∧ t'.get? old = some b ∧ B b ∧ E old b ∧
      (∀ k v, t.get? k = some v → t'.get? k = some v) ∧
      (∀ k v, t'.get? k = some v → t.get? k = some v ∨ k = old) := by
  unfold newBank
  cases hg : t.get? old with
  | some b =>
    refine ⟨t, b, rfl, htW, ht, hg, (ht.mem _ _ hg).2.1, (ht.mem _ _ hg).2.2, fun k v h => h, fun k v h => Or.inl h⟩
  | none =>
    dsimp only
    have hvals : ∀ x ∈ t.map Prod.snd, ∃ k, t.get? k = some x := by
      intro x hx
      rw [List.mem_map] at hx
      obtain ⟨⟨k, v⟩, hkv, rfl⟩ := hx
      exact ⟨k, AD.get?_of_mem htW hkv⟩
    obtain ⟨r, e1, e2, e3⟩ := findBank_spec hE ho (t.map Prod.snd) (by
      intro x hx
      obtain ⟨k, hk⟩ := hvals x hx
      exact (ht.mem k x hk).2.1)
    rw [e1]
    cases r with
    | some b =>
      dsimp only
      obtain ⟨hbm, hbE⟩ := e2 b rfl
      obtain ⟨k0, hk0⟩ := hvals b hbm
      have hBb := (ht.mem _ _ hk0).2.1
      have hbrep := ht.rep _ _ hk0
      have hbo : b ≠ old := by rintro rfl; rw [hg] at hbrep; simp at hbrep
      have hval : ∀ k v, (t.set old b).get? k = some v → ∃ k', t.get? k' = some v := by
        intro k v hk
        rw [AD.get?_set] at hk
        split at hk
        · simp only [Option.some.injEq] at hk; subst hk; exact ⟨k0, hk0⟩
        · exact ⟨k, hk⟩
      refine ⟨t.set old b, b, rfl, AD.WF.set htW _ _, ⟨?_, ?_, ?_⟩, by simp, hBb, hbE, ?_, ?_⟩
      · intro k v hk
        rw [AD.get?_set] at hk
        split at hk
        · rename_i h; simp only [Option.some.injEq] at hk; subst hk h; exact ⟨ho, hBb, hbE⟩
        · exact ht.mem k v hk
      · intro k v hk
        obtain ⟨k', hk'⟩ := hval k v hk
        have := ht.rep k' v hk'
        rw [AD.get?_set, if_neg]
        · exact this
        · rintro rfl; rw [hg] at this; simp at this
      · intro k v k' v' hk hk' hvv
        obtain ⟨j, hj⟩ := hval k v hk
        obtain ⟨j', hj'⟩ := hval k' v' hk'
        exact ht.uniq j v j' v' hj hj' hvv
      · intro k v hk
        rw [AD.get?_set, if_neg]
        · exact hk
        · rintro rfl; rw [hg] at hk; simp at hk
      · intro k v hk
        rw [AD.get?_set] at hk
        split at hk
        · rename_i h; exact Or.inr h
        · exact Or.inl hk
    | none =>
      dsimp only
      have hno := e3 rfl
      have hmemv : ∀ k v, t.get? k = some v → v ∈ t.map Prod.snd := by
        intro k v hk
        exact List.mem_map.2 ⟨(k, v), AD.mem_of_get? hk, rfl⟩
      refine ⟨t.set old old, old, rfl, AD.WF.set htW _ _, ⟨?_, ?_, ?_⟩, by simp, ho, hrefl _ ho, ?_, ?_⟩
      · intro k v hk
        rw [AD.get?_set] at hk
        split at hk
        · rename_i h; simp only [Option.some.injEq] at hk; subst hk h; exact ⟨ho, ho, hrefl _ ho⟩
        · exact ht.mem k v hk
      · intro k v hk
        rw [AD.get?_set] at hk
        split at hk
        · simp only [Option.some.injEq] at hk; subst hk; simp
        · have := ht.rep k v hk
          rw [AD.get?_set]
          split
          · rename_i h; rw [h]
          · exact this
      · intro k v k' v' hk hk' hvv
        rw [AD.get?_set] at hk hk'
        split at hk
        · split at hk'
          · simp only [Option.some.injEq] at hk hk'; rw [← hk, ← hk']
          · simp only [Option.some.injEq] at hk
            subst hk
            exact absurd hvv (hno v' (hmemv _ _ hk'))
        · split at hk'
          · simp only [Option.some.injEq] at hk'
            subst hk'
            have hBv := (ht.mem k v hk).2.1
            exfalso
            have := hno v (hmemv _ _ hk)
            exact this (hsymm _ _ hBv ho hvv)
          · exact ht.uniq k v k' v' hk hk' hvv
      · intro k v hk
        rw [AD.get?_set, if_neg]
        · exact hk
        · rintro rfl; rw [hg] at hk; simp at hk
      · intro k v hk
        rw [AD.get?_set] at hk
        split at hk
        · rename_i h; exact Or.inr h
        · exact Or.inl hk

/-- What `purge` does to the heap. -/
structure Purged (B : Nat → Prop) (E : Nat → Nat → Prop) (done : List Nat) (h h' : Nat → GP) (t : AD Nat Nat) : Prop where
  wf : t.WF
  table : Table B E t
  other : ∀ p, p ∉ done → h' p = h p
  same : ∀ p, h' p = { h p with source := (h' p).source, target := (h' p).target }
  equal : ∀ p ∈ done, E (h p).source (h' p).source ∧ E (h p).target (h' p).target
  good : ∀ p ∈ done, t.get? (h' p).source = some (h' p).source ∧ t.get? (h' p).target = some (h' p).target
  keys : ∀ k v, t.get? k = some v → ∃ p ∈ done, k = (h p).source ∨ k = (h p).target

theorem purge_loop (hE : ∀ a b, B a → B b → eq a b = .ok (decide (E a b)))
    (hrefl : ∀ a, B a → E a a) (hsymm : ∀ a b, B a → B b → E a b → E b a)
    (htrans : ∀ a b c, B a → B b → B c → E a b → E b c → E a c)
    {h : Nat → GP} (todo done : List Nat) (hB : ∀ p ∈ done ++ todo, B (h p).source ∧ B (h p).target)
    {h1 : Nat → GP} {t : AD Nat Nat} (hp : Purged B E done h h1 t) :
    ∃ t' h', Py.forIn todo (t, h1) (purgeStep eq) = .ok (t', h') ∧ Purged B E (done ++ todo) h h' t' := by
  induction todo generalizing done h1 t with
  | nil => exact ⟨t, h1, rfl, by simpa using hp⟩
  | cons p todo ih =>
    have hBp := hB p (by simp)
    have hB1 : B (h1 p).source ∧ B (h1 p).target := by
      by_cases hpd : p ∈ done
      · have hg := hp.good p hpd
        exact ⟨(hp.table.mem _ _ hg.1).1, (hp.table.mem _ _ hg.2).1⟩
      · rw [hp.other p hpd]; exact hBp
    obtain ⟨t1, b1, e1, w1, tb1, g1, Bb1, E1, m1, n1⟩ := newBank_spec hE hrefl hsymm hp.wf hp.table hB1.1
    obtain ⟨t2, b2, e2, w2, tb2, g2, Bb2, E2, m2, n2⟩ := newBank_spec hE hrefl hsymm w1 tb1 hB1.2
    -- banks of a pair already done are their own representatives
    have hfix : p ∈ done → b1 = (h1 p).source ∧ b2 = (h1 p).target := by
      intro hpd
      have hg := hp.good p hpd
      have h3 := m1 _ _ hg.1
      have h4 := m2 _ _ (m1 _ _ hg.2)
      rw [g1] at h3; rw [g2] at h4
      exact ⟨by simpa using h3, by simpa using h4⟩
    have hnew : Purged B E (done ++ [p]) h
        (fun x => if x = p then { h1 p with source := b1, target := b2 } else h1 x) t2 := by
      refine ⟨w2, tb2, ?_, ?_, ?_, ?_, ?_⟩
      · intro q hq
        simp only [List.mem_append, List.mem_singleton, not_or] at hq
        dsimp only
        rw [if_neg hq.2]; exact hp.other q hq.1
      · intro q
        dsimp only
        split
        · rename_i hq; subst hq
          rw [hp.same q]
        · exact hp.same q
      · intro q hq
        dsimp only
        by_cases hqp : q = p
        · subst hqp
          simp only [if_true]
          by_cases hpd : q ∈ done
          · rw [(hfix hpd).1, (hfix hpd).2]; exact hp.equal q hpd
          · rw [hp.other q hpd] at E1 E2; exact ⟨E1, E2⟩
        · simp only [if_neg hqp]
          refine hp.equal q ?_
          simpa [hqp] using hq
      · intro q hq
        dsimp only
        by_cases hqp : q = p
        · subst hqp
          simp only [if_true]
          exact ⟨tb2.rep _ _ (m2 _ _ g1), tb2.rep _ _ g2⟩
        · simp only [if_neg hqp]
          have := hp.good q (by simpa [hqp] using hq)
          exact ⟨m2 _ _ (m1 _ _ this.1), m2 _ _ (m1 _ _ this.2)⟩
      · intro k v hk
        have hin : ∀ k, (k = (h1 p).source ∨ k = (h1 p).target) → ∃ p' ∈ done ++ [p], k = (h p').source ∨ k = (h p').target := by
          intro k hk
          by_cases hpd : p ∈ done
          · have hg := hp.good p hpd
            rcases hk with rfl | rfl
            · obtain ⟨p', hp', h5⟩ := hp.keys _ _ hg.1
              exact ⟨p', by simp [hp'], h5⟩
            · obtain ⟨p', hp', h5⟩ := hp.keys _ _ hg.2
              exact ⟨p', by simp [hp'], h5⟩
          · rw [hp.other p hpd] at hk
            exact ⟨p, by simp, hk⟩
        rcases n2 k v hk with hk | hk
        · rcases n1 k v hk with hk | hk
          · obtain ⟨p', hp', h5⟩ := hp.keys k v hk
            exact ⟨p', by simp [hp'], h5⟩
          · exact hin k (Or.inl hk)
        · exact hin k (Or.inr hk)
    obtain ⟨t', h', e3, hp'⟩ := ih (done ++ [p]) (by simpa using hB) hnew
    refine ⟨t', h', ?_, by simpa using hp'⟩
    rw [← e3]
    simp only [Py.forIn, purgeStep, e1, e2]

/-- A second run changes nothing: equal banks are identical already. -/
theorem purge_fixed (hE : ∀ a b, B a → B b → eq a b = .ok (decide (E a b)))
    {h : Nat → GP} (todo : List Nat) (S : Nat → Prop) (hS : ∀ a b, S a → S b → E a b → a = b) (hSB : ∀ a, S a → B a)
    (htodo : ∀ p ∈ todo, S (h p).source ∧ S (h p).target) (t : AD Nat Nat) (htW : t.WF)
    (ht : ∀ k v, t.get? k = some v → k = v ∧ S k) :
    ∃ t', Py.forIn todo (t, h) (purgeStep eq) = .ok (t', h) := by
  have key : ∀ (t : AD Nat Nat), t.WF → (∀ k v, t.get? k = some v → k = v ∧ S k) → ∀ old, S old →
      ∃ t', newBank eq t old = .ok (t', old) ∧ t'.WF ∧ ∀ k v, t'.get? k = some v → k = v ∧ S k := by
    intro t htW ht old ho
    have hset : ∀ k v, (t.set old old).get? k = some v → k = v ∧ S k := by
      intro k v hk
      rw [AD.get?_set] at hk
      split at hk
      · rename_i hko; simp only [Option.some.injEq] at hk; rw [hko]; exact ⟨hk, ho⟩
      · exact ht k v hk
    unfold newBank
    cases hg : t.get? old with
    | some b =>
      have := (ht old b hg).1
      subst this
      exact ⟨t, rfl, htW, ht⟩
    | none =>
      dsimp only
      have hval : ∀ x ∈ t.map Prod.snd, S x := by
        intro x hx
        rw [List.mem_map] at hx
        obtain ⟨⟨k, v⟩, hkv, rfl⟩ := hx
        obtain ⟨h1, h2⟩ := ht k v (AD.get?_of_mem htW hkv)
        exact h1 ▸ h2
      obtain ⟨r, e1, e2, e3⟩ := findBank_spec hE (hSB _ ho) (t.map Prod.snd) (fun x hx => hSB _ (hval x hx))
      rw [e1]
      cases r with
      | some b =>
        dsimp only
        obtain ⟨hbm, hbE⟩ := e2 b rfl
        have := hS old b ho (hval b hbm) hbE
        subst this
        exact ⟨_, rfl, AD.WF.set htW _ _, hset⟩
      | none => exact ⟨_, rfl, AD.WF.set htW _ _, hset⟩
  induction todo generalizing t with
  | nil => exact ⟨t, rfl⟩
  | cons p todo ih =>
    obtain ⟨s1, s2⟩ := htodo p (by simp)
    obtain ⟨t1, e1, w1, h1⟩ := key t htW ht _ s1
    obtain ⟨t2, e2, w2, h2⟩ := key t1 w1 h1 _ s2
    obtain ⟨t', e3⟩ := ih (fun q hq => htodo q (by simp [hq])) t2 w2 h2
    refine ⟨t', ?_⟩
    rw [← e3]
    simp only [Py.forIn, purgeStep, e1, e2]
    congr 2
    funext x
    split
    · rename_i hx; rw [hx]
    · rfl
end purge
/-! ### Banks for the same file -/

theorem bankEq_iff {stat : String → Option Nat} {p q : String}
    (h : p = q ∨ (stat p).isSome ∧ (stat q).isSome) :
    ∃ b, bankEq stat p q = .ok b ∧ (b = true ↔ SameFile stat p q) := by
  unfold bankEq SameFile
  by_cases hpq : p = q
  · exact ⟨true, by simp [hpq], by simp [hpq]⟩
  · obtain ⟨h1, h2⟩ := h.resolve_left hpq
    obtain ⟨i, hi⟩ := Option.isSome_iff_exists.1 h1
    obtain ⟨j, hj⟩ := Option.isSome_iff_exists.1 h2
    refine ⟨decide (i = j), by simp [hpq, hi, hj], ?_⟩
    simp only [decide_eq_true_eq, hpq, false_or, hi, hj, Option.some.injEq]
    constructor
    · rintro rfl; exact ⟨i, rfl, rfl⟩
    · rintro ⟨k, rfl, rfl⟩; rfl

theorem sameFile_symm {stat : String → Option Nat} {p q : String} (h : SameFile stat p q) : SameFile stat q p := by
  rcases h with rfl | ⟨i, h1, h2⟩
  · exact Or.inl rfl
  · exact Or.inr ⟨i, h2, h1⟩

theorem sameFile_trans {stat : String → Option Nat} {p q r : String} (h : SameFile stat p q)
    (h' : SameFile stat q r) : SameFile stat p r := by
  rcases h with rfl | ⟨i, h1, h2⟩
  · exact h'
  · rcases h' with rfl | ⟨j, h3, h4⟩
    · exact Or.inr ⟨i, h1, h2⟩
    · rw [h2] at h3
      simp only [Option.some.injEq] at h3
      exact Or.inr ⟨i, h1, h3 ▸ h4⟩

end Verif.Corpus
