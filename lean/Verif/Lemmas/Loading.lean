import Verif.Lemmas.Pgc

/-! Lemmas about graph stubs and loading of graph banks. -/
namespace Verif.Pgc
open Verif Verif.Etree Verif.Corpus Verif.Spec Verif.Spec.Pgc
set_option linter.unusedSectionVars false

variable {γ : Type}

/-- The source, or the target, of the graph pair is graph `i` of bank `k`. -/
def SrcIs (k : Option String) (i : String) (p : PPair γ) : Prop := some p.sourceBank = k ∧ p.sourceId = i
/-- The target of the graph pair is graph `i` of bank `k`. -/
def TgtIs (k : Option String) (i : String) (p : PPair γ) : Prop := some p.targetBank = k ∧ p.targetId = i

instance (k : Option String) (i : String) (p : PPair γ) : Decidable (SrcIs k i p) := by unfold SrcIs; infer_instance
instance (k : Option String) (i : String) (p : PPair γ) : Decidable (TgtIs k i p) := by unfold TgtIs; infer_instance

/-- How often the graph pair uses graph `i` of bank `k`. -/
def cnt (k : Option String) (i : String) (p : PPair γ) : Nat :=
  (if SrcIs k i p then 1 else 0) + (if TgtIs k i p then 1 else 0)

/-- Replace stub `i` of bank `k` by graph `g`. -/
def upd (k : Option String) (i : String) (g : γ) (p : PPair γ) : PPair γ :=
  { p with source := if SrcIs k i p ∧ p.source.isNone then some g else p.source
           target := if TgtIs k i p ∧ p.target.isNone then some g else p.target }

/-- A graph aligned with itself. -/
def Self (p : PPair γ) : Prop := p.sourceBank = p.targetBank ∧ p.sourceId = p.targetId

theorem replaceIn_ok {k : Option String} {i : String} {g : γ} {pairs pairs' : List (PPair γ)} {x : Nat}
    (h : replaceIn k i g pairs x = .ok pairs') :
    ∃ p, pairs[x]? = some p ∧ pairs' = pairs.set x (upd k i g p) ∧
      ¬ (Self p ∧ p.source.isSome = p.target.isSome) ∧ (SrcIs k i p ∨ TgtIs k i p) := by
  unfold replaceIn at h
  cases hp : pairs[x]? with
  | none => rw [hp] at h; simp at h
  | some p =>
    rw [hp] at h
    dsimp only at h
    split at h
    · simp at h
    · rename_i hself
      have hself' : ¬ (Self p ∧ p.source.isSome = p.target.isSome) := by
        rintro ⟨⟨a, b⟩, c⟩; exact hself ⟨a, b, c⟩
      split at h
      · rename_i hs
        simp only [Except.ok.injEq] at h
        refine ⟨p, rfl, ?_, hself', Or.inl ⟨hs.1, hs.2.1⟩⟩
        rw [← h]
        unfold upd
        rw [if_pos ⟨⟨hs.1, hs.2.1⟩, hs.2.2⟩, if_neg]
        rintro ⟨⟨t1, t2⟩, t3⟩
        apply hself'
        refine ⟨⟨?_, ?_⟩, ?_⟩
        · exact Option.some.inj (hs.1.trans t1.symm)
        · exact hs.2.1.trans t2.symm
        · have := hs.2.2
          cases hA : p.source <;> cases hB : p.target <;> simp_all
      · rename_i hs
        split at h
        · rename_i ht
          simp only [Except.ok.injEq] at h
          refine ⟨p, rfl, ?_, hself', Or.inr ⟨ht.1, ht.2.1⟩⟩
          rw [← h]
          unfold upd
          rw [if_neg, if_pos ⟨⟨ht.1, ht.2.1⟩, ht.2.2⟩]
          rintro ⟨⟨t1, t2⟩, t3⟩
          exact hs ⟨t1, t2, t3⟩
        · simp at h

theorem upd_upd (k : Option String) (i : String) (g : γ) (p : PPair γ) : upd k i g (upd k i g p) = upd k i g p := by
  unfold upd SrcIs TgtIs
  cases hs : p.source <;> cases ht : p.target <;> simp

theorem upd_of_not {k : Option String} {i : String} {g : γ} {p : PPair γ} (h1 : ¬ SrcIs k i p) (h2 : ¬ TgtIs k i p) :
    upd k i g p = p := by
  unfold upd
  rw [if_neg (fun h => h1 h.1), if_neg (fun h => h2 h.1)]

theorem replaceClients_ok {k : Option String} {i : String} {g : γ} :
    ∀ (cl : List Nat) (pairs pairs' : List (PPair γ)), replaceClients k i g cl pairs = (pairs', none) →
      pairs'.length = pairs.length ∧ ∀ x p, pairs[x]? = some p → pairs'[x]? = some (if x ∈ cl then upd k i g p else p)
  | [], pairs, pairs', h => by
    simp only [replaceClients, Prod.mk.injEq, and_true] at h
    subst h
    exact ⟨rfl, fun x p hp => by simpa using hp⟩
  | y :: cl, pairs, pairs', h => by
    unfold replaceClients at h
    cases hr : replaceIn k i g pairs y with
    | error e => rw [hr] at h; simp at h
    | ok ps =>
      rw [hr] at h
      dsimp only at h
      obtain ⟨q, hq, rfl, -, -⟩ := replaceIn_ok hr
      obtain ⟨h1, h2⟩ := replaceClients_ok cl _ _ h
      refine ⟨by simpa using h1, ?_⟩
      intro x p hp
      by_cases hxy : x = y
      · subst hxy
        rw [hp] at hq
        obtain rfl := Option.some.inj hq
        have hlt : x < pairs.length := by
          by_contra hc
          rw [List.getElem?_eq_none (by omega)] at hp
          simp at hp
        have := h2 x (upd k i g p) (by simp [hlt])
        rw [this]
        simp only [List.mem_cons, true_or, if_true, upd_upd, ite_self]
      · have := h2 x p (by rw [List.getElem?_set_ne (Ne.symm hxy)]; exact hp)
        rw [this]
        simp [hxy]

/-- The clients of stub `i` are the graph pairs that use it. -/
def Clients (k : Option String) (i : String) (cl : List Nat) (pairs : List (PPair γ)) : Prop :=
  (∀ x p, pairs[x]? = some p → cl.count x = cnt k i p) ∧ ∀ x, pairs[x]? = none → x ∉ cl

theorem Clients.mem {k : Option String} {i : String} {cl : List Nat} {pairs : List (PPair γ)} (h : Clients k i cl pairs)
    {x : Nat} {p : PPair γ} (hp : pairs[x]? = some p) : x ∈ cl ↔ SrcIs k i p ∨ TgtIs k i p := by
  rw [← List.count_pos_iff, h.1 x p hp]
  unfold cnt
  by_cases h1 : SrcIs k i p <;> by_cases h2 : TgtIs k i p <;> simp [h1, h2]

theorem replaceStub_ok {k : Option String} {i : String} {g : γ} {cl : List Nat} {pairs pairs' : List (PPair γ)}
    (hc : Clients k i cl pairs) (h : replaceStub k i cl g pairs = (pairs', none)) : pairs' = pairs.map (upd k i g) := by
  unfold replaceStub at h
  split at h
  · simp at h
  · obtain ⟨h1, h2⟩ := replaceClients_ok cl _ _ h
    apply List.ext_getElem?
    intro x
    rw [List.getElem?_map]
    cases hp : pairs[x]? with
    | none =>
      rw [List.getElem?_eq_none_iff] at hp
      simp [h1, hp]
    | some p =>
      rw [h2 x p hp, Option.map_some]
      congr 1
      split
      · rfl
      · rename_i hx
        rw [hc.mem hp, not_or] at hx
        exact (upd_of_not hx.1 hx.2).symm

/-- Same banks and graph ids. -/
def SameUse (p q : PPair γ) : Prop :=
  p.sourceBank = q.sourceBank ∧ p.targetBank = q.targetBank ∧ p.sourceId = q.sourceId ∧ p.targetId = q.targetId

theorem cnt_sameUse {k : Option String} {i : String} {p q : PPair γ} (h : SameUse p q) : cnt k i p = cnt k i q := by
  obtain ⟨h1, h2, h3, h4⟩ := h
  simp only [cnt, SrcIs, TgtIs, h1, h2, h3, h4]

theorem Clients.map {k : Option String} {i : String} {cl : List Nat} {pairs : List (PPair γ)} (h : Clients k i cl pairs)
    {f : PPair γ → PPair γ} (hf : ∀ p, SameUse (f p) p) : Clients k i cl (pairs.map f) := by
  constructor
  · intro x p hp
    rw [List.getElem?_map] at hp
    cases hq : pairs[x]? with
    | none => simp [hq] at hp
    | some q =>
      simp only [hq, Option.map_some, Option.some.injEq] at hp
      subst hp
      rw [h.1 x q hq, cnt_sameUse (hf q)]
  · intro x hx
    rw [List.getElem?_map] at hx
    exact h.2 x (by simpa using hx)

theorem sameUse_upd (k : Option String) (i : String) (g : γ) (p : PPair γ) : SameUse (upd k i g p) p := ⟨rfl, rfl, rfl, rfl⟩

/-- Replace all stubs of bank `k` with ids in `is`. -/
def updAll (k : Option String) (gs : AD String γ) (is : List String) (p : PPair γ) : PPair γ :=
  { p with source := if some p.sourceBank = k ∧ p.sourceId ∈ is ∧ p.source.isNone then gs.get? p.sourceId else p.source
           target := if some p.targetBank = k ∧ p.targetId ∈ is ∧ p.target.isNone then gs.get? p.targetId else p.target }

theorem updAll_upd {k : Option String} {gs : AD String γ} {is : List String} {i : String} {g : γ} (hi : i ∉ is)
    (hg : gs.get? i = some g) (p : PPair γ) : updAll k gs is (upd k i g p) = updAll k gs (i :: is) p := by
  unfold updAll upd SrcIs TgtIs
  simp only [List.mem_cons]
  congr 1
  · by_cases h1 : some p.sourceBank = k
    · by_cases h2 : p.sourceId = i
      · cases p.source <;> simp [h1, h2, hi, hg]
      · cases p.source <;> simp [h1, h2]
    · simp [h1]
  · by_cases h1 : some p.targetBank = k
    · by_cases h2 : p.targetId = i
      · cases p.target <;> simp [h1, h2, hi, hg]
      · cases p.target <;> simp [h1, h2]
    · simp [h1]

theorem replaceStubs_ok {k : Option String} {gs : AD String γ} :
    ∀ (l : List (String × List Nat)) (pairs pairs' : List (PPair γ)), (l.map Prod.fst).Nodup →
      (∀ x ∈ l, Clients k x.1 x.2 pairs) → replaceStubs k gs l pairs = (pairs', none) →
      pairs' = pairs.map (updAll k gs (l.map Prod.fst)) ∧ ∀ x ∈ l, (gs.get? x.1).isSome
  | [], pairs, pairs', _, _, h => by
    simp only [replaceStubs, Prod.mk.injEq, and_true] at h
    subst h
    refine ⟨?_, by simp⟩
    conv_lhs => rw [← List.map_id pairs]
    apply List.map_congr_left
    intro p _
    simp [updAll]
  | x :: l, pairs, pairs', hn, hc, h => by
    unfold replaceStubs at h
    cases hg : gs.get? x.1 with
    | none => rw [hg] at h; simp at h
    | some g =>
      rw [hg] at h
      dsimp only at h
      cases hr : replaceStub k x.1 x.2 g pairs with
      | mk ps er =>
        rw [hr] at h
        cases er with
        | some e => simp at h
        | none =>
          dsimp only at h
          have e1 := replaceStub_ok (hc x (by simp)) hr
          subst e1
          simp only [List.map_cons, List.nodup_cons] at hn
          obtain ⟨h1, h2⟩ := replaceStubs_ok l _ _ hn.2
            (fun y hy => (hc y (by simp [hy])).map (sameUse_upd k x.1 g)) h
          refine ⟨?_, ?_⟩
          · rw [h1, List.map_map, List.map_cons]
            apply List.map_congr_left
            intro p _
            exact updAll_upd hn.1 hg p
          · intro y hy
            rcases List.mem_cons.1 hy with rfl | hy
            · rw [hg]; rfl
            · exact h2 y hy

/-! ### When loading succeeds -/

theorem replaceClients_total {k : Option String} {i : String} {g : γ} :
    ∀ (cl : List Nat) (pairs : List (PPair γ)), cl.Nodup →
      (∀ x ∈ cl, ∃ p, pairs[x]? = some p ∧ ¬ Self p ∧ ((SrcIs k i p ∧ p.source = none) ∨ (TgtIs k i p ∧ p.target = none))) →
      ∃ pairs', replaceClients k i g cl pairs = (pairs', none)
  | [], pairs, _, _ => ⟨pairs, rfl⟩
  | y :: cl, pairs, hn, h => by
    obtain ⟨p, hp, hself, hu⟩ := h y (by simp)
    have hns : ¬ (p.sourceBank = p.targetBank ∧ p.sourceId = p.targetId ∧ p.source.isSome = p.target.isSome) :=
      fun hc => hself ⟨hc.1, hc.2.1⟩
    obtain ⟨ps, hps⟩ : ∃ ps, replaceIn k i g pairs y = .ok ps := by
      unfold replaceIn
      rw [hp]
      dsimp only
      rw [if_neg hns]
      split
      · exact ⟨_, rfl⟩
      · rename_i hs
        rcases hu with ⟨⟨a, b⟩, c⟩ | ⟨⟨a, b⟩, c⟩
        · exact absurd ⟨a, b, by simp [c]⟩ hs
        · rw [if_pos ⟨a, b, by simp [c]⟩]; exact ⟨_, rfl⟩
    obtain ⟨q, hq, rfl, -, -⟩ := replaceIn_ok hps
    rw [List.nodup_cons] at hn
    obtain ⟨ps', hps'⟩ := replaceClients_total (k := k) (i := i) (g := g) cl (pairs.set y (upd k i g q)) hn.2 (by
      intro x hx
      have hxy : x ≠ y := by rintro rfl; exact hn.1 hx
      rw [List.getElem?_set_ne (Ne.symm hxy)]
      exact h x (by simp [hx]))
    exact ⟨ps', by simp only [replaceClients, hps, hps']⟩

theorem Clients.nodup {k : Option String} {i : String} {cl : List Nat} {pairs : List (PPair γ)} (h : Clients k i cl pairs)
    (hself : ∀ p ∈ pairs, ¬ Self p) : cl.Nodup := by
  rw [List.nodup_iff_count_le_one]
  intro x
  cases hp : pairs[x]? with
  | none => rw [List.count_eq_zero_of_not_mem (h.2 x hp)]; omega
  | some p =>
    rw [h.1 x p hp]
    unfold cnt
    have hn := hself p (List.mem_iff_getElem?.2 ⟨x, hp⟩)
    by_cases h1 : SrcIs k i p
    · by_cases h2 : TgtIs k i p
      · exact absurd ⟨Option.some.inj (h1.1.trans h2.1.symm), h1.2.trans h2.2.symm⟩ hn
      · simp [h1, h2]
    · by_cases h2 : TgtIs k i p <;> simp [h1, h2]

theorem replaceStubs_total {k : Option String} {gs : AD String γ} :
    ∀ (l : List (String × List Nat)) (pairs : List (PPair γ)), (l.map Prod.fst).Nodup →
      (∀ x ∈ l, Clients k x.1 x.2 pairs ∧ x.2 ≠ [] ∧ (gs.get? x.1).isSome) → (∀ p ∈ pairs, ¬ Self p) →
      (∀ p ∈ pairs, (some p.sourceBank = k → p.sourceId ∈ l.map Prod.fst → p.source = none) ∧
        (some p.targetBank = k → p.targetId ∈ l.map Prod.fst → p.target = none)) →
      ∃ pairs', replaceStubs k gs l pairs = (pairs', none)
  | [], pairs, _, _, _, _ => ⟨pairs, rfl⟩
  | x :: l, pairs, hn, hc, hself, hstub => by
    obtain ⟨h1, h2, h3⟩ := hc x (by simp)
    obtain ⟨g, hg⟩ := Option.isSome_iff_exists.1 h3
    have hn' := hn
    simp only [List.map_cons, List.nodup_cons] at hn'
    obtain ⟨ps, hps⟩ := replaceClients_total (k := k) (i := x.1) (g := g) x.2 pairs (h1.nodup hself) (by
      intro y hy
      cases hp : pairs[y]? with
      | none => exact absurd hy (h1.2 y hp)
      | some p =>
        have hpm : p ∈ pairs := List.mem_iff_getElem?.2 ⟨y, hp⟩
        refine ⟨p, rfl, hself p hpm, ?_⟩
        rcases (h1.mem hp).1 hy with h | h
        · exact Or.inl ⟨h, (hstub p hpm).1 h.1 (by simp [h.2])⟩
        · exact Or.inr ⟨h, (hstub p hpm).2 h.1 (by simp [h.2])⟩)
    have hrs : replaceStub k x.1 x.2 g pairs = (ps, none) := by simp only [replaceStub, h2, if_false, hps]
    have e1 := replaceStub_ok h1 hrs
    subst e1
    obtain ⟨ps', hps'⟩ := replaceStubs_total (k := k) (gs := gs) l (pairs.map (upd k x.1 g)) hn'.2
      (fun y hy => ⟨(hc y (by simp [hy])).1.map (sameUse_upd k x.1 g), (hc y (by simp [hy])).2⟩)
      (by
        intro p hp
        obtain ⟨q, hq, rfl⟩ := List.mem_map.1 hp
        exact hself q hq)
      (by
        intro p hp
        obtain ⟨q, hq, rfl⟩ := List.mem_map.1 hp
        constructor
        · intro a b
          have hb : q.sourceId ∈ l.map Prod.fst := b
          have hne : ¬ SrcIs k x.1 q := by rintro ⟨-, h⟩; exact hn'.1 (h ▸ hb)
          unfold upd
          simp only [hne, false_and, if_false]
          exact (hstub q hq).1 a (by simp only [List.map_cons, List.mem_cons]; exact Or.inr hb)
        · intro a b
          have hb : q.targetId ∈ l.map Prod.fst := b
          have hne : ¬ TgtIs k x.1 q := by rintro ⟨-, h⟩; exact hn'.1 (h ▸ hb)
          unfold upd
          simp only [hne, false_and, if_false]
          exact (hstub q hq).2 a (by simp only [List.map_cons, List.mem_cons]; exact Or.inr hb))
    refine ⟨ps', ?_⟩
    unfold replaceStubs
    rw [hg]
    dsimp only
    rw [hrs]
    exact hps'

/-! ### Invariant of the parser -/

/-- Invariant of bank `k`: before loading the clients of its stubs are right; after it all graphs are there. -/
structure BankInv (env : Env γ) (k : Option String) (bk : Bank γ) (pairs : List (PPair γ)) : Prop where
  before : bk.loaded = false → bk.stubs.WF ∧ (∀ i cl, bk.stubs.get? i = some cl → cl ≠ []) ∧
    (∀ i, Clients k i ((bk.stubs.get? i).getD []) pairs) ∧
    ∀ p ∈ pairs, (some p.sourceBank = k → p.source = none) ∧ (some p.targetBank = k → p.target = none)
  after : bk.loaded = true → (∃ ids, env.readSparse bk.path bk.format ids = .ok bk.graphs) ∧
    ∀ p ∈ pairs, (some p.sourceBank = k → p.source.isSome ∧ p.source = bk.graphs.get? p.sourceId) ∧
      (some p.targetBank = k → p.target.isSome ∧ p.target = bk.graphs.get? p.targetId)

/-- Invariant of the parser when it uses stubs. -/
structure Inv (env : Env γ) (s : State γ) : Prop where
  wf : s.banks.WF
  banks : ∀ k bk, s.banks.get? k = some bk → BankInv env k bk s.pairs
  known : ∀ p ∈ s.pairs, (s.banks.get? (some p.sourceBank)).isSome ∧ (s.banks.get? (some p.targetBank)).isSome

theorem Inv.init (env : Env γ) : Inv env {} := ⟨by simp, by simp, by simp⟩

/-- Graph pairs may change in metadata and alignments. -/
def SameGraphs (p q : PPair γ) : Prop := SameUse p q ∧ p.source = q.source ∧ p.target = q.target

theorem SameGraphs.refl (p : PPair γ) : SameGraphs p p := ⟨⟨rfl, rfl, rfl, rfl⟩, rfl, rfl⟩

theorem forall₂_getElem? {α : Type} {R : α → α → Prop} {l m : List α} (h : List.Forall₂ R l m) {x : Nat} {b : α}
    (hb : m[x]? = some b) : ∃ a, l[x]? = some a ∧ R a b := by
  induction h generalizing x with
  | nil => simp at hb
  | @cons a' b' l m h1 h2 ih =>
    cases x with
    | zero => simp only [List.getElem?_cons_zero, Option.some.injEq] at hb; subst hb; exact ⟨a', by simp, h1⟩
    | succ x => obtain ⟨a, h3, h4⟩ := ih (by simpa using hb); exact ⟨a, by simpa using h3, h4⟩

theorem forall₂_mem {α : Type} {R : α → α → Prop} {l m : List α} (h : List.Forall₂ R l m) {b : α}
    (hb : b ∈ m) : ∃ a ∈ l, R a b := by
  obtain ⟨x, hx⟩ := List.mem_iff_getElem?.1 hb
  obtain ⟨a, h1, h2⟩ := forall₂_getElem? h hx
  exact ⟨a, List.mem_iff_getElem?.2 ⟨x, h1⟩, h2⟩

theorem Inv.same {env : Env γ} {s : State γ} (h : Inv env s) {pairs : List (PPair γ)}
    (hp : List.Forall₂ SameGraphs s.pairs pairs) {s' : State γ} (h1 : s'.banks = s.banks) (h2 : s'.pairs = pairs) :
    Inv env s' := by
  refine ⟨h1 ▸ h.wf, ?_, ?_⟩
  · intro k bk hk
    rw [h1] at hk
    rw [h2]
    have hb := h.banks k bk hk
    constructor
    · intro hl
      obtain ⟨a, b, c, d⟩ := hb.before hl
      refine ⟨a, b, ?_, ?_⟩
      · intro i
        constructor
        · intro x p hx
          obtain ⟨q, hq, hpq⟩ := forall₂_getElem? hp hx
          rw [(c i).1 x q hq, cnt_sameUse hpq.1]
        · intro x hx
          apply (c i).2
          rw [List.getElem?_eq_none_iff] at hx ⊢
          rw [hp.length_eq]; exact hx
      · intro p hx
        obtain ⟨q, hq, hpq⟩ := forall₂_mem hp hx
        obtain ⟨⟨u1, u2, u3, u4⟩, u5, u6⟩ := hpq
        rw [← u1, ← u2, ← u5, ← u6]
        exact d q hq
    · intro hl
      obtain ⟨a, b⟩ := hb.after hl
      refine ⟨a, ?_⟩
      intro p hx
      obtain ⟨q, hq, hpq⟩ := forall₂_mem hp hx
      obtain ⟨⟨u1, u2, u3, u4⟩, u5, u6⟩ := hpq
      rw [← u1, ← u2, ← u3, ← u4, ← u5, ← u6]
      exact b q hq
  · intro p hx
    rw [h2] at hx
    obtain ⟨q, hq, hpq⟩ := forall₂_mem hp hx
    obtain ⟨⟨u1, u2, u3, u4⟩, u5, u6⟩ := hpq
    rw [← u1, ← u2, h1]
    exact h.known q hq

theorem forall₂_refl (l : List (PPair γ)) : List.Forall₂ SameGraphs l l := by
  induction l with
  | nil => exact .nil
  | cons p l ih => exact .cons (.refl p) ih

theorem forall₂_last {l : List (PPair γ)} {p q : PPair γ} (h : l.getLast? = some p) (hpq : SameGraphs p q) :
    List.Forall₂ SameGraphs l (l.dropLast ++ [q]) := by
  have : l = l.dropLast ++ [p] := by
    have := List.getLast?_eq_some_iff.1 h
    obtain ⟨ys, rfl⟩ := this
    simp
  conv_lhs => rw [this]
  exact List.rel_append (forall₂_refl _) (.cons hpq .nil)

theorem addStub_ok {b b' : Bank γ} {i : String} {n : Nat} (h : addStub b i n = .ok b') :
    b.loaded = false ∧ i ≠ "" ∧ b' = { b with stubs := b.stubs.set i ((b.stubs.get? i).getD [] ++ [n]) } := by
  unfold addStub at h
  split at h
  · simp at h
  · split at h
    · simp at h
    · rename_i h1 h2
      simp only [Except.ok.injEq] at h
      exact ⟨by simpa using h1, h2, h.symm⟩

theorem Inv.startPair {env : Env γ} {s s' : State γ} (h : Inv env s) {mode : Load} (hmode : mode ≠ .all)
    {a : AD String String} (hs : startPair mode s a = .ok s') : Inv env s' := by
  unfold Pgc.startPair at hs
  split at hs
  rotate_left
  · simp at hs
  rename_i sb tb ha1 ha2
  split at hs
  rotate_left
  · simp at hs
  rename_i bs bt hb1 hb2
  split at hs
  rotate_left
  · simp at hs
  rename_i si ti ha3 ha4
  have hs' : (match addStub bs si s.pairs.length with
          | .error e => .error e
          | .ok b => match (s.banks.set (some sb) b).get? (some tb) with
            | none => .error .keyError
            | some bt => match addStub bt ti s.pairs.length with
              | .error e => .error e
              | .ok b' => .ok { s with
                  banks := (s.banks.set (some sb) b).set (some tb) b'
                  pairs := s.pairs ++ [newPair sb tb si ti none none] } : Py (State γ)) = .ok s' := by
    cases mode with
    | all => exact absurd rfl hmode
    | sparse => exact hs
    | none => exact hs
  clear hs
  split at hs'
  · simp at hs'
  rename_i b hadd1
  split at hs'
  · simp at hs'
  rename_i bt' hbt'
  split at hs'
  · simp at hs'
  rename_i b' hadd2
  simp only [Except.ok.injEq] at hs'
  subst hs'
  obtain ⟨l1, -, rfl⟩ := addStub_ok hadd1
  obtain ⟨l2, -, rfl⟩ := addStub_ok hadd2
  -- every bank of the new state comes from a bank of the old one
  have hold : ∀ k bk, ((s.banks.set (some sb) { bs with stubs := bs.stubs.set si ((bs.stubs.get? si).getD [] ++ [s.pairs.length]) }).set
      (some tb) { bt' with stubs := bt'.stubs.set ti ((bt'.stubs.get? ti).getD [] ++ [s.pairs.length]) }).get? k = some bk →
      ∃ b0, s.banks.get? k = some b0 ∧ bk.path = b0.path ∧ bk.format = b0.format ∧ bk.loaded = b0.loaded ∧
        bk.graphs = b0.graphs ∧ (b0.loaded = true → k ≠ some sb ∧ k ≠ some tb) ∧ (b0.stubs.WF → bk.stubs.WF) ∧
        (∀ i, (bk.stubs.get? i).getD [] = (b0.stubs.get? i).getD [] ++
          (if some sb = k ∧ si = i then [s.pairs.length] else []) ++ (if some tb = k ∧ ti = i then [s.pairs.length] else [])) ∧
        (∀ i, (bk.stubs.get? i).isSome → (b0.stubs.get? i).isSome ∨ (some sb = k ∧ si = i) ∨ (some tb = k ∧ ti = i)) := by
    intro k bk hk
    rw [AD.get?_set] at hk
    by_cases hkt : k = some tb
    · subst hkt
      rw [if_pos rfl] at hk
      obtain rfl := Option.some.inj hk
      rw [AD.get?_set] at hbt'
      by_cases hst : some tb = some sb
      · rw [if_pos hst] at hbt'
        obtain rfl := Option.some.inj hbt'
        have hst' := Option.some.inj hst
        subst hst'
        refine ⟨bs, hb1, rfl, rfl, rfl, rfl, by simp [l1], fun hw => (hw.set _ _).set _ _, ?_, ?_⟩
        · intro i
          dsimp only
          simp only [AD.get?_set]
          by_cases e1 : i = ti
          · subst e1
            by_cases e2 : i = si
            · subst e2; simp
            · simp [e2, Ne.symm e2]
          · by_cases e2 : i = si
            · subst e2; simp [e1, Ne.symm e1]
            · simp [e1, e2, Ne.symm e1, Ne.symm e2]
        · intro i
          dsimp only
          simp only [AD.get?_set]
          by_cases e1 : i = ti
          · subst e1; simp
          · by_cases e2 : i = si
            · subst e2; simp
            · simp only [e1, e2, if_false]; intro hx; exact Or.inl hx
      · rw [if_neg hst] at hbt'
        rw [hb2] at hbt'
        obtain rfl := Option.some.inj hbt'
        refine ⟨bt, hb2, rfl, rfl, rfl, rfl, by simp [l2], fun hw => hw.set _ _, ?_, ?_⟩
        · intro i
          dsimp only
          simp only [AD.get?_set]
          by_cases e1 : i = ti
          · subst e1; simp [Ne.symm hst]
          · simp [e1, Ne.symm e1, Ne.symm hst]
        · intro i
          dsimp only
          simp only [AD.get?_set]
          by_cases e1 : i = ti
          · subst e1; simp
          · simp only [e1, if_false]; intro hx; exact Or.inl hx
    · rw [if_neg hkt, AD.get?_set] at hk
      by_cases hks : k = some sb
      · subst hks
        rw [if_pos rfl] at hk
        obtain rfl := Option.some.inj hk
        refine ⟨bs, hb1, rfl, rfl, rfl, rfl, by simp [l1], fun hw => hw.set _ _, ?_, ?_⟩
        · intro i
          dsimp only
          simp only [AD.get?_set]
          by_cases e1 : i = si
          · subst e1; simp [Ne.symm hkt]
          · simp [e1, Ne.symm e1, Ne.symm hkt]
        · intro i
          dsimp only
          simp only [AD.get?_set]
          by_cases e1 : i = si
          · subst e1; simp
          · simp only [e1, if_false]; intro hx; exact Or.inl hx
      · rw [if_neg hks] at hk
        refine ⟨bk, hk, rfl, rfl, rfl, rfl, fun _ => ⟨hks, hkt⟩, id, ?_, fun i hx => Or.inl hx⟩
        intro i
        simp [Ne.symm hks, Ne.symm hkt]
  refine ⟨(h.wf.set _ _).set _ _, ?_, ?_⟩
  · intro k bk hk
    dsimp only at hk ⊢
    obtain ⟨b0, g1, g2, g3, g4, g5, g6, g7, g8, g9⟩ := hold k bk hk
    have hI := h.banks k b0 g1
    constructor
    · intro hl
      obtain ⟨c1, c2, c3, c4⟩ := hI.before (g4 ▸ hl)
      refine ⟨g7 c1, ?_, ?_, ?_⟩
      · intro i cl hcl hnil
        have h8 := g8 i
        have h9 := g9 i (by rw [hcl]; rfl)
        rw [hcl, Option.getD_some, hnil] at h8
        rcases h9 with h9 | h9 | h9
        · obtain ⟨cl0, hcl0⟩ := Option.isSome_iff_exists.1 h9
          rw [hcl0, Option.getD_some] at h8
          have := c2 i cl0 hcl0
          simp only [List.nil_eq, List.append_eq_nil_iff] at h8
          exact this h8.1.1
        · simp [h9] at h8
        · simp [h9] at h8
      · intro i
        rw [g8 i]
        obtain ⟨d1, d2⟩ := c3 i
        constructor
        · intro x p hx
          rw [List.getElem?_append] at hx
          split at hx
          · rename_i hlt
            rw [List.count_append, List.count_append, d1 x p hx]
            have hne : s.pairs.length ≠ x := by omega
            have e : ∀ c : Prop, ∀ [Decidable c], List.count x (if c then [s.pairs.length] else []) = 0 := by
              intro c _
              split
              · rw [List.count_singleton]; simp [hne]
              · rfl
            rw [e, e]; rfl
          · rename_i hge
            rw [List.getElem?_singleton] at hx
            split at hx
            · rename_i h0
              have hxe : x = s.pairs.length := by omega
              obtain rfl := Option.some.inj hx
              subst hxe
              rw [List.count_append, List.count_append,
                List.count_eq_zero_of_not_mem (d2 _ (by simp))]
              have e : ∀ c : Prop, ∀ [Decidable c], List.count s.pairs.length (if c then [s.pairs.length] else []) =
                  if c then 1 else 0 := by
                intro c _
                split
                · simp
                · rfl
              rw [e, e]
              unfold cnt
              by_cases u : some sb = k ∧ si = i <;> by_cases v : some tb = k ∧ ti = i <;>
                simp [SrcIs, TgtIs, newPair, u, v]
            · simp at hx
        · intro x hx
          rw [List.getElem?_eq_none_iff, List.length_append, List.length_singleton] at hx
          have := d2 x (by rw [List.getElem?_eq_none_iff]; omega)
          simp only [List.mem_append, not_or]
          refine ⟨⟨this, ?_⟩, ?_⟩
          · split
            · simp only [List.mem_singleton]; omega
            · simp
          · split
            · simp only [List.mem_singleton]; omega
            · simp
      · intro p hp
        rcases List.mem_append.1 hp with hp | hp
        · exact c4 p hp
        · rw [List.mem_singleton] at hp
          subst hp
          exact ⟨fun _ => rfl, fun _ => rfl⟩
    · intro hl
      obtain ⟨c1, c2⟩ := hI.after (g4 ▸ hl)
      refine ⟨by rw [g2, g3, g5]; exact c1, ?_⟩
      intro p hp
      rw [g5]
      rcases List.mem_append.1 hp with hp | hp
      · exact c2 p hp
      · rw [List.mem_singleton] at hp
        subst hp
        obtain ⟨n1, n2⟩ := g6 (g4 ▸ hl)
        exact ⟨fun hc => absurd hc.symm n1, fun hc => absurd hc.symm n2⟩
  · intro p hp
    dsimp only at hp ⊢
    have hk : ∀ k, (s.banks.get? k).isSome → (((s.banks.set (some sb) { bs with stubs := bs.stubs.set si ((bs.stubs.get? si).getD [] ++ [s.pairs.length]) }).set
      (some tb) { bt' with stubs := bt'.stubs.set ti ((bt'.stubs.get? ti).getD [] ++ [s.pairs.length]) }).get? k).isSome := by
      intro k hk
      rw [AD.get?_set]
      split
      · rfl
      · rw [AD.get?_set]
        split
        · rfl
        · exact hk
    rcases List.mem_append.1 hp with hp | hp
    · exact ⟨hk _ (h.known p hp).1, hk _ (h.known p hp).2⟩
    · rw [List.mem_singleton] at hp
      subst hp
      exact ⟨hk _ (by simp [newPair, hb1]), hk _ (by simp [newPair, hb2])⟩

theorem loadSparse_ok {env : Env γ} {k : Option String} {bk bk' : Bank γ} {pairs pairs' : List (PPair γ)}
    (hI : BankInv env k bk pairs) (h : loadSparse env k bk pairs = (pairs', .ok bk')) :
    bk.loaded = false ∧ ∃ gs, env.readSparse bk.path bk.format bk.stubs.keys = .ok gs ∧
      bk' = { bk with loaded := true, graphs := gs } ∧ pairs' = pairs.map (updAll k gs bk.stubs.keys) ∧
      ∀ i ∈ bk.stubs.keys, (gs.get? i).isSome := by
  unfold loadSparse at h
  split at h
  · simp at h
  rename_i hl
  have hl' : bk.loaded = false := by simpa using hl
  obtain ⟨c1, c2, c3, c4⟩ := hI.before hl'
  split at h
  · simp at h
  rename_i gs hgs
  split at h
  · simp at h
  split at h
  · simp at h
  rename_i ps hps
  simp only [Prod.mk.injEq, Except.ok.injEq] at h
  obtain ⟨rfl, rfl⟩ := h
  obtain ⟨h1, h2⟩ := replaceStubs_ok bk.stubs pairs ps c1 (by
    intro x hx
    have := c3 x.1
    rwa [AD.get?_of_mem c1 (v := x.2) hx, Option.getD_some] at this) hps
  refine ⟨hl', gs, hgs, rfl, h1, ?_⟩
  intro i hi
  obtain ⟨x, hx, rfl⟩ := List.mem_map.1 hi
  exact h2 x hx

/-- Every graph of the bank that a graph pair uses has a stub. -/
theorem BankInv.stub {env : Env γ} {k : Option String} {bk : Bank γ} {pairs : List (PPair γ)} (hI : BankInv env k bk pairs)
    (hl : bk.loaded = false) {p : PPair γ} (hp : p ∈ pairs) :
    (some p.sourceBank = k → p.sourceId ∈ bk.stubs.keys) ∧ (some p.targetBank = k → p.targetId ∈ bk.stubs.keys) := by
  obtain ⟨c1, c2, c3, c4⟩ := hI.before hl
  obtain ⟨x, hx⟩ := List.mem_iff_getElem?.1 hp
  have key : ∀ i, SrcIs k i p ∨ TgtIs k i p → i ∈ bk.stubs.keys := by
    intro i hi
    have := ((c3 i).mem hx).2 hi
    rw [AD.mem_keys_iff]
    cases hc : bk.stubs.get? i with
    | none => rw [hc] at this; simp at this
    | some cl => rfl
  exact ⟨fun h => key _ (Or.inl ⟨h, rfl⟩), fun h => key _ (Or.inr ⟨h, rfl⟩)⟩

/-- Only graphs differ. -/
def SameRest (p q : PPair γ) : Prop := SameUse p q ∧ p.meta = q.meta ∧ p.align = q.align

/-- Banks differ in their graphs only. -/
def SameBanks (s s' : State γ) : Prop :=
  ∀ k, (s'.banks.get? k).map (fun b => (b.path, b.format)) = (s.banks.get? k).map (fun b => (b.path, b.format))

theorem Inv.loadBank {env : Env γ} {s s' : State γ} (h : Inv env s) {k : Option String} {bk : Bank γ}
    (hk : s.banks.get? k = some bk) (hs : Pgc.loadBank env .sparse (k, bk) s = .ok s') :
    Inv env s' ∧ (∃ b, s'.banks.get? k = some b ∧ b.loaded = true) ∧ (∀ k', k' ≠ k → s'.banks.get? k' = s.banks.get? k') ∧
      s'.rels = s.rels ∧ s'.meta = s.meta ∧ List.Forall₂ SameRest s.pairs s'.pairs ∧ SameBanks s s' := by
  unfold Pgc.loadBank at hs
  dsimp only at hs
  have hI := h.banks k bk hk
  cases hL : loadSparse env k bk s.pairs with
  | mk ps r =>
    rw [hL] at hs
    cases r with
    | error e => simp at hs
    | ok b =>
      simp only [Except.ok.injEq] at hs
      subst hs
      obtain ⟨hl, gs, e1, rfl, rfl, e4⟩ := loadSparse_ok hI hL
      have hstub := fun p hp => hI.stub hl (p := p) hp
      obtain ⟨c1, c2, c3, c4⟩ := hI.before hl
      refine ⟨⟨h.wf.set _ _, ?_, ?_⟩, ⟨{ bk with loaded := true, graphs := gs }, by simp, rfl⟩, ?_, rfl, rfl, ?_, ?_⟩
      · intro k' b hb
        dsimp only at hb ⊢
        rw [AD.get?_set] at hb
        split at hb
        · rename_i hkk
          subst hkk
          obtain rfl := Option.some.inj hb
          refine ⟨by simp, fun _ => ⟨⟨_, e1⟩, ?_⟩⟩
          intro p hp
          obtain ⟨q, hq, rfl⟩ := List.mem_map.1 hp
          constructor
          · intro hsb
            have hsb' : some q.sourceBank = k' := hsb
            have h0 := (c4 q hq).1 hsb'
            have h1 := (hstub q hq).1 hsb'
            simp only [updAll, hsb', h0, h1, Option.isNone_none, and_self, if_true, and_true]
            exact e4 _ h1
          · intro hsb
            have hsb' : some q.targetBank = k' := hsb
            have h0 := (c4 q hq).2 hsb'
            have h1 := (hstub q hq).2 hsb'
            simp only [updAll, hsb', h0, h1, Option.isNone_none, and_self, if_true, and_true]
            exact e4 _ h1
        · rename_i hkk
          have hJ := h.banks k' b hb
          have hsrc : ∀ q : PPair γ, some q.sourceBank = k' → (updAll k gs bk.stubs.keys q).source = q.source := by
            intro q hq
            have : some q.sourceBank ≠ k := by rw [hq]; exact hkk
            simp [updAll, this]
          have htgt : ∀ q : PPair γ, some q.targetBank = k' → (updAll k gs bk.stubs.keys q).target = q.target := by
            intro q hq
            have : some q.targetBank ≠ k := by rw [hq]; exact hkk
            simp [updAll, this]
          constructor
          · intro hbl
            obtain ⟨d1, d2, d3, d4⟩ := hJ.before hbl
            refine ⟨d1, d2, fun i => (d3 i).map (fun p => ⟨rfl, rfl, rfl, rfl⟩), ?_⟩
            intro p hp
            obtain ⟨q, hq, rfl⟩ := List.mem_map.1 hp
            exact ⟨fun hx => by rw [hsrc q hx]; exact (d4 q hq).1 hx, fun hx => by rw [htgt q hx]; exact (d4 q hq).2 hx⟩
          · intro hbl
            obtain ⟨d1, d2⟩ := hJ.after hbl
            refine ⟨d1, ?_⟩
            intro p hp
            obtain ⟨q, hq, rfl⟩ := List.mem_map.1 hp
            exact ⟨fun hx => by rw [hsrc q hx]; exact (d2 q hq).1 hx, fun hx => by rw [htgt q hx]; exact (d2 q hq).2 hx⟩
      · intro p hp
        dsimp only at hp ⊢
        obtain ⟨q, hq, rfl⟩ := List.mem_map.1 hp
        have hkeep : ∀ x, (s.banks.get? x).isSome →
            ((s.banks.set k { bk with loaded := true, graphs := gs }).get? x).isSome := by
          intro x hx
          rw [AD.get?_set]
          split
          · rfl
          · exact hx
        exact ⟨hkeep _ (h.known q hq).1, hkeep _ (h.known q hq).2⟩
      · intro k' hk'
        dsimp only
        rw [AD.get?_set_ne _ _ hk']
      · dsimp only
        rw [List.forall₂_map_right_iff, List.forall₂_same]
        intro p _
        exact ⟨⟨rfl, rfl, rfl, rfl⟩, rfl, rfl⟩
      · intro k'
        dsimp only
        rw [AD.get?_set]
        split
        · rename_i hkk
          subst hkk
          rw [hk]
          rfl
        · rfl

theorem forall₂_sameRest_trans {l m n : List (PPair γ)} (h1 : List.Forall₂ SameRest l m) (h2 : List.Forall₂ SameRest m n) :
    List.Forall₂ SameRest l n := by
  induction h1 generalizing n with
  | nil => exact h2
  | cons a _ ih =>
    obtain _ | ⟨b, h2⟩ := h2
    obtain ⟨⟨a1, a2, a3, a4⟩, a5, a6⟩ := a
    obtain ⟨⟨b1, b2, b3, b4⟩, b5, b6⟩ := b
    exact .cons ⟨⟨a1.trans b1, a2.trans b2, a3.trans b3, a4.trans b4⟩, a5.trans b5, a6.trans b6⟩ (ih h2)

theorem forall₂_sameRest_refl (l : List (PPair γ)) : List.Forall₂ SameRest l l := by
  rw [List.forall₂_same]
  intro p _
  exact ⟨⟨rfl, rfl, rfl, rfl⟩, rfl, rfl⟩

theorem Inv.loadBanks' {env : Env γ} : ∀ (l : List (Option String × Bank γ)) {s s' : State γ}, Inv env s →
    (l.map Prod.fst).Nodup → (∀ x ∈ l, s.banks.get? x.1 = some x.2) → Py.forIn l s (Pgc.loadBank env .sparse) = .ok s' →
    Inv env s' ∧ (∀ x ∈ l, ∃ b, s'.banks.get? x.1 = some b ∧ b.loaded = true) ∧
      (∀ k, k ∉ l.map Prod.fst → s'.banks.get? k = s.banks.get? k) ∧
      s'.rels = s.rels ∧ s'.meta = s.meta ∧ List.Forall₂ SameRest s.pairs s'.pairs ∧ SameBanks s s'
  | [], s, s', h, _, _, hs => by
    simp only [Py.forIn, Except.ok.injEq] at hs
    subst hs
    exact ⟨h, by simp, fun _ _ => rfl, rfl, rfl, forall₂_sameRest_refl _, fun _ => rfl⟩
  | x :: l, s, s', h, hn, hl, hs => by
    unfold Py.forIn at hs
    cases hb : Pgc.loadBank env .sparse x s with
    | error e => rw [hb] at hs; simp at hs
    | ok s1 =>
      rw [hb] at hs
      dsimp only at hs
      obtain ⟨a1, a2, a3, a4, a5, a6, a7⟩ := h.loadBank (hl x (by simp)) hb
      simp only [List.map_cons, List.nodup_cons] at hn
      obtain ⟨b1, b2, b3, b4, b5, b6, b7⟩ := Inv.loadBanks' l a1 hn.2 (by
        intro y hy
        have hne : y.1 ≠ x.1 := by rintro he; exact hn.1 (he ▸ List.mem_map_of_mem hy)
        rw [a3 _ hne]
        exact hl y (by simp [hy])) hs
      refine ⟨b1, ?_, ?_, b4.trans a4, b5.trans a5, forall₂_sameRest_trans a6 b6, fun k => (b7 k).trans (a7 k)⟩
      · intro y hy
        rcases List.mem_cons.1 hy with rfl | hy
        · rw [b3 _ hn.1]; exact a2
        · exact b2 y hy
      · intro k hk
        simp only [List.map_cons, List.mem_cons, not_or] at hk
        rw [b3 k hk.2, a3 k hk.1]

theorem Inv.loadBanks {env : Env γ} {s s' : State γ} (h : Inv env s) (hs : Pgc.loadBanks env .sparse s = .ok s') :
    Inv env s' ∧ (∀ k b, s'.banks.get? k = some b → b.loaded = true) ∧
      s'.rels = s.rels ∧ s'.meta = s.meta ∧ List.Forall₂ SameRest s.pairs s'.pairs ∧ SameBanks s s' := by
  obtain ⟨a1, a2, a3, a4⟩ := Inv.loadBanks' s.banks h h.wf (fun x hx => AD.get?_of_mem h.wf hx) hs
  refine ⟨a1, ?_, a4⟩
  intro k b hb
  by_cases hk : k ∈ s.banks.map Prod.fst
  · obtain ⟨x, hx, rfl⟩ := List.mem_map.1 hk
    obtain ⟨b', h1, h2⟩ := a2 x hx
    rw [hb] at h1
    obtain rfl := Option.some.inj h1
    exact h2
  · rw [a3 k hk] at hb
    exact absurd ((AD.mem_keys_iff _ _).2 (by rw [hb]; rfl)) hk

/-- Loading succeeds: the files have the graphs and no graph is aligned with itself. -/
theorem Inv.loadBanks'_total {env : Env γ} : ∀ (l : List (Option String × Bank γ)) {s : State γ}, Inv env s →
    (l.map Prod.fst).Nodup → (∀ x ∈ l, s.banks.get? x.1 = some x.2) → (∀ x ∈ l, x.2.loaded = false) →
    (∀ p ∈ s.pairs, ¬ Self p) →
    (∀ x ∈ l, ∃ gs, env.readSparse x.2.path x.2.format x.2.stubs.keys = .ok gs ∧
      ∀ i ∈ x.2.stubs.keys, (gs.get? i).isSome) →
    ∃ s', Py.forIn l s (Pgc.loadBank env .sparse) = .ok s'
  | [], s, _, _, _, _, _, _ => ⟨s, rfl⟩
  | x :: l, s, h, hn, hl, hld, hself, hr => by
    obtain ⟨gs, g1, g2⟩ := hr x (by simp)
    have hI := h.banks x.1 x.2 (hl x (by simp))
    have hx := hld x (by simp)
    obtain ⟨c1, c2, c3, c4⟩ := hI.before hx
    obtain ⟨ps, hps⟩ := replaceStubs_total (k := x.1) (gs := gs) x.2.stubs s.pairs c1 (by
      intro y hy
      have hy' := AD.get?_of_mem c1 hy
      refine ⟨by simpa [hy'] using c3 y.1, c2 _ _ hy', g2 _ (List.mem_map_of_mem hy)⟩) hself
      (fun p hp => ⟨fun e _ => (c4 p hp).1 e, fun e _ => (c4 p hp).2 e⟩)
    have hany : (x.2.stubs.keys.any fun i => (gs.get? i).isNone) = false := by
      rw [List.any_eq_false]
      intro i hi
      have := g2 i hi
      cases hg : gs.get? i <;> simp_all
    have hb : ∃ s1, Pgc.loadBank env .sparse x s = .ok s1 := by
      simp only [Pgc.loadBank, loadSparse, hx, g1, hps, hany]
      exact ⟨_, rfl⟩
    obtain ⟨s1, hb⟩ := hb
    obtain ⟨a1, a2, a3, a4, a5, a6, a7⟩ := h.loadBank (hl x (by simp)) hb
    simp only [List.map_cons, List.nodup_cons] at hn
    unfold Py.forIn
    rw [hb]
    refine Inv.loadBanks'_total l a1 hn.2 ?_ (fun y hy => hld y (by simp [hy])) ?_ (fun y hy => hr y (by simp [hy]))
    · intro y hy
      have hne : y.1 ≠ x.1 := by rintro he; exact hn.1 (he ▸ List.mem_map_of_mem hy)
      rw [a3 _ hne]
      exact hl y (by simp [hy])
    · intro q hq
      obtain ⟨p, hp, e⟩ := forall₂_mem a6 hq
      obtain ⟨⟨e1, e2, e3, e4⟩, -⟩ := e
      have := hself p hp
      unfold Self at this ⊢
      rwa [← e1, ← e2, ← e3, ← e4]

theorem Inv.loadBanks_total {env : Env γ} {s : State γ} (h : Inv env s) (hld : ∀ k bk, s.banks.get? k = some bk → bk.loaded = false)
    (hself : ∀ p ∈ s.pairs, ¬ Self p)
    (hr : ∀ k bk, s.banks.get? k = some bk → ∃ gs, env.readSparse bk.path bk.format bk.stubs.keys = .ok gs ∧
      ∀ i ∈ bk.stubs.keys, (gs.get? i).isSome) : ∃ s', Pgc.loadBanks env .sparse s = .ok s' :=
  Inv.loadBanks'_total s.banks h h.wf (fun x hx => AD.get?_of_mem h.wf hx)
    (fun x hx => hld x.1 x.2 (AD.get?_of_mem h.wf hx)) hself (fun x hx => hr x.1 x.2 (AD.get?_of_mem h.wf hx))

theorem Inv.endFile {env : Env γ} {s s' : State γ} (h : Inv env s) {e : Elem} (hs : Pgc.endFile env s e = .ok s') :
    Inv env s' := by
  unfold Pgc.endFile at hs
  split at hs
  · simp at hs
  rename_i hhas
  split at hs
  · simp at hs
  simp only [Except.ok.injEq] at hs
  subst hs
  have hnone : s.banks.get? (e.attrib.get? "id") = none := by simpa [AD.has] using hhas
  refine ⟨h.wf.set _ _, ?_, ?_⟩
  · intro k bk hk
    dsimp only at hk ⊢
    rw [AD.get?_set] at hk
    split at hk
    · rename_i hkk
      subst hkk
      obtain rfl := Option.some.inj hk
      have hno : ∀ p ∈ s.pairs, some p.sourceBank ≠ e.attrib.get? "id" ∧ some p.targetBank ≠ e.attrib.get? "id" := by
        intro p hp
        obtain ⟨k1, k2⟩ := h.known p hp
        constructor
        · intro hc; rw [hc, hnone] at k1; simp at k1
        · intro hc; rw [hc, hnone] at k2; simp at k2
      refine ⟨fun _ => ⟨by simp, by simp, ?_, ?_⟩, by simp⟩
      · intro i
        constructor
        · intro x p hp
          obtain ⟨n1, n2⟩ := hno p (List.mem_iff_getElem?.2 ⟨x, hp⟩)
          simp [cnt, SrcIs, TgtIs, n1, n2]
        · simp
      · intro p hp
        obtain ⟨n1, n2⟩ := hno p hp
        exact ⟨fun hc => absurd hc n1, fun hc => absurd hc n2⟩
    · exact h.banks k bk hk
  · intro p hp
    dsimp only
    obtain ⟨k1, k2⟩ := h.known p hp
    constructor
    · rw [AD.get?_set]; split
      · rfl
      · exact k1
    · rw [AD.get?_set]; split
      · rfl
      · exact k2

theorem Inv.step {env : Env γ} {mode : Load} (hmode : mode ≠ .all) {s s' : State γ} (h : Inv env s) {ev : Event}
    (hs : Pgc.step env mode s ev = .ok s') : Inv env s' := by
  have hsame : ∀ {s' : State γ}, s'.banks = s.banks → s'.pairs = s.pairs → Inv env s' :=
    fun h1 h2 => h.same (forall₂_refl _) h1 h2
  cases ev with
  | start e =>
    unfold Pgc.step at hs
    dsimp only at hs
    split at hs
    · simp only [Except.ok.injEq] at hs; subst hs; exact hsame rfl rfl
    split at hs
    · exact h.startPair hmode hs
    split at hs
    · unfold startNodePair at hs
      split at hs
      · simp at hs
      rename_i p hp
      split at hs
      · simp at hs
      simp only [Except.ok.injEq] at hs
      subst hs
      refine h.same (pairs := s.pairs.dropLast ++ [_]) (forall₂_last hp ?_) rfl rfl
      exact ⟨⟨rfl, rfl, rfl, rfl⟩, rfl, rfl⟩
    · simp only [Except.ok.injEq] at hs; subst hs; exact h
  | stop e =>
    unfold Pgc.step at hs
    dsimp only at hs
    split at hs
    · simp only [Except.ok.injEq] at hs; subst hs; exact hsame rfl rfl
    split at hs
    · exact h.endFile hs
    split at hs
    · simp only [Except.ok.injEq] at hs; subst hs; exact h
    split at hs
    · unfold endRelation at hs
      split at hs
      · simp at hs
      simp only [Except.ok.injEq] at hs; subst hs; exact hsame rfl rfl
    split at hs
    · simp only [Except.ok.injEq] at hs
      subst hs
      unfold endRelations
      split
      · exact hsame rfl rfl
      · exact hsame rfl rfl
    split at hs
    · unfold endGraphMeta at hs
      split at hs
      · simp at hs
      rename_i p hp
      simp only [Except.ok.injEq] at hs
      subst hs
      refine h.same (pairs := s.pairs.dropLast ++ [_]) (forall₂_last hp ?_) rfl rfl
      exact ⟨⟨rfl, rfl, rfl, rfl⟩, rfl, rfl⟩
    split at hs
    · split at hs
      · exact (h.loadBanks hs).1
      · simp only [Except.ok.injEq] at hs; subst hs; exact h
    · simp only [Except.ok.injEq] at hs; subst hs; exact h

theorem Inv.run {env : Env γ} {mode : Load} (hmode : mode ≠ .all) : ∀ (evs : List Event) {s s' : State γ}, Inv env s →
    Pgc.run env mode s evs = .ok s' → Inv env s'
  | [], s, s', h, hs => by
    rw [run_nil, Except.ok.injEq] at hs
    exact hs ▸ h
  | e :: evs, s, s', h, hs => by
    rw [run_cons] at hs
    cases h1 : Pgc.step env mode s e with
    | error e => rw [h1] at hs; simp at hs
    | ok s1 =>
      rw [h1] at hs
      exact Inv.run hmode evs (h.step hmode h1) hs

end Verif.Pgc
