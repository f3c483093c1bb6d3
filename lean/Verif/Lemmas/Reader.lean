import Verif.Lemmas.Loading

/-! Lemmas about the reader of corpora on arbitrary event sequences. -/
namespace Verif.Pgc
open Verif Verif.Etree Verif.Corpus Verif.Spec Verif.Spec.Pgc
set_option linter.unusedSectionVars false

variable {γ : Type}

theorem forall₂_sameUse_refl (l : List (PPair γ)) : List.Forall₂ SameUse l l := by
  rw [List.forall₂_same]
  intro p _
  exact ⟨rfl, rfl, rfl, rfl⟩

theorem forall₂_sameUse_set {l : List (PPair γ)} {k : Nat} {p q : PPair γ} (hp : l[k]? = some p) (h : SameUse p q) :
    List.Forall₂ SameUse l (l.set k q) := by
  rw [List.forall₂_iff_get]
  refine ⟨by simp, fun i h1 h2 => ?_⟩
  simp only [List.get_eq_getElem, List.getElem_set]
  split
  · rename_i e
    subst e
    rw [List.getElem?_eq_getElem h1, Option.some.injEq] at hp
    rw [hp]
    exact h
  · exact ⟨rfl, rfl, rfl, rfl⟩

theorem forall₂_sameUse_trans {l m n : List (PPair γ)} (h1 : List.Forall₂ SameUse l m) (h2 : List.Forall₂ SameUse m n) :
    List.Forall₂ SameUse l n := by
  induction h1 generalizing n with
  | nil => exact h2
  | cons a _ ih =>
    obtain _ | ⟨b, h2⟩ := h2
    exact .cons ⟨a.1.trans b.1, a.2.1.trans b.2.1, a.2.2.1.trans b.2.2.1, a.2.2.2.trans b.2.2.2⟩ (ih h2)

theorem replaceClients_use (k : Option String) (i : String) (g : γ) : ∀ (cl : List Nat) (pairs : List (PPair γ)),
    List.Forall₂ SameUse pairs (replaceClients k i g cl pairs).1
  | [], pairs => forall₂_sameUse_refl _
  | x :: cl, pairs => by
    unfold replaceClients
    cases h : replaceIn k i g pairs x with
    | error e => exact forall₂_sameUse_refl _
    | ok ps =>
      obtain ⟨p, h1, rfl, -, -⟩ := replaceIn_ok h
      exact forall₂_sameUse_trans (forall₂_sameUse_set h1 (q := upd k i g p) ⟨rfl, rfl, rfl, rfl⟩) (replaceClients_use k i g cl _)

theorem replaceStubs_use (k : Option String) (gs : AD String γ) : ∀ (l : List (String × List Nat)) (pairs : List (PPair γ)),
    List.Forall₂ SameUse pairs (replaceStubs k gs l pairs).1
  | [], pairs => forall₂_sameUse_refl _
  | x :: l, pairs => by
    unfold replaceStubs
    cases gs.get? x.1 with
    | none => exact forall₂_sameUse_refl _
    | some g =>
      dsimp only
      have h1 : List.Forall₂ SameUse pairs (replaceStub k x.1 x.2 g pairs).1 := by
        unfold replaceStub
        split
        · exact forall₂_sameUse_refl _
        · exact replaceClients_use _ _ _ _ _
      cases hr : replaceStub k x.1 x.2 g pairs with
      | mk ps r =>
        rw [hr] at h1
        cases r with
        | some e => exact h1
        | none => exact forall₂_sameUse_trans h1 (replaceStubs_use k gs l ps)

theorem loadSparse_use (env : Env γ) (k : Option String) (bk : Bank γ) (pairs : List (PPair γ)) :
    List.Forall₂ SameUse pairs (loadSparse env k bk pairs).1 := by
  unfold loadSparse
  split
  · exact forall₂_sameUse_refl _
  · cases env.readSparse bk.path bk.format bk.stubs.keys with
    | error e => exact forall₂_sameUse_refl _
    | ok gs =>
      dsimp only
      split
      · exact forall₂_sameUse_refl _
      · have h := replaceStubs_use k gs bk.stubs pairs
        cases hr : replaceStubs k gs bk.stubs pairs with
        | mk ps r => rw [hr] at h; cases r <;> exact h

/-- Loading keeps the uses of graphs and the ids of banks. -/
theorem loadBank_keeps {env : Env γ} {mode : Load} {x : Option String × Bank γ} {s s' : State γ}
    (h : loadBank env mode x s = .ok s') : List.Forall₂ SameUse s.pairs s'.pairs ∧
      ∀ k, (s'.banks.get? k).isSome ↔ (s.banks.get? k).isSome ∨ k = x.1 := by
  have hset : ∀ b : Bank γ, ∀ k, ((s.banks.set x.1 b).get? k).isSome ↔ (s.banks.get? k).isSome ∨ k = x.1 := by
    intro b k
    rw [AD.get?_set]
    by_cases hk : k = x.1 <;> simp [hk]
  have hsp : ∀ {s'}, (match loadSparse env x.1 x.2 s.pairs with
      | (_, .error e) => (.error e : Py (State γ))
      | (pairs, .ok b) => .ok { s with banks := s.banks.set x.1 b, pairs := pairs }) = .ok s' →
      List.Forall₂ SameUse s.pairs s'.pairs ∧ ∀ k, (s'.banks.get? k).isSome ↔ (s.banks.get? k).isSome ∨ k = x.1 := by
    intro s' h
    have hu := loadSparse_use env x.1 x.2 s.pairs
    cases hr : loadSparse env x.1 x.2 s.pairs with
    | mk ps r =>
      rw [hr] at h hu
      cases r with
      | error e => simp at h
      | ok b =>
        simp only [Except.ok.injEq] at h
        subst h
        exact ⟨hu, hset b⟩
  unfold loadBank at h
  cases mode with
  | all =>
    dsimp only at h
    cases hl : loadAll env x.2 with
    | error e => rw [hl] at h; simp at h
    | ok b =>
      rw [hl] at h
      simp only [Except.ok.injEq] at h
      subst h
      exact ⟨forall₂_sameUse_refl _, hset b⟩
  | sparse => exact hsp h
  | none => exact hsp h

theorem loadBanks_keeps' {env : Env γ} {mode : Load} : ∀ (l : List (Option String × Bank γ)) {s s' : State γ},
    (∀ x ∈ l, (s.banks.get? x.1).isSome) → Py.forIn l s (loadBank env mode) = .ok s' →
    List.Forall₂ SameUse s.pairs s'.pairs ∧ ∀ k, (s'.banks.get? k).isSome ↔ (s.banks.get? k).isSome
  | [], s, s', _, h => by
    simp only [Py.forIn, Except.ok.injEq] at h
    subst h
    exact ⟨forall₂_sameUse_refl _, fun _ => Iff.rfl⟩
  | x :: l, s, s', hl, h => by
    unfold Py.forIn at h
    cases hb : loadBank env mode x s with
    | error e => rw [hb] at h; simp at h
    | ok s1 =>
      rw [hb] at h
      dsimp only at h
      obtain ⟨a1, a2⟩ := loadBank_keeps hb
      have a2' : ∀ k, (s1.banks.get? k).isSome ↔ (s.banks.get? k).isSome := by
        intro k
        rw [a2]
        constructor
        · rintro (h | rfl)
          · exact h
          · exact hl x (by simp)
        · exact Or.inl
      obtain ⟨b1, b2⟩ := loadBanks_keeps' l (fun y hy => (a2' _).2 (hl y (by simp [hy]))) h
      exact ⟨forall₂_sameUse_trans a1 b1, fun k => (b2 k).trans (a2' k)⟩

theorem loadBanks_keeps {env : Env γ} {mode : Load} {s s' : State γ} (h : loadBanks env mode s = .ok s') :
    List.Forall₂ SameUse s.pairs s'.pairs ∧ ∀ k, (s'.banks.get? k).isSome ↔ (s.banks.get? k).isSome :=
  loadBanks_keeps' s.banks (fun x hx => (AD.mem_keys_iff _ _).1 (List.mem_map_of_mem hx)) h

/-- The graph pair comes from an element with these attributes. -/
def PairFrom (a : AD String String) (pp : PPair γ) : Prop :=
  a.get? "from_bank_id" = some pp.sourceBank ∧ a.get? "to_bank_id" = some pp.targetBank ∧
  a.get? "from_graph_id" = some pp.sourceId ∧ a.get? "to_graph_id" = some pp.targetId

theorem startPair_from {mode : Load} {s s' : State γ} {a : AD String String} (h : startPair mode s a = .ok s') :
    ∃ pp, s'.pairs = s.pairs ++ [pp] ∧ PairFrom a pp ∧ (s.banks.get? (some pp.sourceBank)).isSome ∧
      (s.banks.get? (some pp.targetBank)).isSome ∧ ∀ k, (s'.banks.get? k).isSome ↔ (s.banks.get? k).isSome := by
  unfold startPair at h
  split at h
  rotate_left
  · simp at h
  rename_i sb tb ha1 ha2
  split at h
  rotate_left
  · simp at h
  rename_i bs bt hb1 hb2
  split at h
  rotate_left
  · simp at h
  rename_i si ti ha3 ha4
  have hsp : ∀ {s'}, (match addStub bs si s.pairs.length with
          | .error e => (.error e : Py (State γ))
          | .ok b => match (s.banks.set (some sb) b).get? (some tb) with
            | none => .error .keyError
            | some bt => match addStub bt ti s.pairs.length with
              | .error e => .error e
              | .ok b' => .ok { s with
                  banks := (s.banks.set (some sb) b).set (some tb) b'
                  pairs := s.pairs ++ [newPair sb tb si ti none none] }) = .ok s' →
      ∃ pp, s'.pairs = s.pairs ++ [pp] ∧ PairFrom a pp ∧ (s.banks.get? (some pp.sourceBank)).isSome ∧
      (s.banks.get? (some pp.targetBank)).isSome ∧ ∀ k, (s'.banks.get? k).isSome ↔ (s.banks.get? k).isSome := by
    intro s' h
    split at h
    · simp at h
    split at h
    · simp at h
    split at h
    · simp at h
    simp only [Except.ok.injEq] at h
    subst h
    refine ⟨_, rfl, ⟨ha1, ha2, ha3, ha4⟩, ?_, ?_, ?_⟩
    · simp [newPair, hb1]
    · simp [newPair, hb2]
    · intro k
      dsimp only
      rw [AD.get?_set, AD.get?_set]
      by_cases h1 : k = some tb
      · simp [h1, hb2]
      · by_cases h2 : k = some sb
        · subst h2; simp [h1, hb1]
        · simp [h1, h2]
  cases mode with
  | all =>
    dsimp only at h
    split at h
    · simp only [Except.ok.injEq] at h
      subst h
      exact ⟨_, rfl, ⟨ha1, ha2, ha3, ha4⟩, by simp [newPair, hb1], by simp [newPair, hb2], fun _ => Iff.rfl⟩
    · simp at h
  | sparse => exact hsp h
  | none => exact hsp h

theorem forall₂_last_use {l : List (PPair γ)} {p q : PPair γ} (h : l.getLast? = some p) (hpq : SameUse p q) :
    List.Forall₂ SameUse l (l.dropLast ++ [q]) := by
  have : l = l.dropLast ++ [p] := by
    obtain ⟨ys, rfl⟩ := List.getLast?_eq_some_iff.1 h
    simp
  conv_lhs => rw [this]
  exact List.rel_append (forall₂_sameUse_refl _) (.cons hpq .nil)

/-- What an event other than the start of a graph pair keeps. -/
theorem step_keeps {env : Env γ} {mode : Load} {s s' : State γ} {ev : Event} (h : step env mode s ev = .ok s')
    (hev : ∀ e, ev = .start e → e.tag ≠ "graph_pair") :
    List.Forall₂ SameUse s.pairs s'.pairs ∧ ∀ k, (s'.banks.get? k).isSome ↔ (s.banks.get? k).isSome ∨
      ∃ e, ev = .stop e ∧ e.tag = "file" ∧ e.attrib.get? "id" = k := by
  have hr := forall₂_sameUse_refl s.pairs
  cases ev with
  | start e =>
    unfold step at h
    dsimp only at h
    split at h
    · simp only [Except.ok.injEq] at h; subst h; exact ⟨hr, by simp⟩
    split at h
    · rename_i he; exact absurd he (hev e rfl)
    split at h
    · unfold startNodePair at h
      split at h
      · simp at h
      rename_i p hp
      split at h
      · simp at h
      simp only [Except.ok.injEq] at h
      subst h
      refine ⟨forall₂_last_use hp ?_, by simp⟩
      exact ⟨rfl, rfl, rfl, rfl⟩
    · simp only [Except.ok.injEq] at h; subst h; exact ⟨hr, by simp⟩
  | stop e =>
    unfold step at h
    dsimp only at h
    split at h
    · rename_i ht
      simp only [Except.ok.injEq] at h; subst h; exact ⟨hr, by simp [ht]⟩
    split at h
    · rename_i ht
      unfold endFile at h
      split at h
      · simp at h
      split at h
      · simp at h
      simp only [Except.ok.injEq] at h
      subst h
      refine ⟨hr, fun k => ?_⟩
      dsimp only
      rw [AD.get?_set]
      by_cases hk : k = e.attrib.get? "id"
      · simp [hk, ht]
      · have : ¬ e.attrib.get? "id" = k := fun h => hk h.symm
        simp [hk, this]
    split at h
    · rename_i ht
      split at h
      · obtain ⟨a, b⟩ := loadBanks_keeps h
        exact ⟨a, by simp [b, ht]⟩
      · simp only [Except.ok.injEq] at h; subst h; exact ⟨hr, by simp [ht]⟩
    split at h
    · rename_i ht
      unfold endRelation at h
      split at h
      · simp at h
      simp only [Except.ok.injEq] at h; subst h; exact ⟨hr, by simp [ht]⟩
    split at h
    · rename_i ht
      simp only [Except.ok.injEq] at h
      subst h
      unfold endRelations
      split
      · exact ⟨hr, by simp [ht]⟩
      · exact ⟨hr, by simp [ht]⟩
    split at h
    · rename_i ht
      unfold endGraphMeta at h
      split at h
      · simp at h
      rename_i p hp
      simp only [Except.ok.injEq] at h
      subst h
      refine ⟨forall₂_last_use hp ?_, by simp [ht]⟩
      exact ⟨rfl, rfl, rfl, rfl⟩
    split at h
    · rename_i ht
      split at h
      · obtain ⟨a, b⟩ := loadBanks_keeps h
        exact ⟨a, by simp [b, ht]⟩
      · simp only [Except.ok.injEq] at h; subst h; exact ⟨hr, by simp [ht]⟩
    · rename_i hf _ _ _ _ _
      simp only [Except.ok.injEq] at h; subst h
      exact ⟨hr, by simp [hf]⟩

/-! ### LOAD_ALL -/

/-- Invariant of the parser when it loads all graphs. -/
structure InvAll (env : Env γ) (s : State γ) : Prop where
  wf : s.banks.WF
  banks : ∀ k bk, s.banks.get? k = some bk → (bk.loaded = false → bk.graphs = []) ∧
    (bk.loaded = true → env.readAll bk.path bk.format = .ok bk.graphs)
  pairs : ∀ p ∈ s.pairs, (∃ bk g, s.banks.get? (some p.sourceBank) = some bk ∧ bk.loaded = true ∧
      bk.graphs.get? p.sourceId = some g ∧ p.source = some g) ∧
    (∃ bk g, s.banks.get? (some p.targetBank) = some bk ∧ bk.loaded = true ∧
      bk.graphs.get? p.targetId = some g ∧ p.target = some g)

theorem InvAll.init (env : Env γ) : InvAll env {} := ⟨by simp, by simp, by simp⟩

theorem InvAll.loadBank {env : Env γ} {s s' : State γ} (h : InvAll env s) {x : Option String × Bank γ}
    (hx : s.banks.get? x.1 = some x.2) (hs : Pgc.loadBank env .all x s = .ok s') :
    InvAll env s' ∧ ∀ k, k ≠ x.1 → s'.banks.get? k = s.banks.get? k := by
  unfold Pgc.loadBank at hs
  dsimp only at hs
  unfold loadAll at hs
  split at hs
  · simp at hs
  rename_i b hb
  split at hb
  · simp at hb
  rename_i hl
  split at hb
  · simp at hb
  rename_i gs hg
  simp only [Except.ok.injEq] at hb hs
  subst hb hs
  refine ⟨⟨h.wf.set _ _, ?_, ?_⟩, ?_⟩
  · intro k bk hk
    dsimp only at hk
    rw [AD.get?_set] at hk
    split at hk
    · obtain rfl := Option.some.inj hk
      exact ⟨by simp, fun _ => hg⟩
    · exact h.banks k bk hk
  · intro p hp
    have key : ∀ k bk, s.banks.get? k = some bk → bk.loaded = true →
        (s.banks.set x.1 { x.2 with graphs := gs, loaded := true }).get? k = some bk := by
      intro k bk hk hbk
      rw [AD.get?_set]
      split
      · rename_i he
        subst he
        rw [hx] at hk
        obtain rfl := Option.some.inj hk
        exact absurd hbk hl
      · exact hk
    obtain ⟨⟨b1, g1, a1, a2, a3, a4⟩, ⟨b2, g2, a5, a6, a7, a8⟩⟩ := h.pairs p hp
    exact ⟨⟨b1, g1, key _ _ a1 a2, a2, a3, a4⟩, ⟨b2, g2, key _ _ a5 a6, a6, a7, a8⟩⟩
  · intro k hk
    dsimp only
    rw [AD.get?_set_ne _ _ hk]

theorem InvAll.loadBanks' {env : Env γ} : ∀ (l : List (Option String × Bank γ)) {s s' : State γ}, InvAll env s →
    (l.map Prod.fst).Nodup → (∀ x ∈ l, s.banks.get? x.1 = some x.2) → Py.forIn l s (Pgc.loadBank env .all) = .ok s' →
    InvAll env s'
  | [], s, s', h, _, _, hs => by
    simp only [Py.forIn, Except.ok.injEq] at hs
    exact hs ▸ h
  | x :: l, s, s', h, hn, hl, hs => by
    unfold Py.forIn at hs
    cases hb : Pgc.loadBank env .all x s with
    | error e => rw [hb] at hs; simp at hs
    | ok s1 =>
      rw [hb] at hs
      dsimp only at hs
      obtain ⟨a1, a3⟩ := h.loadBank (hl x (by simp)) hb
      simp only [List.map_cons, List.nodup_cons] at hn
      refine InvAll.loadBanks' l a1 hn.2 ?_ hs
      intro y hy
      have hne : y.1 ≠ x.1 := by rintro he; exact hn.1 (he ▸ List.mem_map_of_mem hy)
      rw [a3 _ hne]
      exact hl y (by simp [hy])

theorem InvAll.step {env : Env γ} {s s' : State γ} (h : InvAll env s) {ev : Event}
    (hs : Pgc.step env .all s ev = .ok s') : InvAll env s' := by
  have hsame : ∀ {s' : State γ}, s'.banks = s.banks → s'.pairs = s.pairs → InvAll env s' :=
    fun h1 h2 => ⟨h1 ▸ h.wf, by rw [h1]; exact h.banks, by rw [h1, h2]; exact h.pairs⟩
  have hlast : ∀ {s' : State γ} {p q : PPair γ}, s.pairs.getLast? = some p → s'.banks = s.banks →
      s'.pairs = s.pairs.dropLast ++ [q] → SameGraphs p q → InvAll env s' := by
    rintro s' p q hp h1 h2 ⟨⟨e1, e2, e3, e4⟩, e5, e6⟩
    refine ⟨h1 ▸ h.wf, by rw [h1]; exact h.banks, ?_⟩
    rw [h1, h2]
    intro r hr
    rcases List.mem_append.1 hr with hr | hr
    · exact h.pairs r (List.mem_of_mem_dropLast hr)
    · simp only [List.mem_singleton] at hr
      subst hr
      rw [← e1, ← e2, ← e3, ← e4, ← e5, ← e6]
      exact h.pairs p (List.mem_of_getLast? hp)
  cases ev with
  | start e =>
    unfold Pgc.step at hs
    dsimp only at hs
    split at hs
    · simp only [Except.ok.injEq] at hs; subst hs; exact hsame rfl rfl
    split at hs
    · unfold startPair at hs
      split at hs
      rotate_left
      · simp at hs
      split at hs
      rotate_left
      · simp at hs
      rename_i bs bt hb1 hb2
      split at hs
      rotate_left
      · simp at hs
      dsimp only at hs
      split at hs
      rotate_left
      · simp at hs
      rename_i g1 g2 hg1 hg2
      simp only [Except.ok.injEq] at hs
      subst hs
      have hloaded : ∀ k bk i (g : γ), s.banks.get? k = some bk → bk.graphs.get? i = some g → bk.loaded = true := by
        intro k bk i g hk hg
        by_contra hc
        rw [(h.banks k bk hk).1 (by simpa using hc)] at hg
        simp at hg
      refine ⟨h.wf, h.banks, ?_⟩
      intro p hp
      rcases List.mem_append.1 hp with hp | hp
      · exact h.pairs p hp
      · simp only [List.mem_singleton] at hp
        subst hp
        exact ⟨⟨bs, g1, hb1, hloaded _ _ _ _ hb1 hg1, hg1, rfl⟩, ⟨bt, g2, hb2, hloaded _ _ _ _ hb2 hg2, hg2, rfl⟩⟩
    split at hs
    · unfold startNodePair at hs
      split at hs
      · simp at hs
      rename_i p hp
      split at hs
      · simp at hs
      simp only [Except.ok.injEq] at hs
      subst hs
      refine hlast hp rfl rfl ?_
      exact ⟨⟨rfl, rfl, rfl, rfl⟩, rfl, rfl⟩
    · simp only [Except.ok.injEq] at hs; subst hs; exact h
  | stop e =>
    unfold Pgc.step at hs
    dsimp only at hs
    split at hs
    · simp only [Except.ok.injEq] at hs; subst hs; exact hsame rfl rfl
    split at hs
    · unfold endFile at hs
      split at hs
      · simp at hs
      rename_i hhas
      split at hs
      · simp at hs
      simp only [Except.ok.injEq] at hs
      subst hs
      have hnone : s.banks.get? (e.attrib.get? "id") = none := by simpa [AD.has] using hhas
      refine ⟨h.wf.set _ _, ?_, ?_⟩
      · intro k bk hk
        dsimp only at hk
        rw [AD.get?_set] at hk
        split at hk
        · obtain rfl := Option.some.inj hk
          exact ⟨fun _ => rfl, by simp⟩
        · exact h.banks k bk hk
      · intro p hp
        have key : ∀ k bk b', s.banks.get? k = some bk → (s.banks.set (e.attrib.get? "id") b').get? k = some bk := by
          intro k bk b' hk
          rw [AD.get?_set]
          split
          · rename_i he
            subst he
            rw [hnone] at hk
            simp at hk
          · exact hk
        obtain ⟨⟨b1, g1, a1, a2, a3, a4⟩, ⟨b2, g2, a5, a6, a7, a8⟩⟩ := h.pairs p hp
        exact ⟨⟨b1, g1, key _ _ _ a1, a2, a3, a4⟩, ⟨b2, g2, key _ _ _ a5, a6, a7, a8⟩⟩
    split at hs
    · rw [if_pos rfl] at hs
      exact InvAll.loadBanks' s.banks h h.wf (fun x hx => AD.get?_of_mem h.wf hx) hs
    split at hs
    · unfold endRelation at hs
      split at hs
      · simp at hs
      simp only [Except.ok.injEq] at hs; subst hs; exact hsame rfl rfl
    split at hs
    · simp only [Except.ok.injEq] at hs
      subst hs
      unfold endRelations
      split
      · exact hsame rfl rfl
      · exact hsame rfl rfl
    split at hs
    · unfold endGraphMeta at hs
      split at hs
      · simp at hs
      rename_i p hp
      simp only [Except.ok.injEq] at hs
      subst hs
      refine hlast hp rfl rfl ?_
      exact ⟨⟨rfl, rfl, rfl, rfl⟩, rfl, rfl⟩
    split at hs
    · rw [if_neg (by simp)] at hs
      simp only [Except.ok.injEq] at hs; subst hs; exact h
    · simp only [Except.ok.injEq] at hs; subst hs; exact h

theorem InvAll.run {env : Env γ} : ∀ (evs : List Event) {s s' : State γ}, InvAll env s →
    Pgc.run env .all s evs = .ok s' → InvAll env s'
  | [], s, s', h, hs => by
    rw [run_nil, Except.ok.injEq] at hs
    exact hs ▸ h
  | e :: evs, s, s', h, hs => by
    rw [run_cons] at hs
    cases h1 : Pgc.step env .all s e with
    | error e => rw [h1] at hs; simp at hs
    | ok s1 =>
      rw [h1] at hs
      exact InvAll.run evs (h.step h1) hs

/-! ### Loaded banks -/

/-- All banks are loaded. -/
def AllLoaded (s : State γ) : Prop := ∀ k b, s.banks.get? k = some b → b.loaded = true

theorem AllLoaded.step {env : Env γ} {s s' : State γ} (hI : Inv env s) (h : AllLoaded s) {ev : Event}
    (hs : Pgc.step env .sparse s ev = .ok s') (hev : ∀ e, ev = .stop e → e.tag ≠ "file") : AllLoaded s' := by
  cases ev with
  | start e =>
    unfold Pgc.step at hs
    dsimp only at hs
    split at hs
    · simp only [Except.ok.injEq] at hs; subst hs; exact h
    split at hs
    · exfalso
      unfold startPair at hs
      split at hs
      rotate_left
      · simp at hs
      split at hs
      rotate_left
      · simp at hs
      rename_i bs bt hb1 hb2
      split at hs
      rotate_left
      · simp at hs
      dsimp only at hs
      simp [addStub, h _ _ hb1] at hs
    split at hs
    · unfold startNodePair at hs
      split at hs
      · simp at hs
      split at hs
      · simp at hs
      simp only [Except.ok.injEq] at hs
      subst hs
      exact h
    · simp only [Except.ok.injEq] at hs; subst hs; exact h
  | stop e =>
    unfold Pgc.step at hs
    dsimp only at hs
    split at hs
    · simp only [Except.ok.injEq] at hs; subst hs; exact h
    split at hs
    · rename_i he; exact absurd he (hev e rfl)
    split at hs
    · rw [if_neg (by simp)] at hs
      simp only [Except.ok.injEq] at hs; subst hs; exact h
    split at hs
    · unfold endRelation at hs
      split at hs
      · simp at hs
      simp only [Except.ok.injEq] at hs; subst hs; exact h
    split at hs
    · simp only [Except.ok.injEq] at hs
      subst hs
      unfold endRelations
      split
      · exact h
      · exact h
    split at hs
    · unfold endGraphMeta at hs
      split at hs
      · simp at hs
      simp only [Except.ok.injEq] at hs
      subst hs
      exact h
    split at hs
    · rw [if_pos rfl] at hs
      exact (hI.loadBanks hs).2.1
    · simp only [Except.ok.injEq] at hs; subst hs; exact h

theorem AllLoaded.run {env : Env γ} : ∀ (evs : List Event) {s s' : State γ}, Inv env s → AllLoaded s →
    (∀ e, Event.stop e ∈ evs → e.tag ≠ "file") → Pgc.run env .sparse s evs = .ok s' → AllLoaded s'
  | [], s, s', _, h, _, hs => by
    rw [run_nil, Except.ok.injEq] at hs
    exact hs ▸ h
  | e :: evs, s, s', hI, h, hev, hs => by
    rw [run_cons] at hs
    cases h1 : Pgc.step env .sparse s e with
    | error e => rw [h1] at hs; simp at hs
    | ok s1 =>
      rw [h1] at hs
      exact AllLoaded.run evs (hI.step (by simp) h1)
        (h.step hI h1 (fun x hx => hev x (by simp [hx]))) (fun x hx => hev x (by simp [hx])) hs

/-- No bank is loaded. -/
def Fresh (s : State γ) : Prop := ∀ k b, s.banks.get? k = some b → b.loaded = false

theorem Fresh.set {s : State γ} (h : Fresh s) {k : Option String} {b : Bank γ} (hb : b.loaded = false) :
    ∀ k' b', (s.banks.set k b).get? k' = some b' → b'.loaded = false := by
  intro k' b' hk
  rw [AD.get?_set] at hk
  split at hk
  · obtain rfl := Option.some.inj hk; exact hb
  · exact h _ _ hk

theorem Fresh.step {env : Env γ} {s s' : State γ} (h : Fresh s) {ev : Event}
    (hs : Pgc.step env .none s ev = .ok s') : Fresh s' := by
  cases ev with
  | start e =>
    unfold Pgc.step at hs
    dsimp only at hs
    split at hs
    · simp only [Except.ok.injEq] at hs; subst hs; exact h
    split at hs
    · unfold startPair at hs
      split at hs
      rotate_left
      · simp at hs
      split at hs
      rotate_left
      · simp at hs
      split at hs
      rotate_left
      · simp at hs
      dsimp only at hs
      split at hs
      · simp at hs
      rename_i b1 hb1
      split at hs
      · simp at hs
      split at hs
      · simp at hs
      rename_i b2 hb2
      obtain ⟨c1, -, rfl⟩ := addStub_ok hb1
      obtain ⟨c2, -, rfl⟩ := addStub_ok hb2
      simp only [Except.ok.injEq] at hs
      subst hs
      intro k b hk
      dsimp only at hk
      rw [AD.get?_set] at hk
      split at hk
      · obtain rfl := Option.some.inj hk; exact c2
      · refine h.set ?_ _ _ hk
        exact c1
    split at hs
    · unfold startNodePair at hs
      split at hs
      · simp at hs
      split at hs
      · simp at hs
      simp only [Except.ok.injEq] at hs
      subst hs
      exact h
    · simp only [Except.ok.injEq] at hs; subst hs; exact h
  | stop e =>
    unfold Pgc.step at hs
    dsimp only at hs
    split at hs
    · simp only [Except.ok.injEq] at hs; subst hs; exact h
    split at hs
    · unfold endFile at hs
      split at hs
      · simp at hs
      split at hs
      · simp at hs
      simp only [Except.ok.injEq] at hs
      subst hs
      exact h.set rfl
    split at hs
    · rw [if_neg (by simp)] at hs
      simp only [Except.ok.injEq] at hs; subst hs; exact h
    split at hs
    · unfold endRelation at hs
      split at hs
      · simp at hs
      simp only [Except.ok.injEq] at hs; subst hs; exact h
    split at hs
    · simp only [Except.ok.injEq] at hs
      subst hs
      unfold endRelations
      split
      · exact h
      · exact h
    split at hs
    · unfold endGraphMeta at hs
      split at hs
      · simp at hs
      simp only [Except.ok.injEq] at hs
      subst hs
      exact h
    split at hs
    · rw [if_neg (by simp)] at hs
      simp only [Except.ok.injEq] at hs; subst hs; exact h
    · simp only [Except.ok.injEq] at hs; subst hs; exact h

theorem Fresh.run {env : Env γ} : ∀ (evs : List Event) {s s' : State γ}, Fresh s →
    Pgc.run env .none s evs = .ok s' → Fresh s'
  | [], s, s', h, hs => by
    rw [run_nil, Except.ok.injEq] at hs
    exact hs ▸ h
  | e :: evs, s, s', h, hs => by
    rw [run_cons] at hs
    cases h1 : Pgc.step env .none s e with
    | error e => rw [h1] at hs; simp at hs
    | ok s1 =>
      rw [h1] at hs
      exact Fresh.run evs (h.step h1) hs

end Verif.Pgc
