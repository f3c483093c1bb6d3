import Verif.Props.Pgc
import Verif.Props.RelPath
import Verif.Lemmas.PgcCp
import Verif.Lemmas.TextAlign

set_option linter.unusedSectionVars false

/-! Lemmas on copying corpora: what is true of every corpus that was read. -/
namespace Verif.PgcCp
open Verif Verif.Etree Verif.Pgc Verif.GraphPair Verif.Spec

variable {γ : Type}

/-- A graph pair that was read. -/
structure PairInv (s : State γ) (p : PPair γ) : Prop where
  ids : p.sourceId ≠ "" ∧ p.targetId ≠ ""
  banks : (s.banks.get? (some p.sourceBank)).isSome ∧ (s.banks.get? (some p.targetBank)).isSome
  align : ∃ M, Al p.align M (fun _ => False) ∧ M.OneToOne
  metaIs : p.meta.tag = "graph_meta_data"
  kept : reread p.meta = p.meta

/-- A corpus that was read without loading graphs. -/
structure ReadInv (env : Env γ) (s : State γ) : Prop where
  wf : s.banks.WF
  pairs : ∀ p ∈ s.pairs, PairInv s p
  metaIs : ∀ e, s.meta = some e → e.tag = "corpus_meta_data" ∧ reread e = e
  rels : ∀ r ∈ s.relations, strip env.ws r.toList = r.toList
  paths : ∀ k b, s.banks.get? k = some b → ∃ x, b.path = env.resolve x

theorem PairInv.mono {s s' : State γ} {p : PPair γ} (h : PairInv s p)
    (hb : ∀ k, (s.banks.get? k).isSome → (s'.banks.get? k).isSome) : PairInv s' p :=
  ⟨h.ids, ⟨hb _ h.banks.1, hb _ h.banks.2⟩, h.align, h.metaIs, h.kept⟩

theorem strip_strip (ws : Char → Bool) (x : Text) : strip ws (strip ws x) = strip ws x := by
  unfold strip
  have h1 : ∀ (l : Text), ∀ c, (l.dropWhile ws).head? = some c → ws c = false := by
    intro l c hc
    induction l with
    | nil => cases hc
    | cons a l ih =>
      rw [List.dropWhile_cons] at hc
      split at hc
      · exact ih hc
      · rename_i ha
        simp only [List.head?_cons, Option.some.injEq] at hc
        subst hc
        simpa using ha
  have h2 : ∀ (l : Text), (∀ c, l.head? = some c → ws c = false) → l.dropWhile ws = l := by
    intro l hl
    cases l with
    | nil => rfl
    | cons a l => rw [List.dropWhile_cons, hl a rfl]; rfl
  have h3 : ∀ l : Text, (l.dropWhile ws).dropWhile ws = l.dropWhile ws := fun l => h2 _ (h1 l)
  -- the first character of the stripped text
  have h4 : (((x.dropWhile ws).reverse.dropWhile ws).reverse).dropWhile ws =
      ((x.dropWhile ws).reverse.dropWhile ws).reverse := by
    apply h2
    intro c hc
    have hs : ((x.dropWhile ws).reverse.dropWhile ws).reverse <+: x.dropWhile ws := by
      have := (List.dropWhile_suffix ws (l := (x.dropWhile ws).reverse))
      have := List.reverse_prefix.2 this
      rwa [List.reverse_reverse] at this
    obtain ⟨t, ht⟩ := hs
    apply h1 x c
    rw [← ht]
    cases hy : ((x.dropWhile ws).reverse.dropWhile ws).reverse with
    | nil => rw [hy] at hc; cases hc
    | cons a l => rw [hy] at hc; exact hc
  rw [h4, List.reverse_reverse, h3]

theorem startPair_none {s s' : State γ} {a : AD String String} (h : startPair .none s a = .ok s') :
    ∃ sb tb si ti bs bt b b', si ≠ "" ∧ ti ≠ "" ∧ s.banks.get? (some sb) = some bs ∧ s.banks.get? (some tb) = some bt ∧
      b.path = bs.path ∧ b'.path = bt.path ∧
      s' = { s with
        banks := (s.banks.set (some sb) b).set (some tb) b'
        pairs := s.pairs ++ [newPair sb tb si ti none none] } := by
  unfold startPair at h
  split at h
  rotate_left
  · simp at h
  rename_i sb tb ha1 ha2
  split at h
  rotate_left
  · simp at h
  rename_i bs bt hb1 hb2
  split at h
  rotate_left
  · simp at h
  rename_i si ti ha3 ha4
  dsimp only at h
  have hadd : ∀ {b b' : Bank γ} {i : String} {k : Nat}, addStub b i k = .ok b' → i ≠ "" ∧ b'.path = b.path := by
    intro b b' i k h
    unfold addStub at h
    split at h
    · simp at h
    split at h
    · simp at h
    rename_i hi
    simp only [Except.ok.injEq] at h
    subst h
    exact ⟨hi, rfl⟩
  split at h
  · simp at h
  rename_i b hb
  split at h
  · simp at h
  rename_i bt' hbt
  split at h
  · simp at h
  rename_i b' hb'
  simp only [Except.ok.injEq] at h
  obtain ⟨q1, q2⟩ := hadd hb
  obtain ⟨q3, q4⟩ := hadd hb'
  refine ⟨sb, tb, si, ti, bs, bt, b, b', q1, q3, hb1, hb2, q2, ?_, h.symm⟩
  rw [q4]
  rw [AD.get?_set] at hbt
  split at hbt
  · rename_i he
    rw [he] at hb2
    rw [hb1] at hb2
    rw [← Option.some.inj hbt, q2, Option.some.inj hb2]
  · rw [hb2] at hbt
    rw [Option.some.inj hbt]

theorem ReadInv.init (env : Env γ) : ReadInv env {} := ⟨by simp, by simp, by simp, by simp, by simp⟩

theorem mem_dropLast_append {α : Type} {l : List α} {x y : α} (h : y ∈ l.dropLast ++ [x]) : y ∈ l ∨ y = x := by
  rcases List.mem_append.1 h with h | h
  · exact .inl (List.mem_of_mem_dropLast h)
  · exact .inr (by simpa using h)

theorem ReadInv.step {env : Env γ} {s s' : State γ} (h : ReadInv env s) {ev : Event} (hev : ∀ e, ev = .stop e → reread e = e)
    (hs : Pgc.step env .none s ev = .ok s') : ReadInv env s' := by
  cases ev with
  | start e =>
    unfold Pgc.step at hs
    dsimp only at hs
    split at hs
    · simp only [Except.ok.injEq] at hs; subst hs
      exact ⟨h.wf, fun p hp => (h.pairs p hp).mono fun _ => id, h.metaIs, h.rels, h.paths⟩
    split at hs
    · obtain ⟨sb, tb, si, ti, bs, bt, b, b', h1, h2, h3, h4, h5, h6, rfl⟩ := startPair_none hs
      have hmono : ∀ k, (s.banks.get? k).isSome → (((s.banks.set (some sb) b).set (some tb) b').get? k).isSome := by
        intro k hk
        rw [AD.get?_set, AD.get?_set]
        split
        · rfl
        · split
          · rfl
          · exact hk
      refine ⟨(h.wf.set _ _).set _ _, ?_, h.metaIs, h.rels, ?_⟩
      · intro p hp
        rcases List.mem_append.1 hp with hp | hp
        · exact (h.pairs p hp).mono hmono
        · obtain rfl : p = newPair sb tb si ti none none := by simpa using hp
          refine ⟨⟨h1, h2⟩, ⟨hmono _ (by simp [newPair, h3]), hmono _ (by simp [newPair, h4])⟩, ?_, rfl, rfl⟩
          exact ⟨_, Al.empty, by intro a b a' b' h; simp [Alignment.none] at h⟩
      · intro k bk hk
        dsimp only at hk
        rw [AD.get?_set, AD.get?_set] at hk
        split at hk
        · rw [← Option.some.inj hk, h6]; exact h.paths _ _ h4
        · split at hk
          · rw [← Option.some.inj hk, h5]; exact h.paths _ _ h3
          · exact h.paths _ _ hk
    split at hs
    · unfold startNodePair at hs
      split at hs
      · simp at hs
      rename_i p hp
      split at hs
      · simp at hs
      rename_i g hg
      simp only [Except.ok.injEq] at hs
      subst hs
      refine ⟨h.wf, ?_, h.metaIs, h.rels, h.paths⟩
      intro q hq
      rcases mem_dropLast_append hq with hq | rfl
      · exact (h.pairs q hq).mono fun _ => id
      · have hpi := h.pairs p (List.mem_of_getLast? hp)
        obtain ⟨M, m1, m2⟩ := hpi.align
        obtain ⟨g', e1, e2⟩ := m1.wed m2 (e.attrib.get? "from_node_id") (e.attrib.get? "to_node_id") (e.attrib.get? "relation")
        rw [hg] at e1
        obtain rfl := Except.ok.inj e1
        exact ⟨hpi.ids, hpi.banks, ⟨_, e2, oneToOne_wed m2 _ _ _⟩, hpi.metaIs, hpi.kept⟩
    · simp only [Except.ok.injEq] at hs; subst hs; exact h
  | stop e =>
    unfold Pgc.step at hs
    dsimp only at hs
    split at hs
    · rename_i ht
      simp only [Except.ok.injEq] at hs; subst hs
      refine ⟨h.wf, fun p hp => (h.pairs p hp).mono fun _ => id, ?_, h.rels, h.paths⟩
      intro e' he'
      cases he'
      exact ⟨ht, hev e rfl⟩
    split at hs
    · unfold endFile at hs
      split at hs
      · simp at hs
      split at hs
      · simp at hs
      rename_i x hx
      simp only [Except.ok.injEq] at hs
      subst hs
      refine ⟨h.wf.set _ _, fun p hp => (h.pairs p hp).mono ?_, h.metaIs, h.rels, ?_⟩
      · intro k hk
        dsimp only
        rw [AD.get?_set]
        split
        · rfl
        · exact hk
      · intro k bk hk
        dsimp only at hk
        rw [AD.get?_set] at hk
        split at hk
        · rw [← Option.some.inj hk]; exact ⟨_, rfl⟩
        · exact h.paths _ _ hk
    split at hs
    · rw [if_neg (by decide)] at hs
      simp only [Except.ok.injEq] at hs; subst hs; exact h
    split at hs
    · unfold endRelation at hs
      split at hs
      · simp at hs
      rename_i x hx
      simp only [Except.ok.injEq] at hs; subst hs
      refine ⟨h.wf, fun p hp => (h.pairs p hp).mono fun _ => id, h.metaIs, ?_, h.paths⟩
      intro r hr
      rcases List.mem_append.1 hr with hr | hr
      · exact h.rels r hr
      · obtain rfl : r = _ := by simpa using hr
        rw [String.toList_ofList, strip_strip]
    split at hs
    · simp only [Except.ok.injEq] at hs
      subst hs
      unfold endRelations
      split
      · exact ⟨h.wf, fun p hp => (h.pairs p hp).mono fun _ => id, h.metaIs, h.rels, h.paths⟩
      · refine ⟨h.wf, fun p hp => (h.pairs p hp).mono fun _ => id, h.metaIs, ?_, h.paths⟩
        intro r hr
        exact h.rels r ((List.mergeSort_perm _ _).mem_iff.1 hr)
    split at hs
    · rename_i ht
      unfold endGraphMeta at hs
      split at hs
      · simp at hs
      rename_i p hp
      simp only [Except.ok.injEq] at hs
      subst hs
      refine ⟨h.wf, ?_, h.metaIs, h.rels, h.paths⟩
      intro q hq
      rcases mem_dropLast_append hq with hq | rfl
      · exact (h.pairs q hq).mono fun _ => id
      · have hpi := h.pairs p (List.mem_of_getLast? hp)
        exact ⟨hpi.ids, hpi.banks, hpi.align, ht, hev e rfl⟩
    split at hs
    · rw [if_neg (by decide)] at hs
      simp only [Except.ok.injEq] at hs; subst hs; exact h
    · simp only [Except.ok.injEq] at hs; subst hs; exact h

theorem readInv {env : Env γ} {evs : List Event} {s : State γ} (h : parse env .none evs = .ok s)
    (hev : ∀ e, Event.stop e ∈ evs → reread e = e) : ReadInv env s := by
  unfold parse at h
  exact TextAlign.forIn_partial (ReadInv env) (ReadInv.init env)
    (fun ev hm s s' hs hst => hs.step (fun e he => hev e (he ▸ hm)) hst) h

/-! ### Alignments -/

theorem run_of_forIn {α : Type} (a b r : α → String) : ∀ (l : List α) {g h : Graph.G String String},
    Py.forIn l g (fun x h => matchAlign h (a x) (b x) (r x)) = .ok h →
    ∃ errs, Props.GraphPair.run true g (l.map fun x => .add (a x) (b x) (r x)) = .ok (h, errs)
  | [], g, h, e => by
    simp only [Py.forIn, Except.ok.injEq] at e
    exact ⟨[], by simp [Props.GraphPair.run, e]⟩
  | x :: l, g, h, e => by
    unfold Py.forIn at e
    dsimp only at e
    cases hx : matchAlign g (a x) (b x) (r x) with
    | error er => rw [hx] at e; simp at e
    | ok g1 =>
      rw [hx] at e
      obtain ⟨errs, h1⟩ := run_of_forIn a b r l (g := g1) e
      refine ⟨false :: errs, ?_⟩
      rw [List.map_cons]
      unfold Props.GraphPair.run
      rw [show Props.GraphPair.call true g (.add (a x) (b x) (r x)) = .ok g1 from hx]
      dsimp only
      rw [h1]
      rfl

theorem plainAlign_spec {g : Graph.G (Option String) (Option String)} {M : Alignment (Option String) (Option String)}
    (h : Al g M (fun _ => False)) (h11 : M.OneToOne) {l : List ((Option String × Option String) × Option String)}
    (hl : alignments g none = .ok l) (hall : ∀ x ∈ l, x.1.1.isSome ∧ x.1.2.isSome ∧ x.2.isSome) :
    (∃ ops errs, Props.GraphPair.run true Graph.empty ops = .ok (plainAlign g, errs)) ∧
    (∀ a b, getAlign g (some a) (some b) = (getAlign (plainAlign g) a b).map (Option.map some)) ∧
    ∀ x y, x = none ∨ y = none → getAlign g x y = .ok none := by
  obtain ⟨l0, e1, -, e3, e4⟩ := h.all
  have : l0 = l := by
    have h0 : alignments g none = .ok l0 := e1
    rw [hl] at h0
    exact (Except.ok.inj h0).symm
  subst this
  -- what folding gives
  obtain ⟨g', f1, N, n1, n2, n3⟩ := Py.forIn_inv (l := l0) (s := (Graph.empty : Graph.G String String))
    (f := fun x h => matchAlign h (x.1.1.getD "") (x.1.2.getD "") (x.2.getD ""))
    (fun pre h => ∃ N : Alignment String String, Al h N (fun _ => False) ∧ N.OneToOne ∧
      ∀ a b r, N a b = some r ↔ ((some a, some b), some r) ∈ pre)
    ⟨_, Al.empty, by intro a b a' b' h; simp [Alignment.none] at h, by simp [Alignment.none]⟩ (by
      rintro pre ⟨⟨x, y⟩, q⟩ suf h' hpre ⟨N, n1, n2, n3⟩
      have hm : ((x, y), q) ∈ l0 := by rw [hpre]; simp
      obtain ⟨hx, hy, hq⟩ := hall _ hm
      obtain ⟨a, rfl⟩ := Option.isSome_iff_exists.1 hx
      obtain ⟨b, rfl⟩ := Option.isSome_iff_exists.1 hy
      obtain ⟨r, rfl⟩ := Option.isSome_iff_exists.1 hq
      obtain ⟨h'', w1, w2⟩ := n1.wed n2 a b r
      refine ⟨h'', w1, _, w2, oneToOne_wed n2 _ _ _, ?_⟩
      -- no alignment before shares a node
      have hfree : ∀ a' b' r', ((some a', some b'), some r') ∈ pre → a' ≠ a ∧ b' ≠ b := by
        intro a' b' r' hp
        have hm' : ((some a', some b'), some r') ∈ l0 := by rw [hpre]; simp [hp]
        have m1 := (e4 _ _ _).1 hm
        have m2 := (e4 _ _ _).1 hm'
        have key := h11 _ _ _ _ (Option.isSome_iff_exists.2 ⟨_, m2⟩) (Option.isSome_iff_exists.2 ⟨_, m1⟩)
        simp only [Option.some.injEq] at key
        have hne : ¬ (a' = a ∧ b' = b) := by
          rintro ⟨rfl, rfl⟩
          rw [hpre, List.map_append, List.map_cons] at e3
          have := (List.nodup_append.1 e3).2.2
          exact this _ (List.mem_map.2 ⟨_, hp, rfl⟩) _ (by simp) rfl
        constructor
        · intro ha; exact hne ⟨ha, key.1 ha⟩
        · intro hb; exact hne ⟨key.2 hb, hb⟩
      intro a' b' r'
      unfold Alignment.wed
      simp only [List.mem_append, List.mem_singleton, Prod.mk.injEq, Option.some.injEq]
      by_cases hab : a' = a ∧ b' = b
      · rw [if_pos hab]
        constructor
        · intro hr; exact .inr ⟨hab, (Option.some.inj hr).symm⟩
        · rintro (hp | hp)
          · exact absurd hab.1 (hfree _ _ _ hp).1
          · rw [hp.2]
      · rw [if_neg hab]
        split
        · rename_i hor
          constructor
          · intro hc; simp at hc
          · rintro (hp | hp)
            · rcases hor with h | h
              · exact absurd h (hfree _ _ _ hp).1
              · exact absurd h (hfree _ _ _ hp).2
            · exact absurd hp.1 hab
        · rw [n3]
          constructor
          · exact .inl
          · rintro (hp | hp)
            · exact hp
            · exact absurd hp.1 hab)
  have hp : plainAlign g = g' := by
    unfold plainAlign
    rw [hl]
    dsimp only
    rw [f1]
  rw [hp]
  refine ⟨?_, ?_, ?_⟩
  · obtain ⟨errs, hr⟩ := run_of_forIn (fun x : (Option String × Option String) × Option String => x.1.1.getD "")
      (fun x => x.1.2.getD "") (fun x => x.2.getD "") l0 f1
    exact ⟨_, _, hr⟩
  · intro a b
    rw [h.get, n1.get]
    change Except.ok _ = Except.ok _
    congr 1
    cases hM : M (some a) (some b) with
    | none =>
      cases hN : N a b with
      | none => rfl
      | some r =>
        have := (e4 _ _ _).1 ((n3 _ _ _).1 hN)
        rw [hM] at this
        cases this
    | some q =>
      have hm := (e4 _ _ _).2 hM
      obtain ⟨r, rfl⟩ := Option.isSome_iff_exists.1 (hall _ hm).2.2
      rw [(n3 _ _ _).2 hm]
      rfl
  · intro x y hxy
    rw [h.get]
    congr 1
    cases hM : M x y with
    | none => rfl
    | some q =>
      obtain ⟨hx, hy, -⟩ := hall _ ((e4 _ _ _).2 hM)
      rcases hxy with rfl | rfl
      · cases hx
      · cases hy

/-! ### The corpus as objects -/

theorem bank_at {δ : Type} : ∀ (d : AD (Option String) δ) (k : Option String) (b : δ), d.get? k = some b →
    d[d.keys.idxOf k]? = some (k, b)
  | [], k, b, h => by cases h
  | e :: d, k, b, h => by
    rw [AD.get?_cons] at h
    change (e :: d)[(e.1 :: AD.keys d).idxOf k]? = _
    rw [List.idxOf_cons]
    split at h
    · rename_i hk
      obtain rfl := Option.some.inj h
      simp [← hk]
    · rename_i hk
      have hk' : (e.1 == k) = false := by
        simp only [beq_eq_false_iff_ne, ne_eq]
        first | exact hk | exact fun h => hk h.symm
      rw [hk']
      simpa using bank_at d k b h

theorem gp_at {s : State γ} {k : Nat} {p : PPair γ} (h : s.pairs[k]? = some p) :
    (world s).gp k = ⟨s.banks.keys.idxOf (some p.sourceBank), s.banks.keys.idxOf (some p.targetBank), p.sourceId, p.targetId,
        ⟨k, p.meta⟩, plainAlign p.align⟩ := by
  unfold world
  dsimp only
  rw [h]

theorem path_at {s : State γ} {i : String} {b : Bank γ} (h : s.banks.get? (some i) = some b) :
    (world s).path (s.banks.keys.idxOf (some i)) = String.ofList b.path ∧
    formats s (s.banks.keys.idxOf (some i)) = b.format.getD "" := by
  unfold world formats
  dsimp only
  rw [bank_at _ _ _ h]
  exact ⟨rfl, rfl⟩

theorem uses_iff {env : Env γ} {s : State γ} (hI : ReadInv env s) {n : Nat}
    (h : Props.Corpus.Uses (world s) (corpus s).pairs n) :
    ∃ b, Spec.PgcCp.Used s b ∧ (world s).path n = String.ofList b.path ∧ formats s n = b.format.getD "" := by
  obtain ⟨k, hk, hn⟩ := h
  have hk : k < s.pairs.length := List.mem_range.1 hk
  have hp : s.pairs[k]? = some s.pairs[k] := List.getElem?_eq_getElem hk
  rw [gp_at hp] at hn
  dsimp only at hn
  have hb := (hI.pairs _ (List.getElem_mem hk)).banks
  rcases hn with rfl | rfl
  · obtain ⟨b, hb⟩ := Option.isSome_iff_exists.1 hb.1
    exact ⟨b, ⟨_, List.getElem_mem hk, _, .inl rfl, hb⟩, path_at hb⟩
  · obtain ⟨b, hb⟩ := Option.isSome_iff_exists.1 hb.2
    exact ⟨b, ⟨_, List.getElem_mem hk, _, .inr rfl, hb⟩, path_at hb⟩

/-- The alignments of a graph pair of a corpus that can be copied. -/
theorem plainAlign_of {env : Env γ} {s : State γ} (hI : ReadInv env s) {stat : String → Option Nat} {ws : Char → Bool}
    (hc : Spec.PgcCp.Copyable stat ws s) {p : PPair γ} (hp : p ∈ s.pairs) :
    (∃ l, alignments p.align none = .ok l ∧ ∀ x ∈ l, x.1.1.isSome ∧ x.1.2.isSome ∧ x.2.isSome) ∧
    (∃ ops errs, Props.GraphPair.run true Graph.empty ops = .ok (plainAlign p.align, errs)) ∧
    (∀ a b, getAlign p.align (some a) (some b) = (getAlign (plainAlign p.align) a b).map (Option.map some)) ∧
    ∀ x y, x = none ∨ y = none → getAlign p.align x y = .ok none := by
  obtain ⟨M, m1, m2⟩ := (hI.pairs p hp).align
  obtain ⟨l, e1, -, -, e4⟩ := m1.all
  have hall : ∀ x ∈ l, x.1.1.isSome ∧ x.1.2.isSome ∧ x.2.isSome := by
    rintro ⟨⟨x, y⟩, r⟩ hx
    exact hc.nodes p hp x y r (by rw [m1.get, (e4 _ _ _).1 hx])
  exact ⟨⟨l, e1, hall⟩, plainAlign_spec m1 m2 e1 hall⟩

theorem complete_of {env : Env γ} {s : State γ} (hI : ReadInv env s) {stat : String → Option Nat} {ws : Char → Bool}
    (hc : Spec.PgcCp.Copyable stat ws s) : complete s = true := by
  unfold complete
  rw [List.all_eq_true]
  intro p hp
  obtain ⟨⟨l, e1, hall⟩, -⟩ := plainAlign_of hI hc hp
  rw [e1]
  have hb := (hI.pairs p hp).banks
  obtain ⟨b1, hb1⟩ := Option.isSome_iff_exists.1 hb.1
  obtain ⟨b2, hb2⟩ := Option.isSome_iff_exists.1 hb.2
  obtain ⟨f1, g1, -⟩ := hc.format b1 ⟨p, hp, _, .inl rfl, hb1⟩
  obtain ⟨f2, g2, -⟩ := hc.format b2 ⟨p, hp, _, .inr rfl, hb2⟩
  simp only [List.all_cons, List.all_nil, hb1, hb2, Option.bind_some, g1, g2, Option.isSome_some, Bool.and_self, Bool.true_and,
    List.all_eq_true, Bool.and_eq_true]
  intro x hx
  obtain ⟨a, b, c⟩ := hall x hx
  exact ⟨⟨a, b⟩, c⟩

/-- A corpus that can be copied can be written. -/
theorem writable_of {env env' : Env γ} {s : State γ} (hI : ReadInv env s) {stat : String → Option Nat}
    (hc : Spec.PgcCp.Copyable stat env.ws s) {shown : String → Text} (hws : env'.ws = env.ws)
    (hfiles : ∀ b, Spec.PgcCp.Used s b → strip env'.ws (shown (String.ofList b.path)) ≠ [] ∧
      env'.resolve (strip env'.ws (shown (String.ofList b.path))) = b.path) :
    Props.Pgc.Writable stat env' (world s) (formats s) shown (corpus s) where
  comparable := by
    intro a b ha hb
    obtain ⟨b1, u1, p1, -⟩ := uses_iff hI ha
    obtain ⟨b2, u2, p2, -⟩ := uses_iff hI hb
    rw [p1, p2]
    rcases hc.comparable b1 b2 u1 u2 with h | h
    · exact .inl (by rw [h])
    · exact .inr h
  aligned := by
    intro k hk
    have hk : k < s.pairs.length := List.mem_range.1 hk
    rw [gp_at (List.getElem?_eq_getElem hk)]
    exact (plainAlign_of hI hc (List.getElem_mem hk)).2.1
  ids := by
    intro k hk
    have hk : k < s.pairs.length := List.mem_range.1 hk
    rw [gp_at (List.getElem?_eq_getElem hk)]
    exact (hI.pairs _ (List.getElem_mem hk)).ids
  files := by
    intro n hn
    obtain ⟨b, u, p1, p2⟩ := uses_iff hI hn
    obtain ⟨f, g1, g2⟩ := hc.format b u
    rw [p1, p2, g1]
    refine ⟨g2, (hfiles b u).1, ?_⟩
    rw [(hfiles b u).2, String.toList_ofList]
  sorted := hc.sorted
  stripped := by
    intro r hr
    change r ∈ s.rels at hr
    refine ⟨?_, fun h => hc.relations (h ▸ hr)⟩
    unfold State.rels at hr
    split at hr
    · rw [hws]; exact hI.rels r hr
    · simp at hr
  metas := by
    intro k hk _
    have hk : k < s.pairs.length := List.mem_range.1 hk
    rw [gp_at (List.getElem?_eq_getElem hk)]
    exact ⟨(hI.pairs _ (List.getElem_mem hk)).metaIs, hc.metas _ (List.getElem_mem hk)⟩
  corpusMeta := by
    intro m hm _
    obtain ⟨e, he, rfl⟩ := Option.map_eq_some_iff.1 hm
    exact ⟨(hI.metaIs e he).1, hc.corpusMeta e he⟩

end Verif.PgcCp
