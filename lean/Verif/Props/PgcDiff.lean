import Verif.Lemmas.PgcDiff
import Verif.Props.GraphPair

/-! Property C44 (lib/daeso/pgc/diff.py). -/
namespace Verif.Props.PgcDiff
open Verif Verif.Spec Verif.PgcDiff

/-- The alignments of two graph pairs. -/
abbrev Meant := Alignment String String × Alignment String String

/-- The two graph pairs have the same graphs and show these alignments, with relations that are not empty, between nodes
that have a number. -/
structure Shown (num : String → Option Int) (b : Both) (m : Meant) : Prop where
  same : b.same = true
  first : GraphPair.Shows b.first m.1
  second : GraphPair.Shows b.second m.2
  named : ∀ s t, m.1 s t ≠ some "" ∧ m.2 s t ≠ some ""
  numbered : ∀ s t, (m.1 s t).isSome ∨ (m.2 s t).isSome → (num s).isSome

/-- The relations that are compared: those given, or else those of the first corpus; no restriction if none are left. -/
def Wanted (relations : Option (List String)) (relations1 : List String) (r : String) : Prop :=
  let rs := match relations with
    | none => relations1
    | some [] => relations1
    | some rs => rs
  rs = [] ∨ r ∈ rs

/-- All relations are compared. -/
def Complete (relations : Option (List String)) (relations1 : List String) (m : Meant) : Prop :=
  ∀ s t r, m.1 s t = some r ∨ m.2 s t = some r → Wanted relations relations1 r

/-- What is printed for two graph pairs: under each title exactly the node pairs that belong there, once, with the
relations of both, ordered by the number of the source node. -/
structure Reported (num : String → Option Int) (showIdent : Bool) (m : Meant) (secs : List (Title × List Entry)) : Prop where
  exact : ∀ title s t, (∃ e ∈ printed secs title, e.nodes = (s, t)) ↔
    sectionOf m.1 m.2 s t = some title ∧ (title = .identical → showIdent = true)
  relations : ∀ title, ∀ e ∈ printed secs title, e.rel1 = m.1 e.nodes.1 e.nodes.2 ∧ e.rel2 = m.2 e.nodes.1 e.nodes.2
  once : ∀ title, ((printed secs title).map fun e => e.nodes).Nodup
  ordered : ∀ title, (printed secs title).Pairwise fun e f => ∀ i j, num e.nodes.1 = some i → num f.nodes.1 = some j → i ≤ j
  titled : ∀ x ∈ secs, x.2 ≠ []
  single : (secs.map fun x => x.1).Nodup

private theorem alignments_some {g : Graph.G String String} {M : Alignment String String} (h : GraphPair.Shows g M)
    (rs : List String) : ∃ l, Verif.GraphPair.alignments g (some rs) = .ok l ∧ (l.map Prod.fst).Nodup ∧
      ∀ s t r, ((s, t), r) ∈ l ↔ M s t = some r ∧ (rs = [] ∨ r ∈ rs) := by
  obtain ⟨l, e1, e2, e3⟩ := h.some rs
  exact ⟨l, e1, e2, fun s t r => by rw [e3, or_comm]⟩

/-- One section after the others. -/
private def put (M N : Alignment String String) (t : Title) (l : List Nodes) (o : Nat × List (Title × List Entry)) :
    Nat × List (Title × List Entry) :=
  (o.1 + l.length, if l = [] then o.2 else o.2 ++ [(t, entries M N o.1 l)])

private theorem printed_put {M N : Alignment String String} {t t' : Title} {l : List Nodes} {o : Nat × List (Title × List Entry)} :
    printed (put M N t l o).2 t' = printed o.2 t' ++ if t = t' then entries M N o.1 l else [] := by
  unfold put printed
  by_cases hl : l = []
  · subst hl; simp [entries]
  · by_cases ht : t = t' <;> simp [hl, ht, List.filter_append, List.filter_cons]

private theorem numbers_put {M N : Alignment String String} {t : Title} {l : List Nodes} {o : Nat × List (Title × List Entry)}
    {k : Nat} (hk : k ≤ o.1) (h : numbers o.2 = List.range' (k + 1) (o.1 - k)) :
    numbers (put M N t l o).2 = List.range' (k + 1) ((put M N t l o).1 - k) := by
  unfold put numbers at *
  by_cases hl : l = []
  · subst hl; simpa using h
  · simp only [hl, if_false, List.flatMap_append, List.map_append, h, List.flatMap_cons, List.flatMap_nil, List.append_nil,
      entries_numbers]
    have : o.1 + l.length - k = (o.1 - k) + l.length := by omega
    rw [this, ← List.range'_append_1]
    congr 2
    omega

private theorem sec_identical {M N : Alignment String String} {s t : String} :
    sectionOf M N s t = some .identical ↔ ∃ r, M s t = some r ∧ N s t = some r := by
  unfold sectionOf
  cases M s t <;> cases N s t <;> simp
  rename_i a b
  by_cases h : a = b <;> simp [h]
  exact fun e => h e.symm

private theorem sec_different {M N : Alignment String String} {s t : String} :
    sectionOf M N s t = some .relationDifferent ↔ ∃ r r', M s t = some r ∧ N s t = some r' ∧ r ≠ r' := by
  unfold sectionOf
  cases M s t <;> cases N s t <;> simp

private theorem sec_only1 {M N : Alignment String String} {s t : String} :
    sectionOf M N s t = some .only1 ↔ ∃ r, M s t = some r ∧ N s t = none := by
  unfold sectionOf
  cases M s t <;> cases N s t <;> simp
  rename_i a b
  by_cases h : a = b <;> simp [h]

private theorem sec_only2 {M N : Alignment String String} {s t : String} :
    sectionOf M N s t = some .only2 ↔ ∃ r, N s t = some r ∧ M s t = none := by
  unfold sectionOf
  cases M s t <;> cases N s t <;> simp
  rename_i a b
  by_cases h : a = b <;> simp [h]

private theorem pair_reported {num : String → Option Int} {showIdent : Bool} {relations : List String} {b : Both} {m : Meant}
    (h : Shown num b m) (hc : ∀ s t r, m.1 s t = some r ∨ m.2 s t = some r → relations = [] ∨ r ∈ relations)
    (s : Nat × List (List (Title × List Entry))) :
    ∃ n secs, diffPair num false showIdent relations b s = .ok (s.1 + n, s.2 ++ [secs]) ∧ Reported num showIdent m secs ∧
      numbers secs = List.range' (s.1 + 1) n := by
  obtain ⟨l1, e1, d1, m1⟩ := alignments_some h.first relations
  obtain ⟨l2, e2, d2, m2⟩ := alignments_some h.second relations
  obtain ⟨p, hp, hg⟩ := parts_good h.first.get h.second.get (fun s t => (h.named s t).1) (fun s t => (h.named s t).2)
    e1 d1 m1 e2 d2 m2
  have n1 : ∀ x ∈ p.ident, (num x.1).isSome := by
    rintro ⟨a, c⟩ hx
    obtain ⟨r, -, h1, -⟩ := (hg.ident a c).1 hx
    exact h.numbered a c (Or.inl (by rw [h1]; rfl))
  have n2 : ∀ x ∈ p.relDiff, (num x.1).isSome := by
    rintro ⟨a, c⟩ hx
    obtain ⟨r, r', -, h1, -⟩ := (hg.relDiff a c).1 hx
    exact h.numbered a c (Or.inl (by rw [h1]; rfl))
  have n3 : ∀ x ∈ p.uniq1, (num x.1).isSome := by
    rintro ⟨a, c⟩ hx
    obtain ⟨r, -, h1, -⟩ := (hg.uniq1 a c).1 hx
    exact h.numbered a c (Or.inl (by rw [h1]; rfl))
  have n4 : ∀ x ∈ p.uniq2, (num x.1).isSome := by
    rintro ⟨a, c⟩ hx
    obtain ⟨r, -, h1, -⟩ := (hg.uniq2 a c).1 hx
    exact h.numbered a c (Or.inr (by rw [h1]; rfl))
  obtain ⟨k1, P1, O1, S1⟩ := section_ok (b := b) h.first.get h.second.get n1 .identical (s.1, [])
  let o1 : Nat × List (Title × List Entry) := if showIdent then put m.1 m.2 .identical k1 (s.1, []) else (s.1, [])
  obtain ⟨k2, P2, O2, S2⟩ := section_ok (b := b) h.first.get h.second.get n2 .relationDifferent o1
  let o2 := put m.1 m.2 .relationDifferent k2 o1
  obtain ⟨k3, P3, O3, S3⟩ := section_ok (b := b) h.first.get h.second.get n3 .only1 o2
  let o3 := put m.1 m.2 .only1 k3 o2
  obtain ⟨k4, P4, O4, S4⟩ := section_ok (b := b) h.first.get h.second.get n4 .only2 o3
  let o4 := put m.1 m.2 .only2 k4 o3
  have hrun : diffPair num false showIdent relations b s = .ok (o4.1, s.2 ++ [o4.2]) := by
    unfold diffPair
    rw [if_pos h.same]
    have hi : (if showIdent = true then section' num b .identical p.ident (s.1, []) else pure (s.1, [])) = .ok o1 := by
      cases showIdent with
      | true => exact S1
      | false => rfl
    simp only [hp, hi, bind, Except.bind]
    have S2' : section' num b .relationDifferent p.relDiff o1 = .ok o2 := S2
    have S3' : section' num b .only1 p.uniq1 o2 = .ok o3 := S3
    have S4' : section' num b .only2 p.uniq2 o3 = .ok o4 := S4
    simp only [S2', S3', S4', pure, Except.pure]
  have b1 : s.1 ≤ o1.1 := by simp only [o1]; split <;> simp [put]
  have b2 : s.1 ≤ o2.1 := by simp only [o2, put]; omega
  have b3 : s.1 ≤ o3.1 := by simp only [o3, put]; omega
  have b4 : s.1 ≤ o4.1 := by simp only [o4, put]; omega
  have hnum : numbers o4.2 = List.range' (s.1 + 1) (o4.1 - s.1) := by
    apply numbers_put b3
    apply numbers_put b2
    apply numbers_put b1
    simp only [o1]
    split
    · apply numbers_put (le_refl _)
      simp [numbers]
    · simp [numbers]
  have hpr : ∀ t, printed o4.2 t = match t with
      | .identical => if showIdent then entries m.1 m.2 s.1 k1 else []
      | .relationDifferent => entries m.1 m.2 o1.1 k2
      | .only1 => entries m.1 m.2 o2.1 k3
      | .only2 => entries m.1 m.2 o3.1 k4 := by
    intro t
    have h0 : printed o1.2 t = if t = .identical ∧ showIdent then entries m.1 m.2 s.1 k1 else [] := by
      simp only [o1]
      cases showIdent with
      | true =>
        simp only [if_true, printed_put]
        cases t <;> simp [printed]
      | false => simp [printed]
    simp only [o4, o3, o2, printed_put, h0]
    cases t <;> simp
  have hmem : ∀ (k : Nat) (l l' : List Nodes), l'.Perm l → ∀ a c, (∃ e ∈ entries m.1 m.2 k l', e.nodes = (a, c)) ↔ (a, c) ∈ l := by
    intro k l l' hl a c
    rw [← hl.mem_iff]
    conv_rhs => rw [← entries_nodes (M := m.1) (N := m.2) k l']
    simp only [List.mem_map]
  refine ⟨o4.1 - s.1, o4.2, ?_, ?_, hnum⟩
  · rw [hrun]
    have : s.1 + (o4.1 - s.1) = o4.1 := by omega
    rw [this]
  · refine ⟨?_, ?_, ?_, ?_, ?_, ?_⟩
    · intro title a c
      rw [hpr]
      have hc' := hc a c
      cases title with
      | identical =>
        cases showIdent with
        | false => simp
        | true =>
          simp only [if_true]
          rw [hmem _ _ _ P1, hg.ident, sec_identical]
          simp only [implies_true, and_true]
          exact ⟨fun ⟨r, _, h1, h2⟩ => ⟨r, h1, h2⟩, fun ⟨r, h1, h2⟩ => ⟨r, hc' r (Or.inl h1), h1, h2⟩⟩
      | relationDifferent =>
        simp only [reduceCtorEq, false_implies, and_true]
        rw [hmem _ _ _ P2, hg.relDiff, sec_different]
        exact ⟨fun ⟨r, r', _, h⟩ => ⟨r, r', h⟩, fun ⟨r, r', h1, h⟩ => ⟨r, r', hc' r (Or.inl h1), h1, h⟩⟩
      | only1 =>
        simp only [reduceCtorEq, false_implies, and_true]
        rw [hmem _ _ _ P3, hg.uniq1, sec_only1]
        exact ⟨fun ⟨r, _, h1, h2⟩ => ⟨r, h1, h2⟩, fun ⟨r, h1, h2⟩ => ⟨r, hc' r (Or.inl h1), h1, h2⟩⟩
      | only2 =>
        simp only [reduceCtorEq, false_implies, and_true]
        rw [hmem _ _ _ P4, hg.uniq2, sec_only2]
        exact ⟨fun ⟨r, _, h1, h2⟩ => ⟨r, h1, h2⟩, fun ⟨r, h1, h2⟩ => ⟨r, hc' r (Or.inr h1), h1, h2⟩⟩
    · intro title e he
      rw [hpr] at he
      cases title with
      | identical =>
        cases showIdent with
        | false => simp at he
        | true => exact entries_rels _ _ e he
      | relationDifferent => exact entries_rels _ _ e he
      | only1 => exact entries_rels _ _ e he
      | only2 => exact entries_rels _ _ e he
    · intro title
      rw [hpr]
      obtain ⟨D1, D2, D3, D4⟩ := hg.nodup
      cases title with
      | identical =>
        cases showIdent with
        | false => simp
        | true => simp only [if_true]; rw [entries_nodes]; exact P1.nodup_iff.2 D1
      | relationDifferent => simp only; rw [entries_nodes]; exact P2.nodup_iff.2 D2
      | only1 => simp only; rw [entries_nodes]; exact P3.nodup_iff.2 D3
      | only2 => simp only; rw [entries_nodes]; exact P4.nodup_iff.2 D4
    · intro title
      have ho : ∀ k l, Ordered num l → (entries m.1 m.2 k l).Pairwise fun e f =>
          ∀ i j, num e.nodes.1 = some i → num f.nodes.1 = some j → i ≤ j := by
        intro k l hl
        rw [← entries_nodes (M := m.1) (N := m.2) k l] at hl
        exact List.pairwise_map.1 hl
      rw [hpr]
      cases title with
      | identical =>
        cases showIdent with
        | false => simp
        | true => exact ho _ _ O1
      | relationDifferent => exact ho _ _ O2
      | only1 => exact ho _ _ O3
      | only2 => exact ho _ _ O4
    · have hne : ∀ (k : Nat) (l : List Nodes), l ≠ [] → entries m.1 m.2 k l ≠ [] := by
        intro k l hl he
        rw [← entries_nodes (M := m.1) (N := m.2) k l, he] at hl
        exact hl rfl
      have step : ∀ (t : Title) (l : List Nodes) (o : Nat × List (Title × List Entry)), (∀ x ∈ o.2, x.2 ≠ []) →
          ∀ x ∈ (put m.1 m.2 t l o).2, x.2 ≠ [] := by
        intro t l o ho x hx
        unfold put at hx
        by_cases hl : l = []
        · simp only [hl, if_true] at hx; exact ho x hx
        · simp only [hl, if_false, List.mem_append, List.mem_singleton] at hx
          rcases hx with hx | rfl
          · exact ho x hx
          · exact hne _ _ hl
      apply step
      apply step
      apply step
      simp only [o1]
      split
      · apply step; simp
      · simp
    · have key : ∀ (t : Title) (l : List Nodes) (o : Nat × List (Title × List Entry)) (ts : List Title),
          (o.2.map fun x => x.1).Sublist ts → ((put m.1 m.2 t l o).2.map fun x => x.1).Sublist (ts ++ [t]) := by
        intro t l o ts ho
        unfold put
        by_cases hl : l = []
        · simp only [hl, if_true]; exact ho.trans (List.sublist_append_left _ _)
        · simp only [hl, if_false, List.map_append, List.map_cons, List.map_nil]
          exact ho.append (List.Sublist.refl _)
      have h1 : (o1.2.map fun x => x.1).Sublist [Title.identical] := by
        simp only [o1]
        split
        · exact key _ _ _ [] (by simp)
        · simp
      have h4 := key .only2 k4 o3 _ (key .only1 k3 o2 _ (key .relationDifferent k2 o1 _ h1))
      exact h4.nodup (by decide)

private theorem loop_reported {num : String → Option Int} {showIdent : Bool} {relations : List String} :
    ∀ {bs : List Both} {ms : List Meant}, List.Forall₂ (Shown num) bs ms →
    (∀ m ∈ ms, ∀ s t r, m.1 s t = some r ∨ m.2 s t = some r → relations = [] ∨ r ∈ relations) →
    ∀ s : Nat × List (List (Title × List Entry)),
    ∃ n out, Py.forIn bs s (diffPair num false showIdent relations) = .ok (s.1 + n, s.2 ++ out) ∧
      List.Forall₂ (Reported num showIdent) ms out ∧ (out.flatMap numbers) = List.range' (s.1 + 1) n
  | [], _, .nil, _, s => ⟨0, [], by simp [Py.forIn], .nil, by simp⟩
  | b :: bs, m :: ms, .cons h hs, hc, s => by
    obtain ⟨n, secs, e1, r1, k1⟩ := pair_reported (showIdent := showIdent) h (hc m (by simp)) s
    obtain ⟨n', out, e2, r2, k2⟩ := loop_reported (showIdent := showIdent) hs (fun m hm => hc m (by simp [hm]))
      (s.1 + n, s.2 ++ [secs])
    refine ⟨n + n', secs :: out, ?_, .cons r1 r2, ?_⟩
    · unfold Py.forIn
      rw [e1]
      simp only
      rw [e2]
      simp [Nat.add_assoc]
    · rw [List.flatMap_cons, k1, k2, ← List.range'_append_1]
      congr 2
      simp only
      omega

/-- C44.  The difference of two corpora with the same graph pairs: for every graph pair, each pair of nodes aligned in
one of the two is reported exactly once, under the title that says how the alignments differ on it (identical ones only
on request), and the reports are numbered 1, 2, 3, ... throughout. -/
theorem diff_partition {num : String → Option Int} {showIdent : Bool} {relations : Option (List String)}
    {relations1 : List String} {bs : List Both} {ms : List Meant} (h : List.Forall₂ (Shown num) bs ms)
    (hc : ∀ m ∈ ms, Complete relations relations1 m) :
    ∃ out, pgcDiff num false showIdent relations relations1 bs.length bs.length bs = .ok out ∧
      List.Forall₂ (Reported num showIdent) ms out ∧ out.flatMap numbers = List.range' 1 (out.flatMap numbers).length := by
  have hc' : ∀ m ∈ ms, ∀ s t r, m.1 s t = some r ∨ m.2 s t = some r →
      compared relations relations1 = [] ∨ r ∈ compared relations relations1 := by
    intro m hm s t r hr
    have := hc m hm s t r hr
    unfold Wanted at this
    match relations, this with
    | none, h => exact h
    | some [], h => exact h
    | some (a :: rs), h => exact h
  obtain ⟨n, out, e, r, k⟩ := loop_reported (showIdent := showIdent) h hc' (0, [])
  refine ⟨out, ?_, r, ?_⟩
  · unfold pgcDiff
    rw [if_neg (by simp)]
    simp only [e, bind, Except.bind, List.nil_append, pure, Except.pure]
  · rw [k]
    simp

/-- C44.  Nothing is reported exactly if all alignments are the same. -/
theorem diff_empty {num : String → Option Int} {m : Meant} {secs : List (Title × List Entry)} (h : Reported num false m secs) :
    secs = [] ↔ m.1 = m.2 := by
  have hs : secs = [] ↔ ∀ t, printed secs t = [] := by
    constructor
    · rintro rfl t; rfl
    · intro hp
      rcases secs with - | ⟨⟨t, l⟩, rest⟩
      · rfl
      · have h1 := h.titled (t, l) (by simp)
        have h2 := hp t
        simp only [printed, List.filter_cons, decide_true, if_true, List.flatMap_cons, List.append_eq_nil_iff] at h2
        exact absurd h2.1 h1
  rw [hs]
  constructor
  · intro hp
    funext s t
    have key : ∀ title, title ≠ .identical → sectionOf m.1 m.2 s t ≠ some title := by
      intro title ht he
      obtain ⟨e, h1, -⟩ := (h.exact title s t).2 ⟨he, fun e => absurd e ht⟩
      rw [hp] at h1
      simp at h1
    unfold sectionOf at key
    cases h1 : m.1 s t with
    | none =>
      cases h2 : m.2 s t with
      | none => rfl
      | some b => have := key .only2 (by simp); simp [h1, h2] at this
    | some a =>
      cases h2 : m.2 s t with
      | none => have := key .only1 (by simp); simp [h1, h2] at this
      | some b =>
        have := key .relationDifferent (by simp)
        simp only [h1, h2] at this
        by_cases e : a = b
        · rw [e]
        · simp [e] at this
  · intro he t
    rw [List.eq_nil_iff_forall_not_mem]
    intro e hm
    obtain ⟨h1, h2⟩ := (h.exact t e.nodes.1 e.nodes.2).1 ⟨e, hm, rfl⟩
    rw [he] at h1
    unfold sectionOf at h1
    cases hx : m.2 e.nodes.1 e.nodes.2 with
    | none => simp [hx] at h1
    | some r =>
      simp only [hx, if_true, Option.some.injEq] at h1
      exact absurd (h2 h1.symm) (by simp)

/-- C44.  Exchanging the corpora exchanges the reports under the two last titles and keeps the others. -/
theorem diff_exchange {num : String → Option Int} {showIdent : Bool} {M N : Alignment String String}
    {secs secs' : List (Title × List Entry)} (h : Reported num showIdent (M, N) secs) (h' : Reported num showIdent (N, M) secs')
    (t : Title) : ((printed secs t).map fun e => (e.nodes, e.rel1, e.rel2)).Perm
      ((printed secs' (exchanged t)).map fun e => (e.nodes, e.rel2, e.rel1)) := by
  have hsec : ∀ s u, sectionOf N M s u = (sectionOf M N s u).map exchanged := by
    intro s u
    unfold sectionOf
    cases M s u <;> cases N s u <;> simp [exchanged]
    rename_i a b
    by_cases e : a = b
    · simp [e, exchanged]
    · have : ¬ b = a := fun h => e h.symm
      simp [e, this, exchanged]
  have inj : ∀ a b : Title, exchanged a = exchanged b → a = b := by
    intro a b; cases a <;> cases b <;> simp [exchanged]
  have hid : exchanged t = .identical ↔ t = .identical := by cases t <;> simp [exchanged]
  have nd : ∀ {m : Meant} {secs : List (Title × List Entry)}, Reported num showIdent m secs → ∀ t (f : Entry → Option String × Option String),
      ((printed secs t).map fun e => (e.nodes, f e)).Nodup := by
    intro m secs h t f
    have := h.once t
    refine List.Nodup.of_map Prod.fst ?_
    rw [List.map_map]
    exact this
  rw [List.perm_ext_iff_of_nodup (nd h t _) (nd h' _ _)]
  rintro ⟨⟨s, u⟩, r1, r2⟩
  simp only [List.mem_map, Prod.mk.injEq]
  constructor
  · rintro ⟨e, he, hn, hr⟩
    obtain ⟨h1, h2⟩ := (h.exact t s u).1 ⟨e, he, hn⟩
    obtain ⟨e', he', hn'⟩ := (h'.exact (exchanged t) s u).2 ⟨by simp only [hsec]; simp only at h1; rw [h1]; rfl,
      fun x => h2 (hid.1 x)⟩
    obtain ⟨a1, a2⟩ := h.relations t e he
    obtain ⟨b1, b2⟩ := h'.relations _ e' he'
    rw [hn] at a1 a2
    rw [hn'] at b1 b2
    exact ⟨e', he', hn', by rw [b2, ← hr.1, a1], by rw [b1, ← hr.2, a2]⟩
  · rintro ⟨e', he', hn', hr⟩
    obtain ⟨h1, h2⟩ := (h'.exact (exchanged t) s u).1 ⟨e', he', hn'⟩
    simp only [hsec] at h1
    have h3 : sectionOf M N s u = some t := by
      cases hx : sectionOf M N s u with
      | none => rw [hx] at h1; cases h1
      | some x =>
        rw [hx] at h1
        simp only [Option.map_some, Option.some.injEq] at h1
        rw [inj _ _ h1]
    obtain ⟨e, he, hn⟩ := (h.exact t s u).2 ⟨h3, fun x => h2 (hid.2 x)⟩
    obtain ⟨a1, a2⟩ := h.relations t e he
    obtain ⟨b1, b2⟩ := h'.relations _ e' he'
    rw [hn] at a1 a2
    rw [hn'] at b1 b2
    exact ⟨e, he, hn, by rw [a1, ← hr.1, b2], by rw [a2, ← hr.2, b1]⟩

/-- C44.  Corpora of different lengths are refused. -/
theorem diff_lengths {num : String → Option Int} {wordsOnly showIdent : Bool} {relations : Option (List String)}
    {relations1 : List String} {n1 n2 : Nat} (h : n1 ≠ n2) (bs : List Both) :
    pgcDiff num wordsOnly showIdent relations relations1 n1 n2 bs = .error .assertionError := by
  unfold pgcDiff; rw [if_pos h]

/-- C44, violated.  Restricting to words raises AttributeError as soon as the first corpus has an alignment. -/
theorem words_only_fails {num : String → Option Int} {showIdent : Bool} {relations : Option (List String)}
    {relations1 : List String} {b : Both} {bs : List Both} {M : Alignment String String} (hs : b.same = true)
    (h : GraphPair.Shows b.first M) {s t r : String} (hr : M s t = some r) (hw : Wanted relations relations1 r) :
    pgcDiff num true showIdent relations relations1 (bs.length + 1) (bs.length + 1) (b :: bs) = .error .attributeError := by
  have hw' : compared relations relations1 = [] ∨ r ∈ compared relations relations1 := by
    unfold Wanted at hw
    match relations, hw with
    | none, h => exact h
    | some [], h => exact h
    | some (a :: rs), h => exact h
  obtain ⟨l, e1, -, m1⟩ := alignments_some h (compared relations relations1)
  have hm := (m1 s t r).2 ⟨hr, hw'⟩
  have h1 : Py.forIn l ⟨[], [], [], []⟩ (Verif.PgcDiff.first true b) = .error .attributeError := by
    cases l with
    | nil => simp at hm
    | cons x l => simp [Py.forIn, Verif.PgcDiff.first]
  have h2 : parts true (compared relations relations1) b = .error .attributeError := by
    simp only [parts, e1, h1, bind, Except.bind]
  unfold pgcDiff
  rw [if_neg (by simp)]
  simp only [Py.forIn, diffPair, hs, if_true, h2, bind, Except.bind]

private theorem second_words {b : Both} {tS tT : String → Bool} (hM : ∀ s t, GraphPair.getAlign b.first s t = .ok none) :
    ∀ (l : List (Nodes × String)) (p : Parts), (∀ x ∈ l, b.termS x.1.1 = .ok (tS x.1.1) ∧ b.termT x.1.2 = .ok (tT x.1.2)) →
    Py.forIn l p (second true b) = .ok
      { p with uniq2 := p.uniq2 ++ (l.filter fun x => !(tS x.1.1 || tT x.1.2)).map Prod.fst }
  | [], p, _ => by simp [Py.forIn]
  | x :: l, p, h => by
    obtain ⟨h1, h2⟩ := h x (by simp)
    have ih := second_words (tS := tS) (tT := tT) hM l
    unfold Py.forIn
    cases e1 : tS x.1.1 <;> cases e2 : tT x.1.2 <;>
      simp only [second, skip, h1, h2, e1, e2, hM, falsy, if_true, Bool.false_eq_true, if_false, bind, Except.bind, pure,
        Except.pure] <;> rw [ih _ fun y hy => h y (by simp [hy])] <;> simp [List.filter_cons, e1, e2]

/-- C44, violated.  When the first corpus has no alignments, restricting to words shows the alignments of the second one
between two nodes neither of which is a word. -/
theorem words_only_inverted {num : String → Option Int} {showIdent : Bool} {relations : Option (List String)}
    {relations1 : List String} {b : Both} {N : Alignment String String} {tS tT : String → Bool} (hs : b.same = true)
    (h1 : GraphPair.Shows b.first fun _ _ => none) (h2 : GraphPair.Shows b.second N)
    (ht : ∀ s t r, N s t = some r → b.termS s = .ok (tS s) ∧ b.termT t = .ok (tT t) ∧ (num s).isSome) :
    ∃ secs, pgcDiff num true showIdent relations relations1 1 1 [b] = .ok [secs] ∧
      (∀ s t, (∃ e ∈ printed secs .only2, e.nodes = (s, t)) ↔
        ∃ r, N s t = some r ∧ Wanted relations relations1 r ∧ tS s = false ∧ tT t = false) ∧
      ∀ title, title ≠ .only2 → printed secs title = [] := by
  obtain ⟨l1, e1, -, m1⟩ := alignments_some h1 (compared relations relations1)
  obtain ⟨l2, e2, -, m2⟩ := alignments_some h2 (compared relations relations1)
  have hl1 : l1 = [] := by
    rw [List.eq_nil_iff_forall_not_mem]
    rintro ⟨⟨s, t⟩, r⟩ hx
    simpa using (m1 s t r).1 hx
  subst hl1
  have hp : parts true (compared relations relations1) b = .ok
      ⟨[], [], [], (l2.filter fun x => !(tS x.1.1 || tT x.1.2)).map Prod.fst⟩ := by
    simp only [parts, e1, e2, Py.forIn, bind, Except.bind]
    rw [second_words h1.get l2 _ (by
      rintro ⟨⟨s, t⟩, r⟩ hx
      have := ht s t r ((m2 s t r).1 hx).1
      exact ⟨this.1, this.2.1⟩)]
    simp
  have hn : ∀ x ∈ (l2.filter fun x => !(tS x.1.1 || tT x.1.2)).map Prod.fst, (num x.1).isSome := by
    intro x hx
    obtain ⟨⟨⟨s, t⟩, r⟩, hy, rfl⟩ := List.mem_map.1 hx
    exact (ht s t r ((m2 s t r).1 (List.mem_filter.1 hy).1).1).2.2
  have none' : ∀ t o, section' num b t [] o = .ok o := by
    intro t o
    simp [section', sortNodes, printAlignments, Py.forIn, bind, Except.bind, pure, Except.pure]
  obtain ⟨k, P, -, S⟩ := section_ok (b := b) h1.get h2.get hn .only2 (0, [])
  have S' : section' num b .only2 ((l2.filter fun x => !(tS x.1.1 || tT x.1.2)).map Prod.fst) (0, []) =
    .ok (put (fun _ _ => none) N .only2 k (0, [])) := S
  refine ⟨(put (fun _ _ => none) N .only2 k (0, [])).2, ?_, ?_, ?_⟩
  · unfold pgcDiff
    rw [if_neg (by simp)]
    cases showIdent <;>
      simp only [Py.forIn, diffPair, hs, if_true, hp, none', S', bind, Except.bind, pure, Except.pure, List.nil_append,
        Bool.false_eq_true, if_false]
  · intro s t
    rw [printed_put]
    simp only [printed, List.filter_nil, List.flatMap_nil, List.nil_append, if_true]
    have : (∃ e ∈ entries (fun _ _ => none) N 0 k, e.nodes = (s, t)) ↔ (s, t) ∈ k := by
      conv_rhs => rw [← entries_nodes (M := fun _ _ => none) (N := N) 0 k]
      simp only [List.mem_map]
    rw [this, P.mem_iff, List.mem_map]
    have hw : ∀ r, Wanted relations relations1 r ↔ compared relations relations1 = [] ∨ r ∈ compared relations relations1 := by
      intro r
      unfold Wanted
      match relations with
      | none => exact Iff.rfl
      | some [] => exact Iff.rfl
      | some (a :: rs) => exact Iff.rfl
    constructor
    · rintro ⟨⟨⟨a, c⟩, r⟩, hy, he⟩
      obtain ⟨rfl, rfl⟩ : a = s ∧ c = t := by simpa using he
      obtain ⟨hy, hf⟩ := List.mem_filter.1 hy
      obtain ⟨k1, k2⟩ := (m2 _ _ _).1 hy
      exact ⟨r, k1, (hw r).2 k2, by simpa using hf⟩
    · rintro ⟨r, k1, k2, k3, k4⟩
      exact ⟨((s, t), r), List.mem_filter.2 ⟨(m2 _ _ _).2 ⟨k1, (hw r).1 k2⟩, by simp [k3, k4]⟩, rfl⟩
  · intro title hne
    rw [printed_put, if_neg (Ne.symm hne)]
    simp [printed]

/-! ### Examples -/

/-- A graph pair with these alignments. -/
private def pair (l : List (String × String × String)) : Graph.G String String :=
  match GraphPair.run false Verif.Graph.empty (l.map fun x => .add x.1 x.2.1 x.2.2) with
  | .ok x => x.1
  | .error _ => Verif.Graph.empty

private theorem shows_pair (l : List (String × String × String)) :
    GraphPair.Shows (pair l) (GraphPair.runSpec GraphPair.meantMapping Alignment.none
      (l.map fun x => .add x.1 x.2.1 x.2.2)).1 := by
  obtain ⟨g, e, h⟩ := GraphPair.mapping_refines (κ := String) (ρ := String) (l.map fun x => .add x.1 x.2.1 x.2.2)
  unfold pair
  rw [e]
  exact h

private def both (l m : List (String × String × String)) : Both := ⟨pair l, pair m, true, fun _ => .ok true, fun _ => .ok true⟩

/-- What is printed, without the relations. -/
private def show' (relations : Option (List String)) (b : Both) : Option (List (List (Title × List (Nat × Nodes)))) :=
  match pgcDiff (fun s => some s.length) false true relations [] 1 1 [b] with
  | .ok out => some (out.map fun secs => secs.map fun x => (x.1, x.2.map fun e => (e.number, e.nodes)))
  | .error _ => none

private instance : DecidableEq (Nat × Nodes) := instDecidableEqProd
private instance : DecidableEq (Title × List (Nat × Nodes)) := instDecidableEqProd

private def sample : Both :=
  both [("1", "2", "equals"), ("333", "4", "restates"), ("55", "6", "equals")]
    [("1", "2", "equals"), ("333", "4", "equals"), ("7", "8", "equals"), ("55", "6", "intersects")]

example : show' none sample = some [[(.identical, [(1, ("1", "2"))]), (.relationDifferent, [(2, ("55", "6")), (3, ("333", "4"))]),
    (.only2, [(4, ("7", "8"))])]] := by decide +kernel

example : ∃ m, Shown (fun s => some s.length) sample m ∧ Complete none [] m := by
  refine ⟨(_, _), ⟨rfl, shows_pair [("1", "2", "equals"), ("333", "4", "restates"), ("55", "6", "equals")],
    shows_pair [("1", "2", "equals"), ("333", "4", "equals"), ("7", "8", "equals"), ("55", "6", "intersects")], ?_,
    fun _ _ _ => rfl⟩, fun _ _ _ _ => Or.inl rfl⟩
  intro s t
  simp only [GraphPair.runSpec, GraphPair.meantMapping, List.map_cons, List.map_nil, Alignment.put, Alignment.none]
  constructor <;> (repeat' split) <;> simp

/-- With words only, node 1 being the only word: the alignment of the nodes 3 and 4. -/
example : (pgcDiff (fun s => some s.length) true true none [] 1 1
      [⟨pair [], pair [("1", "2", "equals"), ("3", "4", "equals")], true, fun s => .ok (s = "1"), fun _ => .ok false⟩]).map
    (fun out => out.map fun secs => secs.map fun x => (x.1, x.2.map fun e => (e.number, e.nodes))) =
      .ok [[(.only2, [(1, ("3", "4"))])]] := by decide +kernel

/-- C44, violated.  With restricted relations, a pair of nodes aligned with another relation in the first corpus is
not reported, although it is when the corpora are exchanged. -/
theorem restricted_lost :
    show' (some ["restates"]) (both [("1", "2", "equals")] [("1", "2", "restates")]) = some [[]] ∧
    show' (some ["restates"]) (both [("1", "2", "restates")] [("1", "2", "equals")]) =
      some [[(.relationDifferent, [(1, ("1", "2"))])]] := by decide +kernel

end Verif.Props.PgcDiff
