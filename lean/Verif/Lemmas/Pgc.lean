import Verif.Spec.Pgc
import Verif.Lemmas.Corpus
import Verif.Lemmas.GraphPair
import Verif.Lemmas.Base
import Mathlib.Data.List.TakeWhile

/-! Lemmas about writing and reading corpora. -/
namespace Verif.Pgc
open Verif Verif.Etree Verif.Corpus Verif.Spec Verif.Spec.Pgc
set_option linter.unusedSectionVars false

variable {γ : Type}

theorem toString_inj {a b : Nat} (h : toString a = toString b) : a = b := by
  have h' : a.repr = b.repr := h
  rw [Nat.repr_eq_ofList_toDigits, Nat.repr_eq_ofList_toDigits] at h'
  have h2 := String.ofList_injective h'
  have := congrArg (fun l => Nat.ofDigitChars 10 l 0) h2
  simpa using this

/-! ### Bank ids -/

/-- Invariant of the table of banks. -/
structure BT (B : Nat → Prop) (E : Nat → Nat → Prop) (s : BankTable) : Prop where
  wf : s.table.WF
  tab : Table B E s.table
  vals : ∀ v, (∃ k, s.table.get? k = some v) ↔ v ∈ s.banks
  ids : ∀ j b, s.banks[j]? = some b → s.ids.get? b = some (toString (j + 1))
  nodup : s.banks.Nodup

theorem BT.nil {B : Nat → Prop} {E : Nat → Nat → Prop} : BT B E ⟨[], [], []⟩ := by
  refine ⟨by simp, ⟨by simp, by simp, by simp⟩, by simp, by simp, by simp⟩

theorem BT.uniq {B : Nat → Prop} {E : Nat → Nat → Prop} {s : BankTable} (h : BT B E s) {b b' : Nat}
    (hb : b ∈ s.banks) (hb' : b' ∈ s.banks) (he : E b b') : b = b' := by
  obtain ⟨k, hk⟩ := (h.vals b).2 hb
  obtain ⟨k', hk'⟩ := (h.vals b').2 hb'
  exact h.tab.uniq _ _ _ _ hk hk' he

theorem bankId_spec {B : Nat → Prop} {E : Nat → Nat → Prop} [∀ a b, Decidable (E a b)] {eq : Nat → Nat → Py Bool}
    (hE : ∀ a b, B a → B b → eq a b = .ok (decide (E a b)))
    (hrefl : ∀ a, B a → E a a) (hsymm : ∀ a b, B a → B b → E a b → E b a)
    {s : BankTable} (h : BT B E s) {old : Nat} (ho : B old) :
    ∃ s' i, bankId eq s old = .ok (s', i) ∧ BT B E s' ∧ s.banks <+: s'.banks ∧
      ∃ j b, s'.banks[j]? = some b ∧ i = toString (j + 1) ∧ E old b := by
  obtain ⟨t', b, h1, h2, h3, h4, h5, h6, h7, h8⟩ := newBank_spec hE hrefl hsymm h.wf h.tab ho
  have hidx : ∀ b, b ∈ s.banks → ∃ j, s.banks[j]? = some b := fun b hb => List.mem_iff_getElem?.1 hb
  unfold newBank at h1
  unfold bankId
  cases hg : s.table.get? old with
  | some new =>
    rw [hg] at h1
    simp only [Except.ok.injEq, Prod.mk.injEq] at h1
    obtain ⟨rfl, rfl⟩ := h1
    obtain ⟨j, hj⟩ := hidx new ((h.vals new).1 ⟨old, hg⟩)
    simp only [h.ids j new hj]
    exact ⟨s, _, rfl, h, List.prefix_rfl, j, new, hj, rfl, h6⟩
  | none =>
    rw [hg] at h1
    dsimp only at h1 ⊢
    cases hf : findBank eq old (s.table.map Prod.snd) with
    | error e => rw [hf] at h1; simp at h1
    | ok r =>
      rw [hf] at h1
      cases r with
      | some new =>
        simp only [Except.ok.injEq, Prod.mk.injEq] at h1
        obtain ⟨rfl, rfl⟩ := h1
        obtain ⟨r', f1, f2, -⟩ := findBank_spec hE ho (s.table.map Prod.snd) (by
          intro x hx
          rw [List.mem_map] at hx
          obtain ⟨⟨k, v⟩, hk, rfl⟩ := hx
          exact (h.tab.mem k v (AD.get?_of_mem h.wf hk)).2.1)
        rw [hf] at f1
        simp only [Except.ok.injEq] at f1
        have hin := (f2 new f1.symm).1
        rw [List.mem_map] at hin
        obtain ⟨⟨k, v⟩, hk, rfl⟩ := hin
        have hb : v ∈ s.banks := (h.vals v).1 ⟨k, AD.get?_of_mem h.wf hk⟩
        obtain ⟨j, hj⟩ := hidx v hb
        simp only [h.ids j v hj]
        refine ⟨_, _, rfl, ⟨h2, h3, ?_, h.ids, h.nodup⟩, List.prefix_rfl, j, v, hj, rfl, h6⟩
        intro x
        constructor
        · rintro ⟨y, hy⟩
          dsimp only at hy
          rw [AD.get?_set] at hy
          split at hy
          · simp only [Option.some.injEq] at hy; subst hy; exact hb
          · exact (h.vals x).1 ⟨y, hy⟩
        · intro hx
          obtain ⟨y, hy⟩ := (h.vals x).2 hx
          exact ⟨y, h7 y x hy⟩
      | none =>
        simp only [Except.ok.injEq, Prod.mk.injEq] at h1
        obtain ⟨rfl, rfl⟩ := h1
        have hnot : old ∉ s.banks := by
          intro hb
          obtain ⟨k, hk⟩ := (h.vals old).2 hb
          rw [h.tab.rep _ _ hk] at hg
          simp at hg
        refine ⟨_, _, rfl, ⟨h2, h3, ?_, ?_, ?_⟩, List.prefix_append _ _, s.banks.length, old, by simp, rfl, h6⟩
        · intro x
          simp only [List.mem_append, List.mem_singleton]
          constructor
          · rintro ⟨y, hy⟩
            rw [AD.get?_set] at hy
            split at hy
            · simp only [Option.some.injEq] at hy; exact Or.inr hy.symm
            · exact Or.inl ((h.vals x).1 ⟨y, hy⟩)
          · rintro (hx | rfl)
            · obtain ⟨y, hy⟩ := (h.vals x).2 hx
              exact ⟨y, h7 y x hy⟩
            · exact ⟨x, h4⟩
        · intro j b hj
          dsimp only at hj ⊢
          rw [List.getElem?_append] at hj
          rw [AD.get?_set]
          split at hj
          · rename_i hlt
            have hne : b ≠ old := by
              rintro rfl
              exact hnot (List.mem_iff_getElem?.2 ⟨j, hj⟩)
            rw [if_neg hne]
            exact h.ids j b hj
          · rename_i hge
            rw [List.getElem?_singleton] at hj
            split at hj
            · simp only [Option.some.injEq] at hj
              rw [if_pos hj.symm]
              have : j = s.banks.length := by omega
              rw [this]
            · simp at hj
        · rw [List.nodup_append]
          refine ⟨h.nodup, by simp, ?_⟩
          intro a ha b hb
          simp only [List.mem_singleton] at hb
          rintro rfl
          exact hnot (hb ▸ ha)

/-- The element for a graph pair. -/
def pairElem (gp : GP) (l : List ((String × String) × String)) (n j1 j2 : Nat) : Elem :=
  .mk "graph_pair" [("n", toString (n + 1)), ("from_graph_id", gp.sourceId), ("to_graph_id", gp.targetId),
      ("from_bank_id", toString (j1 + 1)), ("to_bank_id", toString (j2 + 1))] none none
    ((if gp.meta.elem.children ≠ [] then [gp.meta.elem] else []) ++ l.map nodePairElem)

/-- The element written for a graph pair, for the final list of banks. -/
def IsPairElem (E : Nat → Nat → Prop) (banks : List Nat) (gp : GP) (e : Elem) : Prop :=
  ∃ (l : List ((String × String) × String)) (n j1 j2 b1 b2 : Nat), GraphPair.alignments gp.align none = .ok l ∧
    banks[j1]? = some b1 ∧ banks[j2]? = some b2 ∧ E gp.source b1 ∧ E gp.target b2 ∧
    e = pairElem gp l n j1 j2

theorem getElem?_prefix {l m : List Nat} (h : l <+: m) {j b : Nat} (hj : l[j]? = some b) : m[j]? = some b := by
  obtain ⟨t, rfl⟩ := h
  rw [List.getElem?_append_left]
  · exact hj
  · by_contra hc
    rw [List.getElem?_eq_none (by omega)] at hj
    simp at hj

theorem IsPairElem.mono {E : Nat → Nat → Prop} {l m : List Nat} (h : l <+: m) {gp : GP} {e : Elem}
    (he : IsPairElem E l gp e) : IsPairElem E m gp e := by
  obtain ⟨al, n, j1, j2, b1, b2, h1, h2, h3, h4, h5, h6⟩ := he
  exact ⟨al, n, j1, j2, b1, b2, h1, getElem?_prefix h h2, getElem?_prefix h h3, h4, h5, h6⟩

theorem genPairs_spec {B : Nat → Prop} {E : Nat → Nat → Prop} [∀ a b, Decidable (E a b)] {eq : Nat → Nat → Py Bool}
    (hE : ∀ a b, B a → B b → eq a b = .ok (decide (E a b)))
    (hrefl : ∀ a, B a → E a a) (hsymm : ∀ a b, B a → B b → E a b → E b a) (gp : Nat → GP) :
    ∀ (ps : List Nat) (n : Nat) (s : BankTable), BT B E s → (∀ p ∈ ps, B (gp p).source ∧ B (gp p).target) →
    (∀ p ∈ ps, ∃ l, GraphPair.alignments (gp p).align none = .ok l) →
    ∃ s' es, genPairs eq gp ps n s = .ok (s', es) ∧ BT B E s' ∧ s.banks <+: s'.banks ∧
      List.Forall₂ (fun p e => IsPairElem E s'.banks (gp p) e) ps es
  | [], n, s, h, _, _ => ⟨s, [], rfl, h, List.prefix_rfl, .nil⟩
  | p :: ps, n, s, h, hB, hal => by
    obtain ⟨l, hl⟩ := hal p (by simp)
    obtain ⟨s1, i1, e1, t1, p1, j1, b1, q1, rfl, w1⟩ := bankId_spec hE hrefl hsymm h (hB p (by simp)).1
    obtain ⟨s2, i2, e2, t2, p2, j2, b2, q2, rfl, w2⟩ := bankId_spec hE hrefl hsymm t1 (hB p (by simp)).2
    obtain ⟨s3, es, e3, t3, p3, f3⟩ := genPairs_spec hE hrefl hsymm gp ps (n + 1) s2 t2
      (fun q hq => hB q (by simp [hq])) (fun q hq => hal q (by simp [hq]))
    refine ⟨s3, pairElem (gp p) l n j1 j2 :: es, ?_, t3, p1.trans (p2.trans p3), .cons ?_ f3⟩
    · simp only [genPairs, genPair, hl, e1, e2, e3]
      rfl
    · exact ⟨l, n, j1, j2, b1, b2, hl, getElem?_prefix (p2.trans p3) q1, getElem?_prefix p3 q2, w1, w2, rfl⟩

/-! ### Running the parser -/

/-- Handle a list of events. -/
def run (env : Env γ) (mode : Load) (s : State γ) (evs : List Event) : Py (State γ) :=
  Py.forIn evs s fun e s => step env mode s e

theorem run_nil (env : Env γ) (mode : Load) (s : State γ) : run env mode s [] = .ok s := rfl

theorem run_cons (env : Env γ) (mode : Load) (s : State γ) (e : Event) (evs : List Event) :
    run env mode s (e :: evs) = match step env mode s e with
      | .ok s => run env mode s evs
      | .error e => .error e := by
  unfold run
  rw [Py.forIn]
  cases step env mode s e <;> rfl

theorem run_append (env : Env γ) (mode : Load) (s : State γ) (l m : List Event) :
    run env mode s (l ++ m) = match run env mode s l with
      | .ok s => run env mode s m
      | .error e => .error e := by
  induction l generalizing s with
  | nil => rfl
  | cons e l ih =>
    rw [List.cons_append, run_cons, run_cons]
    cases step env mode s e with
    | error e => rfl
    | ok s => exact ih s

theorem run_seq {env : Env γ} {mode : Load} {s s1 : State γ} {l m : List Event} (h : run env mode s l = .ok s1) :
    run env mode s (l ++ m) = run env mode s1 m := by
  rw [run_append, h]

mutual
theorem run_foreign (env : Env γ) (mode : Load) (s : State γ) : ∀ e : Elem, Foreign e → run env mode s (events e) = .ok s
  | .mk t a x l c, h => by
    simp only [Foreign] at h
    have h1 := h.1
    simp only [tags, List.mem_cons, List.not_mem_nil, or_false, not_or] at h1
    obtain ⟨n1, n2, n3, n4, n5, n6, n7, n8, n9⟩ := h1
    simp only [events]
    rw [run_cons]
    have e1 : step env mode s (.start (.mk t a x l c)) = .ok s := by
      simp [step, Elem.tag, n1, n2, n3]
    have e2 : step env mode s (.stop (.mk t a x l c)) = .ok s := by
      simp [step, Elem.tag, n1, n4, n5, n6, n7, n8, n9]
    rw [e1]
    dsimp only
    rw [run_seq (run_foreignList env mode s c h.2), run_cons, e2]
    rfl
theorem run_foreignList (env : Env γ) (mode : Load) (s : State γ) :
    ∀ es : List Elem, ForeignList es → run env mode s (eventsList es) = .ok s
  | [], _ => by simp [eventsList, run_nil]
  | e :: es, h => by
    simp only [ForeignList] at h
    simp only [eventsList]
    rw [run_seq (run_foreign env mode s e h.1), run_foreignList env mode s es h.2]
end

/-! ### Trees that differ in white space only -/

/-- Related elements have the same tags and attributes, and differ in blank texts and tails only. -/
def Spaced (ws : Char → Bool) (R : Elem → Elem → Prop) : Prop :=
  ∀ e e', R e e' → e.tag = e'.tag ∧ e.attrib = e'.attrib ∧ Xml.SameText ws e.text e'.text ∧
    List.Forall₂ R e.children e'.children

mutual
theorem foreign_spaced {ws : Char → Bool} {R : Elem → Elem → Prop} (hR : Spaced ws R) :
    ∀ e e', R e e' → Foreign e → Foreign e'
  | .mk t a x l c, .mk t' a' x' l' c', h, hf => by
    obtain ⟨h1, h2, h3, h4⟩ := hR _ _ h
    simp only [Elem.tag, Elem.children] at h1 h4
    simp only [Foreign] at hf ⊢
    exact ⟨h1 ▸ hf.1, foreignList_spaced hR c c' h4 hf.2⟩
theorem foreignList_spaced {ws : Char → Bool} {R : Elem → Elem → Prop} (hR : Spaced ws R) :
    ∀ es es', List.Forall₂ R es es' → ForeignList es → ForeignList es'
  | [], _, h, _ => by cases h; simp [ForeignList]
  | e :: es, _, h, hf => by
    cases h with
    | cons h1 h2 =>
      simp only [ForeignList] at hf ⊢
      exact ⟨foreign_spaced hR _ _ h1 hf.1, foreignList_spaced hR _ _ h2 hf.2⟩
end

/-- An element related to a given one. -/
theorem Spaced.inv {ws : Char → Bool} {R : Elem → Elem → Prop} (hR : Spaced ws R) {t : String} {a : AD String String}
    {x l : Option Text} {c : List Elem} {e' : Elem} (h : R (.mk t a x l c) e') :
    ∃ x' l' c', e' = .mk t a x' l' c' ∧ Xml.SameText ws x x' ∧ List.Forall₂ R c c' := by
  obtain ⟨h1, h2, h3, h4⟩ := hR _ _ h
  cases e' with
  | mk t' a' x' l' c' =>
    simp only [Elem.tag, Elem.attrib, Elem.text, Elem.children] at h1 h2 h3 h4
    subst h1 h2
    exact ⟨x', l', c', rfl, h3, h4⟩

/-- A text that is not blank stays. -/
theorem sameText_solid {ws : Char → Bool} {x : Text} {y : Option Text} (h : Xml.SameText ws (some x) y)
    (hx : strip ws x ≠ []) : y = some x := by
  rcases h with h | ⟨h, -⟩
  · exact h.symm
  · exfalso
    apply hx
    simp only [blank] at h
    have : x.dropWhile ws = [] := by
      rw [List.dropWhile_eq_nil_iff]
      exact fun c hc => List.all_eq_true.1 h c hc
    simp [strip, this]

/-! ### Node pairs -/

/-- The alignments of a list that is one-to-one. -/
def ListOneToOne (l : List ((String × String) × String)) : Prop :=
  (l.map Prod.fst).Nodup ∧ ∀ x ∈ l, ∀ y ∈ l, (x.1.1 = y.1.1 ↔ x.1.2 = y.1.2)

/-- What an alignment read shows. -/
def Meant (M : Alignment (Option String) (Option String)) (l : List ((String × String) × String)) : Prop :=
  ∀ x y q, M x y = some q ↔ ∃ a b r, x = some a ∧ y = some b ∧ q = some r ∧ ((a, b), r) ∈ l

theorem meant_oneToOne {M : Alignment (Option String) (Option String)} {l : List ((String × String) × String)}
    (h : Meant M l) (hl : ∀ x ∈ l, ∀ y ∈ l, (x.1.1 = y.1.1 ↔ x.1.2 = y.1.2)) : M.OneToOne := by
  intro a b a' b' h1 h2
  obtain ⟨q, hq⟩ := Option.isSome_iff_exists.1 h1
  obtain ⟨q', hq'⟩ := Option.isSome_iff_exists.1 h2
  obtain ⟨x, y, r, rfl, rfl, rfl, hm⟩ := (h _ _ _).1 hq
  obtain ⟨x', y', r', rfl, rfl, rfl, hm'⟩ := (h _ _ _).1 hq'
  simp only [Option.some.injEq]
  exact hl _ hm _ hm'

theorem meant_wed {M : Alignment (Option String) (Option String)} {l : List ((String × String) × String)}
    (h : Meant M l) (a b r : String) (ha : ∀ x ∈ l, x.1.1 ≠ a ∧ x.1.2 ≠ b) :
    Meant (M.wed (some a) (some b) (some r)) (l ++ [((a, b), r)]) := by
  intro x y q
  unfold Alignment.wed
  simp only [List.mem_append, List.mem_singleton, Prod.mk.injEq]
  by_cases hxy : x = some a ∧ y = some b
  · rw [if_pos hxy]
    obtain ⟨rfl, rfl⟩ := hxy
    constructor
    · intro hq
      exact ⟨a, b, r, rfl, rfl, (Option.some.inj hq).symm, Or.inr ⟨⟨rfl, rfl⟩, rfl⟩⟩
    · rintro ⟨a', b', r', h1, h2, rfl, h3 | h3⟩
      · simp only [Option.some.injEq] at h1
        exact absurd h1.symm (ha _ h3).1
      · rw [h3.2]
  · rw [if_neg hxy]
    split
    · rename_i hor
      constructor
      · intro hc; simp at hc
      · rintro ⟨a', b', r', rfl, rfl, rfl, h3 | h3⟩
        · rcases hor with hor | hor
          · exact absurd (Option.some.inj hor) (ha _ h3).1
          · exact absurd (Option.some.inj hor) (ha _ h3).2
        · exact absurd (by simp [h3]) hxy
    · rw [h]
      constructor
      · rintro ⟨a', b', r', h1, h2, h3, h4⟩
        exact ⟨a', b', r', h1, h2, h3, Or.inl h4⟩
      · rintro ⟨a', b', r', h1, h2, h3, h4 | h4⟩
        · exact ⟨a', b', r', h1, h2, h3, h4⟩
        · exact absurd ⟨by rw [h1, h4.1.1], by rw [h2, h4.1.2]⟩ hxy

/-- Reading node pairs. -/
theorem run_nodePairs {ws : Char → Bool} {R : Elem → Elem → Prop} (hR : Spaced ws R) (env : Env γ) (mode : Load)
    (done : List (PPair γ)) :
    ∀ (l pre : List ((String × String) × String)) (es : List Elem), ListOneToOne (pre ++ l) →
      List.Forall₂ R (l.map nodePairElem) es → ∀ (s : State γ) (p : PPair γ) M, s.pairs = done ++ [p] →
      GraphPair.Al p.align M (fun _ => False) → Meant M pre →
      ∃ g M', run env mode s (eventsList es) = .ok { s with pairs := done ++ [{ p with align := g }] } ∧
        GraphPair.Al g M' (fun _ => False) ∧ Meant M' (pre ++ l)
  | [], pre, es, _, hes, s, p, M, hs, hal, hM => by
    cases hes
    refine ⟨p.align, M, ?_, hal, by simpa using hM⟩
    simp only [eventsList, run_nil, ← hs]
  | x :: l, pre, es, hone, hes, s, p, M, hs, hal, hM => by
    cases hes with
    | @cons _ e' _ es' h1 h2 =>
      obtain ⟨x', l', c', rfl, -, hc⟩ := hR.inv h1
      cases hc
      have hfresh : ∀ y ∈ pre, y.1.1 ≠ x.1.1 ∧ y.1.2 ≠ x.1.2 := by
        intro y hy
        have hne : y.1 ≠ x.1 := by
          have := hone.1
          rw [List.map_append, List.nodup_append] at this
          exact this.2.2 _ (List.mem_map_of_mem hy) _ (by simp)
        have hiff := hone.2 y (by simp [hy]) x (by simp)
        constructor
        · intro hc; exact hne (Prod.ext hc (hiff.1 hc))
        · intro hc; exact hne (Prod.ext (hiff.2 hc) hc)
      obtain ⟨g, f1, f2⟩ := hal.wed (meant_oneToOne hM fun a ha b hb => hone.2 a (by simp [ha]) b (by simp [hb]))
        (some x.1.1) (some x.1.2) (some x.2)
      have hM' := meant_wed hM x.1.1 x.1.2 x.2 hfresh
      obtain ⟨g', M', i1, i2, i3⟩ := run_nodePairs hR env mode done l (pre ++ [x]) es' (by simpa using hone) h2
        { s with pairs := done ++ [{ p with align := g }] } { p with align := g } _ rfl f2 hM'
      refine ⟨g', M', ?_, i2, by simpa using i3⟩
      have e1 : step env mode s (.start (.mk "node_pair" [("from_node_id", x.1.1), ("to_node_id", x.1.2), ("relation", x.2)]
          x' l' [])) = .ok { s with pairs := done ++ [{ p with align := g }] } := by
        have g1 : AD.get? [("from_node_id", x.1.1), ("to_node_id", x.1.2), ("relation", x.2)] "from_node_id" = some x.1.1 := rfl
        have g2 : AD.get? [("from_node_id", x.1.1), ("to_node_id", x.1.2), ("relation", x.2)] "to_node_id" = some x.1.2 := rfl
        have g3 : AD.get? [("from_node_id", x.1.1), ("to_node_id", x.1.2), ("relation", x.2)] "relation" = some x.2 := rfl
        simp [step, Elem.tag, Elem.attrib, startNodePair, hs, g1, g2, g3, f1]
      have e2 : ∀ s : State γ, step env mode s (.stop (.mk "node_pair"
          [("from_node_id", x.1.1), ("to_node_id", x.1.2), ("relation", x.2)] x' l' [])) = .ok s := by
        intro s; simp [step, Elem.tag]
      simp only [eventsList, events, List.nil_append, List.cons_append]
      rw [run_cons, e1]
      dsimp only
      rw [run_cons, e2]
      dsimp only
      rw [i1]

/-! ### Files and relations -/

theorem step_file (env : Env γ) (mode : Load) (s : State γ) (id fmt : String) (x : Text) (l : Option Text)
    (hn : s.banks.get? (some id) = none) (hf : fmt ≠ "") :
    step env mode s (.stop (.mk "file" [("id", id), ("format", fmt)] (some x) l [])) =
      .ok { s with banks := s.banks.set (some id) (Bank.mk (env.resolve (strip env.ws x)) (some fmt) false [] []) } := by
  have g1 : AD.get? [("id", id), ("format", fmt)] "id" = some id := rfl
  have g2 : AD.get? [("id", id), ("format", fmt)] "format" = some fmt := rfl
  have hhas : s.banks.has (some id) = false := by simp [AD.has, hn]
  simp [step, Elem.tag, Elem.attrib, Elem.text, endFile, g1, g2, hhas, orDefault, hf]

/-- Reading <file> elements. -/
theorem run_files {R : Elem → Elem → Prop} (env : Env γ) (hR : Spaced env.ws R) (mode : Load)
    (w : World) (format : Nat → String) (shown : String → Text) (ids : AD Nat String) :
    ∀ (bs : List Nat) (k : Nat) (s : State γ) (es : List Elem),
      (∀ b ∈ bs, strip env.ws (shown (w.path b)) ≠ [] ∧ format b ≠ "") →
      (∀ j b, bs[j]? = some b → ids.get? b = some (toString (k + j + 1))) →
      List.Forall₂ R (bs.map (fileElem w format shown ids)) es →
      (∀ x, s.banks.get? x ≠ none → ∃ j < k, x = some (toString (j + 1))) →
      ∃ banks, run env mode s (eventsList es) = .ok { s with banks := banks } ∧
        (∀ j < k, banks.get? (some (toString (j + 1))) = s.banks.get? (some (toString (j + 1)))) ∧
        (∀ j b, bs[j]? = some b → banks.get? (some (toString (k + j + 1))) =
          some (Bank.mk (env.resolve (strip env.ws (shown (w.path b)))) (some (format b)) false [] [])) ∧
        (∀ x, banks.get? x ≠ none → s.banks.get? x ≠ none ∨ ∃ j b, bs[j]? = some b ∧ x = some (toString (k + j + 1)))
  | [], k, s, es, _, _, hes, _ => by
    cases hes
    exact ⟨s.banks, by simp [eventsList, run_nil], fun _ _ => rfl, by simp, fun x hx => Or.inl hx⟩
  | b :: bs, k, s, es, hok, hids, hes, hkeys => by
    cases hes with
    | @cons _ e' _ es' h1 h2 =>
      obtain ⟨x', l', c', rfl, hx, hc⟩ := hR.inv h1
      cases hc
      have hid : ids.get? b = some (toString (k + 1)) := hids 0 b rfl
      have hx' := sameText_solid hx (hok b (by simp)).1
      subst hx'
      have hnone : s.banks.get? (some (toString (k + 1))) = none := by
        by_contra hc
        obtain ⟨j, hj, he⟩ := hkeys _ hc
        have := toString_inj (Option.some.inj he)
        omega
      let bk : Bank γ := Bank.mk (env.resolve (strip env.ws (shown (w.path b)))) (some (format b)) false [] []
      obtain ⟨banks, i1, i2, i3, i4⟩ := run_files env hR mode w format shown ids bs (k + 1)
        { s with banks := s.banks.set (some (toString (k + 1))) bk } es' (fun b hb => hok b (by simp [hb]))
        (by intro j b' hj; have := hids (j + 1) b' (by simpa using hj); rwa [show k + 1 + j = k + (j + 1) by omega]) h2
        (by
          intro x hx
          dsimp only at hx
          rw [AD.get?_set] at hx
          split at hx
          · rename_i he; exact ⟨k, by omega, he⟩
          · obtain ⟨j, hj, he⟩ := hkeys x hx; exact ⟨j, by omega, he⟩)
      refine ⟨banks, ?_, ?_, ?_, ?_⟩
      · have e1 : ∀ a x l, step env mode s (.start (.mk "file" a x l [])) = .ok s := by
          intro a x l; simp [step, Elem.tag]
        have e2 := fun l => step_file env mode s (toString (k + 1)) (format b) (shown (w.path b)) l hnone (hok b (by simp)).2
        simp only [eventsList, events, List.nil_append, List.cons_append, hid, Option.getD_some]
        rw [run_cons, e1]
        dsimp only
        rw [run_cons, e2]
        exact i1
      · intro j hj
        rw [i2 j (by omega)]
        dsimp only
        rw [AD.get?_set_ne]
        intro hc
        have := toString_inj (Option.some.inj hc)
        omega
      · intro j b' hj
        cases j with
        | zero =>
          simp only [List.getElem?_cons_zero, Option.some.injEq] at hj
          subst hj
          rw [show k + 0 + 1 = k + 1 by omega, i2 k (by omega)]
          simp [bk]
        | succ j =>
          have := i3 j b' (by simpa using hj)
          rwa [show k + 1 + j + 1 = k + (j + 1) + 1 by omega] at this
      · intro x hx
        rcases i4 x hx with h | ⟨j, b', hj, rfl⟩
        · dsimp only at h
          rw [AD.get?_set] at h
          split at h
          · rename_i he; exact Or.inr ⟨0, b, rfl, he⟩
          · exact Or.inl h
        · exact Or.inr ⟨j + 1, b', by simpa using hj, by rw [show k + 1 + j + 1 = k + (j + 1) + 1 by omega]⟩

/-- Reading <relation> elements. -/
theorem run_relations {R : Elem → Elem → Prop} (env : Env γ) (hR : Spaced env.ws R) (mode : Load) :
    ∀ (rs : List String) (s : State γ) (es : List Elem),
      (∀ r ∈ rs, strip env.ws r.toList = r.toList ∧ r ≠ "") →
      List.Forall₂ R (rs.map fun r => Elem.mk "relation" [] (some r.toList) none []) es →
      run env mode s (eventsList es) = .ok { s with relations := s.relations ++ rs }
  | [], s, es, _, hes => by
    cases hes
    simp [eventsList, run_nil]
  | r :: rs, s, es, hrs, hes => by
    cases hes with
    | @cons _ e' _ es' h1 h2 =>
      obtain ⟨x', l', c', rfl, hx, hc⟩ := hR.inv h1
      cases hc
      obtain ⟨hs, hne⟩ := hrs r (by simp)
      have hne' : r.toList ≠ [] := by simpa using hne
      have hx' := sameText_solid hx (by rw [hs]; exact hne')
      subst hx'
      have e1 : ∀ x l, step env mode s (.start (.mk "relation" [] x l [])) = .ok s := by
        intro x l; simp [step, Elem.tag]
      have e2 : ∀ l, step env mode s (.stop (.mk "relation" [] (some r.toList) l [])) =
          .ok { s with relations := s.relations ++ [r] } := by
        intro l
        simp [step, Elem.tag, Elem.text, endRelation, hs]
      simp only [eventsList, events, List.nil_append, List.cons_append]
      rw [run_cons, e1]
      dsimp only
      rw [run_cons, e2]
      dsimp only
      rw [run_relations env hR mode rs _ es' (fun r hr => hrs r (by simp [hr])) h2]
      simp

/-! ### Graph pairs -/

/-- Reading the metadata of a graph pair. -/
theorem run_metaElem {R : Elem → Elem → Prop} (env : Env γ) (hR : Spaced env.ws R) (mode : Load) (s : State γ)
    (done : List (PPair γ)) (p : PPair γ) (hs : s.pairs = done ++ [p]) {m e : Elem} (hm : R m e)
    (ht : m.tag = "graph_meta_data") (hf : ForeignList m.children) :
    run env mode s (events e) = .ok { s with pairs := done ++ [{ p with «meta» := e }] } := by
  cases m with
  | mk t a x l c =>
    simp only [Elem.tag, Elem.children] at ht hf
    subst ht
    obtain ⟨x', l', c', rfl, hx, hc⟩ := hR.inv hm
    have hfor := foreignList_spaced hR c c' hc hf
    simp only [events]
    rw [run_cons]
    have e1 : step env mode s (.start (.mk "graph_meta_data" a x' l' c')) = .ok s := by simp [step, Elem.tag]
    rw [e1]
    dsimp only
    rw [run_seq (run_foreignList env mode s c' hfor), run_cons]
    have e2 : step env mode s (.stop (.mk "graph_meta_data" a x' l' c')) =
        .ok { s with pairs := done ++ [{ p with «meta» := .mk "graph_meta_data" a x' l' c' }] } := by
      simp [step, Elem.tag, endGraphMeta, hs]
    rw [e2]
    rfl

/-- The banks read so far. -/
structure BanksOk (path : Nat → Text) (format : Nat → String) (bs : List Nat) (s : State γ) : Prop where
  get : ∀ j b, bs[j]? = some b → ∃ bk, s.banks.get? (some (toString (j + 1))) = some bk ∧ bk.path = path b ∧
    bk.format = some (format b) ∧ bk.loaded = false
  only : ∀ x, s.banks.get? x ≠ none → ∃ j b, bs[j]? = some b ∧ x = some (toString (j + 1))

/-- What is read for a graph pair. -/
structure PairRead (E : Nat → Nat → Prop) (R : Elem → Elem → Prop) (bs : List Nat) (gp : GP) (pp : PPair γ) : Prop where
  source : ∃ j b, bs[j]? = some b ∧ E gp.source b ∧ pp.sourceBank = toString (j + 1)
  target : ∃ j b, bs[j]? = some b ∧ E gp.target b ∧ pp.targetBank = toString (j + 1)
  sourceId : pp.sourceId = gp.sourceId
  targetId : pp.targetId = gp.targetId
  metaIs : if gp.meta.elem.children ≠ [] then R gp.meta.elem pp.meta else pp.meta = .mk "graph_meta_data" [] none none []
  align : ∃ l M, GraphPair.alignments gp.align none = .ok l ∧ GraphPair.Al pp.align M (fun _ => False) ∧ Meant M l
  graphs : pp.source = none ∧ pp.target = none

theorem banksOk_set {path : Nat → Text} {format : Nat → String} {bs : List Nat} {s : State γ}
    (h : BanksOk path format bs s) {k : String} {bk b' : Bank γ} (hk : s.banks.get? (some k) = some bk)
    (h1 : b'.path = bk.path) (h2 : b'.format = bk.format) (h3 : b'.loaded = bk.loaded) (pairs : List (PPair γ)) :
    BanksOk path format bs { s with banks := s.banks.set (some k) b', pairs := pairs } := by
  refine ⟨?_, ?_⟩
  rotate_left
  · intro x hx
    dsimp only at hx
    rw [AD.get?_set] at hx
    split at hx
    · rename_i he
      exact h.only x (by rw [he, hk]; simp)
    · exact h.only x hx
  intro j b hj
  obtain ⟨x, e1, e2, e3, e4⟩ := h.get j b hj
  dsimp only
  rw [AD.get?_set]
  by_cases hc : some (toString (j + 1)) = some k
  · rw [if_pos hc]
    rw [hc, hk] at e1
    obtain rfl := Option.some.inj e1
    exact ⟨b', rfl, h1.trans e2, h2.trans e3, h3.trans e4⟩
  · rw [if_neg hc]
    exact ⟨x, e1, e2, e3, e4⟩

theorem startPair_ok {path : Nat → Text} {format : Nat → String} {bs : List Nat} {mode : Load} (hmode : mode ≠ .all)
    {s : State γ} (h : BanksOk path format bs s) {j1 j2 b1 b2 : Nat} (h1 : bs[j1]? = some b1) (h2 : bs[j2]? = some b2)
    {si ti : String} (hsi : si ≠ "") (hti : ti ≠ "") (n : String) :
    ∃ banks, startPair mode s [("n", n), ("from_graph_id", si), ("to_graph_id", ti),
        ("from_bank_id", toString (j1 + 1)), ("to_bank_id", toString (j2 + 1))] =
      .ok { s with banks := banks, pairs := s.pairs ++ [newPair (toString (j1 + 1)) (toString (j2 + 1)) si ti none none] } ∧
      BanksOk path format bs
        { s with banks := banks, pairs := s.pairs ++ [newPair (toString (j1 + 1)) (toString (j2 + 1)) si ti none none] } := by
  obtain ⟨x1, a1, a2, a3, a4⟩ := h.get j1 b1 h1
  obtain ⟨x2, c1, c2, c3, c4⟩ := h.get j2 b2 h2
  generalize toString (j1 + 1) = i1 at *
  generalize toString (j2 + 1) = i2 at *
  have g1 : AD.get? [("n", n), ("from_graph_id", si), ("to_graph_id", ti), ("from_bank_id", i1), ("to_bank_id", i2)]
    "from_bank_id" = some i1 := rfl
  have g2 : AD.get? [("n", n), ("from_graph_id", si), ("to_graph_id", ti), ("from_bank_id", i1), ("to_bank_id", i2)]
    "to_bank_id" = some i2 := rfl
  have g3 : AD.get? [("n", n), ("from_graph_id", si), ("to_graph_id", ti), ("from_bank_id", i1), ("to_bank_id", i2)]
    "from_graph_id" = some si := rfl
  have g4 : AD.get? [("n", n), ("from_graph_id", si), ("to_graph_id", ti), ("from_bank_id", i1), ("to_bank_id", i2)]
    "to_graph_id" = some ti := rfl
  let y1 : Bank γ := { x1 with stubs := x1.stubs.set si ((x1.stubs.get? si).getD [] ++ [s.pairs.length]) }
  have d1 : addStub x1 si s.pairs.length = .ok y1 := by simp [addStub, a4, hsi, y1]
  have B1 := banksOk_set h a1 (b' := y1) rfl rfl rfl s.pairs
  have hz : ∃ z, (s.banks.set (some i1) y1).get? (some i2) = some z ∧ z.loaded = false := by
    rw [AD.get?_set]
    split
    · exact ⟨y1, rfl, a4⟩
    · exact ⟨x2, c1, c4⟩
  obtain ⟨z, z1, z2⟩ := hz
  let y2 : Bank γ := { z with stubs := z.stubs.set ti ((z.stubs.get? ti).getD [] ++ [s.pairs.length]) }
  have d2 : addStub z ti s.pairs.length = .ok y2 := by simp [addStub, z2, hti, y2]
  have B2 := banksOk_set B1 (k := i2) (bk := z) (by exact z1) (b' := y2) rfl rfl rfl (s.pairs ++ [newPair i1 i2 si ti none none])
  refine ⟨(s.banks.set (some i1) y1).set (some i2) y2, ?_, B2⟩
  unfold startPair
  rw [g1, g2]
  dsimp only
  rw [a1, c1]
  dsimp only
  rw [g3, g4]
  dsimp only
  cases mode with
  | all => exact absurd rfl hmode
  | sparse => dsimp only; rw [d1]; dsimp only; rw [z1]; dsimp only; rw [d2]
  | none => dsimp only; rw [d1]; dsimp only; rw [z1]; dsimp only; rw [d2]

theorem forall₂_append_left {R : Elem → Elem → Prop} : ∀ (a b c : List Elem), List.Forall₂ R (a ++ b) c →
    ∃ c1 c2, c = c1 ++ c2 ∧ List.Forall₂ R a c1 ∧ List.Forall₂ R b c2
  | [], b, c, h => ⟨[], c, rfl, .nil, h⟩
  | x :: a, b, c, h => by
    cases h with
    | @cons _ y _ c h1 h2 =>
      obtain ⟨c1, c2, rfl, h3, h4⟩ := forall₂_append_left a b c h2
      exact ⟨y :: c1, c2, rfl, .cons h1 h3, h4⟩

theorem eventsList_append : ∀ a b : List Elem, eventsList (a ++ b) = eventsList a ++ eventsList b
  | [], b => by simp [eventsList]
  | x :: a, b => by simp [eventsList, eventsList_append a b]

/-- Reading a graph pair. -/
theorem run_pair {R : Elem → Elem → Prop} {E : Nat → Nat → Prop} (env : Env γ) (hR : Spaced env.ws R) {mode : Load}
    (hmode : mode ≠ .all) {path : Nat → Text} {format : Nat → String} {bs : List Nat} {s : State γ}
    (h : BanksOk path format bs s) {gp : GP} {e e' : Elem} (he : IsPairElem E bs gp e) (hee : R e e')
    (hids : gp.sourceId ≠ "" ∧ gp.targetId ≠ "")
    (hone : ∀ l, GraphPair.alignments gp.align none = .ok l → ListOneToOne l)
    (hmeta : gp.meta.elem.children ≠ [] → gp.meta.elem.tag = "graph_meta_data" ∧ ForeignList gp.meta.elem.children) :
    ∃ banks pp, run env mode s (events e') = .ok { s with banks := banks, pairs := s.pairs ++ [pp] } ∧
      BanksOk path format bs { s with banks := banks, pairs := s.pairs ++ [pp] } ∧ PairRead E R bs gp pp := by
  obtain ⟨l, n, j1, j2, b1, b2, k1, k2, k3, k4, k5, rfl⟩ := he
  unfold pairElem at hee
  obtain ⟨x', l', c', rfl, hx, hc⟩ := hR.inv hee
  obtain ⟨banks, f1, f2⟩ := startPair_ok hmode h k2 k3 hids.1 hids.2 (toString (n + 1))
  let p0 : PPair γ := newPair (toString (j1 + 1)) (toString (j2 + 1)) gp.sourceId gp.targetId none none
  have step1 : ∀ x l c, step env mode s (.start (.mk "graph_pair" [("n", toString (n + 1)), ("from_graph_id", gp.sourceId),
      ("to_graph_id", gp.targetId), ("from_bank_id", toString (j1 + 1)), ("to_bank_id", toString (j2 + 1))] x l c)) =
      .ok { s with banks := banks, pairs := s.pairs ++ [p0] } := by
    intro x l c
    rw [← f1]
    simp [step, Elem.tag, Elem.attrib]
  have step2 : ∀ (s : State γ) a x l c, step env mode s (.stop (.mk "graph_pair" a x l c)) = .ok s := by
    intro s a x l c
    simp [step, Elem.tag]
  -- the metadata
  obtain ⟨cm, cn, rfl, hcm, hcn⟩ := forall₂_append_left _ _ _ hc
  obtain ⟨m, hm1, hm2⟩ : ∃ m, run env mode { s with banks := banks, pairs := s.pairs ++ [p0] } (eventsList cm) =
        .ok { s with banks := banks, pairs := s.pairs ++ [{ p0 with «meta» := m }] } ∧
      (if gp.meta.elem.children ≠ [] then R gp.meta.elem m else m = .mk "graph_meta_data" [] none none []) := by
    by_cases hch : gp.meta.elem.children ≠ []
    · rw [if_pos hch] at hcm
      cases hcm with
      | @cons _ m _ cm h1 h2 =>
        cases h2
        refine ⟨m, ?_, by rw [if_pos hch]; exact h1⟩
        simp only [eventsList, List.append_nil]
        exact run_metaElem env hR mode _ s.pairs p0 rfl h1 (hmeta hch).1 (hmeta hch).2
    · rw [if_neg hch] at hcm
      cases hcm
      exact ⟨p0.meta, rfl, by rw [if_neg hch]; rfl⟩
  -- the node pairs
  obtain ⟨g, M, r1, r2, r3⟩ := run_nodePairs hR env mode s.pairs l [] cn (hone l k1) hcn
    { s with banks := banks, pairs := s.pairs ++ [{ p0 with «meta» := m }] } { p0 with «meta» := m } Alignment.none rfl
    GraphPair.Al.empty (by intro x y q; simp [Alignment.none])
  refine ⟨banks, { p0 with «meta» := m, align := g }, ?_, ⟨f2.get, f2.only⟩, ?_⟩
  · simp only [events]
    rw [run_cons, step1]
    dsimp only
    rw [eventsList_append, List.append_assoc, run_seq hm1, run_seq r1, run_cons, step2]
    rfl
  · exact ⟨⟨j1, b1, k2, k4, rfl⟩, ⟨j2, b2, k3, k5, rfl⟩, rfl, rfl, hm2, ⟨l, M, k1, r2, by simpa using r3⟩, rfl, rfl⟩

/-- Reading all graph pairs. -/
theorem run_pairs {R : Elem → Elem → Prop} {E : Nat → Nat → Prop} (env : Env γ) (hR : Spaced env.ws R) {mode : Load}
    (hmode : mode ≠ .all) {path : Nat → Text} {format : Nat → String} {bs : List Nat} (gp : Nat → GP) :
    ∀ (ps : List Nat) (es es' : List Elem) (s : State γ), BanksOk path format bs s →
      List.Forall₂ (fun p e => IsPairElem E bs (gp p) e) ps es → List.Forall₂ R es es' →
      (∀ p ∈ ps, (gp p).sourceId ≠ "" ∧ (gp p).targetId ≠ "") →
      (∀ p ∈ ps, ∀ l, GraphPair.alignments (gp p).align none = .ok l → ListOneToOne l) →
      (∀ p ∈ ps, (gp p).meta.elem.children ≠ [] →
        (gp p).meta.elem.tag = "graph_meta_data" ∧ ForeignList (gp p).meta.elem.children) →
      ∃ banks pps, run env mode s (eventsList es') = .ok { s with banks := banks, pairs := s.pairs ++ pps } ∧
        BanksOk path format bs { s with banks := banks, pairs := s.pairs ++ pps } ∧
        List.Forall₂ (fun p pp => PairRead E R bs (gp p) pp) ps pps
  | [], es, es', s, hB, h1, h2, _, _, _ => by
    cases h1
    cases h2
    exact ⟨s.banks, [], by simp [eventsList, run_nil], by simpa using hB, .nil⟩
  | p :: ps, es, es', s, hB, h1, h2, hi, ho, hm => by
    cases h1 with
    | @cons _ e _ es a1 a2 =>
      cases h2 with
      | @cons _ e' _ es' b1 b2 =>
        obtain ⟨banks, pp, c1, c2, c3⟩ := run_pair env hR hmode hB a1 b1 (hi p (by simp)) (ho p (by simp)) (hm p (by simp))
        obtain ⟨banks', pps, d1, d2, d3⟩ := run_pairs env hR hmode gp ps es es' _ c2 a2 b2
          (fun q hq => hi q (by simp [hq])) (fun q hq => ho q (by simp [hq])) (fun q hq => hm q (by simp [hq]))
        refine ⟨banks', pp :: pps, ?_, ?_, .cons c3 d3⟩
        · simp only [eventsList]
          rw [run_seq c1, d1]
          simp
        · simpa using d2

/-! ### The whole corpus -/

theorem run_elem {env : Env γ} {mode : Load} {s s1 s2 s3 : State γ} {t : String} {a : AD String String}
    {x l : Option Text} {c : List Elem} (h1 : step env mode s (.start (.mk t a x l c)) = .ok s1)
    (h2 : run env mode s1 (eventsList c) = .ok s2) (h3 : step env mode s2 (.stop (.mk t a x l c)) = .ok s3) :
    run env mode s (events (.mk t a x l c)) = .ok s3 := by
  simp only [events]
  rw [run_cons, h1]
  dsimp only
  rw [run_seq h2, run_cons, h3]
  rfl

theorem run_corpusMeta {R : Elem → Elem → Prop} (env : Env γ) (hR : Spaced env.ws R) (mode : Load) (s : State γ)
    {m e : Elem} (hm : R m e) (ht : m.tag = "corpus_meta_data") (hf : ForeignList m.children) :
    run env mode s (events e) = .ok { s with «meta» := some e } := by
  cases m with
  | mk t a x l c =>
    simp only [Elem.tag, Elem.children] at ht hf
    subst ht
    obtain ⟨x', l', c', rfl, hx, hc⟩ := hR.inv hm
    exact run_elem (by simp [step, Elem.tag]) (run_foreignList env mode s c' (foreignList_spaced hR c c' hc hf))
      (by simp [step, Elem.tag])

/-- What is read for a corpus, before graphs are loaded. -/
structure CorpusRead (E : Nat → Nat → Prop) (R : Elem → Elem → Prop) (path : Nat → Text) (format : Nat → String)
    (bs : List Nat) (w : World) (c : Corpus) (s : State γ) : Prop where
  relations : s.rels = w.rels c.rel
  metaIs : match c.meta with
    | some m => if m.elem.children ≠ [] then ∃ e, s.meta = some e ∧ R m.elem e else s.meta = none
    | none => s.meta = none
  banks : BanksOk path format bs s
  pairs : List.Forall₂ (fun p pp => PairRead E R bs (w.gp p) pp) c.pairs s.pairs

theorem run_corpus {R : Elem → Elem → Prop} {E : Nat → Nat → Prop} (env : Env γ) (hR : Spaced env.ws R) {mode : Load}
    (hmode : mode ≠ .all) {w : World} {format : Nat → String} {shown : String → Text} {c : Corpus}
    {bt : BankTable} {es : List Elem} {B : Nat → Prop} (hbt : BT B E bt)
    (hes : List.Forall₂ (fun p e => IsPairElem E bt.banks (w.gp p) e) c.pairs es)
    (hfile : ∀ b, B b → strip env.ws (shown (w.path b)) ≠ [] ∧ format b ≠ "")
    (hsort : (w.rels c.rel).Pairwise (· ≤ ·)) (hrel : ∀ r ∈ w.rels c.rel, strip env.ws r.toList = r.toList ∧ r ≠ "")
    (hids : ∀ p ∈ c.pairs, (w.gp p).sourceId ≠ "" ∧ (w.gp p).targetId ≠ "")
    (hone : ∀ p ∈ c.pairs, ∀ l, GraphPair.alignments (w.gp p).align none = .ok l → ListOneToOne l)
    (hmeta : ∀ p ∈ c.pairs, (w.gp p).meta.elem.children ≠ [] →
        (w.gp p).meta.elem.tag = "graph_meta_data" ∧ ForeignList (w.gp p).meta.elem.children)
    (hcmeta : ∀ m, c.meta = some m → m.elem.children ≠ [] →
      m.elem.tag = "corpus_meta_data" ∧ ForeignList m.elem.children) {t' : Elem}
    (ht : R (.mk "parallel_graph_corpus" [] none none <|
      (match c.meta with
        | some m => if m.elem.children ≠ [] then [m.elem] else []
        | none => []) ++
      [.mk "graphbanks" [] none none (bt.banks.map (fileElem w format shown bt.ids)),
       .mk "node_relations" [] none none ((w.rels c.rel).map fun r => .mk "relation" [] (some r.toList) none []),
       .mk "aligned_graphs" [] none none es]) t') :
    ∃ s, parse env mode (events t') = (if mode = .sparse then loadBanks env .sparse s else .ok s) ∧
      CorpusRead E R (fun b => env.resolve (strip env.ws (shown (w.path b)))) format bt.banks w c s ∧
      ∃ pre, run env mode {} pre = .ok s := by
  obtain ⟨x0, l0, c0, rfl, -, hc0⟩ := hR.inv ht
  obtain ⟨cm, cr, rfl, hcm, hcr⟩ := forall₂_append_left _ _ _ hc0
  obtain _ | ⟨hb, hcr⟩ := hcr
  rename_i eb cr
  obtain _ | ⟨hr, hcr⟩ := hcr
  rename_i er cr
  obtain _ | ⟨hg, hcr⟩ := hcr
  rename_i eg cr
  cases hcr
  obtain ⟨x1, l1, c1, rfl, -, hc1⟩ := hR.inv hb
  obtain ⟨x2, l2, c2, rfl, -, hc2⟩ := hR.inv hr
  obtain ⟨x3, l3, c3, rfl, -, hc3⟩ := hR.inv hg
  -- metadata
  obtain ⟨mm, m1, m2⟩ : ∃ mm, run env mode ({} : State γ) (eventsList cm) = .ok { ({} : State γ) with «meta» := mm } ∧
      (match c.meta with
        | some m => if m.elem.children ≠ [] then ∃ e, mm = some e ∧ R m.elem e else mm = none
        | none => mm = none) := by
    cases hm : c.meta with
    | none =>
      rw [hm] at hcm
      cases hcm
      exact ⟨none, rfl, rfl⟩
    | some m =>
      rw [hm] at hcm
      dsimp only at hcm ⊢
      by_cases hch : m.elem.children ≠ []
      · rw [if_pos hch] at hcm
        obtain _ | ⟨h1, h2⟩ := hcm
        cases h2
        rename_i e
        refine ⟨some e, ?_, by rw [if_pos hch]; exact ⟨e, rfl, h1⟩⟩
        simp only [eventsList, List.append_nil]
        exact run_corpusMeta env hR mode _ h1 (hcmeta m hm hch).1 (hcmeta m hm hch).2
      · rw [if_neg hch] at hcm
        cases hcm
        exact ⟨none, rfl, by rw [if_neg hch]⟩
  -- banks
  have hBb : ∀ b ∈ bt.banks, B b := by
    intro b hb
    obtain ⟨k, hk⟩ := (hbt.vals b).2 hb
    exact (hbt.tab.mem _ _ hk).2.1
  obtain ⟨banks, b1, -, b3, b4⟩ := run_files env hR mode w format shown bt.ids bt.banks 0 { ({} : State γ) with «meta» := mm } c1
    (fun b hb => hfile b (hBb b hb)) (by simpa using hbt.ids) hc1 (by simp)
  have r1 : run env mode { ({} : State γ) with «meta» := mm } (events (.mk "graphbanks" [] x1 l1 c1)) =
      .ok { ({} : State γ) with «meta» := mm, banks := banks } := by
    refine run_elem (s1 := { ({} : State γ) with «meta» := mm }) ?_ b1 ?_
    · simp [step, Elem.tag, Elem.attrib]
    · simp [step, Elem.tag, hmode]
  -- relations
  have r2' := run_relations env hR mode (w.rels c.rel) { ({} : State γ) with «meta» := mm, banks := banks } c2 hrel hc2
  obtain ⟨sh, r2, hsh⟩ : ∃ sh, run env mode { ({} : State γ) with «meta» := mm, banks := banks }
      (events (.mk "node_relations" [] x2 l2 c2)) =
        .ok { ({} : State γ) with «meta» := mm, banks := banks, relations := w.rels c.rel, shared := sh } ∧
      (if sh then w.rels c.rel else []) = w.rels c.rel := by
    by_cases he : w.rels c.rel = []
    · refine ⟨false, run_elem (s1 := { ({} : State γ) with «meta» := mm, banks := banks }) ?_ r2' ?_, by simp [he]⟩
      · simp [step, Elem.tag]
      · simp [step, Elem.tag, endRelations, he]
    · refine ⟨true, run_elem (s1 := { ({} : State γ) with «meta» := mm, banks := banks }) ?_ r2' ?_, by simp⟩
      · simp [step, Elem.tag]
      · have : (w.rels c.rel).mergeSort (fun x y => decide (x ≤ y)) = w.rels c.rel := by
          apply List.mergeSort_of_pairwise
          simpa using hsort
        simp [step, Elem.tag, endRelations, he, this]
  -- graph pairs
  obtain ⟨banks', pps, p1, p2, p3⟩ := run_pairs env hR hmode w.gp c.pairs es c3
    { ({} : State γ) with «meta» := mm, banks := banks, relations := w.rels c.rel, shared := sh }
    (path := fun b => env.resolve (strip env.ws (shown (w.path b)))) (format := format) (bs := bt.banks)
    (by
      refine ⟨?_, ?_⟩
      · intro j b hj
        have := b3 j b hj
        rw [Nat.zero_add] at this
        exact ⟨_, this, rfl, rfl, rfl⟩
      · intro x hx
        rcases b4 x hx with h | ⟨j, b, hj, rfl⟩
        · simp at h
        · exact ⟨j, b, hj, by rw [Nat.zero_add]⟩) hes hc3 hids hone hmeta
  refine ⟨_, ?_, ⟨?_, m2, p2, by simpa using p3⟩, _, (run_seq m1).trans ((run_seq r1).trans ((run_seq r2).trans p1))⟩
  · show run env mode {} _ = _
    simp only [events, eventsList_append, eventsList, List.append_nil]
    rw [run_cons]
    have e1 : ∀ s : State γ, ∀ c, step env mode s (.start (.mk "parallel_graph_corpus" [] x0 l0 c)) = .ok s := by
      intro s c; simp [step, Elem.tag]
    have e2 : ∀ s : State γ, ∀ c, step env mode s (.stop (.mk "parallel_graph_corpus" [] x0 l0 c)) = .ok s := by
      intro s c; simp [step, Elem.tag]
    rw [e1]
    dsimp only
    rw [List.append_assoc, run_seq m1]
    have r1' := r1
    simp only [events] at r1'
    have r2'' := r2
    simp only [events] at r2''
    rw [List.append_assoc, run_seq r1', List.append_assoc, run_seq r2'', List.cons_append, run_cons]
    have e3 : ∀ s : State γ, step env mode s (.start (.mk "aligned_graphs" [] x3 l3 c3)) = .ok s := by
      intro s; simp [step, Elem.tag]
    rw [e3]
    dsimp only
    rw [List.append_assoc, run_seq p1, List.singleton_append, run_cons]
    have e4 : ∀ s : State γ, step env mode s (.stop (.mk "aligned_graphs" [] x3 l3 c3)) =
        (if mode = .sparse then loadBanks env .sparse s else .ok s) := by
      intro s; simp [step, Elem.tag]
    rw [e4]
    split
    · rename_i he
      rw [he, run_cons, e2]
      rfl
    · rename_i he
      rw [he]
  · exact hsh

end Verif.Pgc
