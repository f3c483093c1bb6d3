import Verif.Lemmas.SplitJoin
import Verif.Props.PgcCp
import Verif.Props.PgcTools

namespace Verif.SplitJoin
open Verif Verif.Etree Verif.Pgc Verif.PgcCp Verif.Spec Verif.Spec.PgcCp Verif.Spec.SplitJoin
set_option linter.unusedSectionVars false

variable {β γ : Type}

/-! ### Corpora made of others -/

theorem gp_of_ge {s : State γ} {k : Nat} (h : s.pairs.length ≤ k) : s.pairs[k]? = none := List.getElem?_eq_none h

theorem part_made {stat : String → Option Nat} {s : State γ} (hsorted : s.rels.Pairwise (· ≤ ·)) {l : List Nat}
    (hl : ∀ k ∈ l, k < s.pairs.length) : Made stat s (part s l).1 (part s l).2 := by
  have hgp : (part s l).1.gp = (PgcCp.world s).gp ∧ (part s l).1.path = (PgcCp.world s).path ∧
      (part s l).1.rels (part s l).2.rel = s.rels := by
    unfold part Corpus.mkCorpus Corpus.setRelations
    dsimp only
    by_cases he : (PgcCp.world s).rels (PgcCp.corpus s).rel ≠ []
    · rw [if_pos he]
      dsimp only
      rw [if_pos rfl]
      refine ⟨rfl, rfl, ?_⟩
      have : ((PgcCp.world s).rels (PgcCp.corpus s).rel).Pairwise (· ≤ ·) := hsorted
      exact List.mergeSort_of_pairwise (by simpa using this)
    · rw [if_neg he]
      dsimp only
      rw [if_pos rfl]
      exact ⟨rfl, rfl, (not_not.1 he).symm⟩
  obtain ⟨h1, h2, h3⟩ := hgp
  refine ⟨h2, h3, rfl, hl, ?_, ?_, ?_⟩
  · rintro a ⟨k, hk, ha⟩
    rw [h1] at ha
    exact ⟨k, List.mem_range.2 (hl k hk), ha⟩
  · intro k _
    rw [h1]
    exact ⟨.inl rfl, .inl rfl⟩
  · intro k
    rw [h1]
    exact ⟨rfl, rfl, rfl, rfl⟩

theorem Ready.comparable {ws : Char → Bool} {fs : RelPath.FS} {gb : Banks γ} {stat : String → Option Nat} {s : State γ}
    (hs : Ready ws fs gb stat s) : Props.Corpus.Comparable stat (PgcCp.world s) (PgcCp.corpus s).pairs := by
  intro a b ha hb
  obtain ⟨b1, u1, p1, -⟩ := uses_iff hs.inv ha
  obtain ⟨b2, u2, p2, -⟩ := uses_iff hs.inv hb
  rw [p1, p2]
  rcases hs.copy.comparable b1 b2 u1 u2 with h | h
  · exact .inl (by rw [h])
  · exact .inr h

theorem purged_made {ws : Char → Bool} {fs : RelPath.FS} {gb : Banks γ} {stat : String → Option Nat} {s : State γ}
    (hs : Ready ws fs gb stat s) :
    ∃ w, Corpus.purge stat (PgcCp.world s) (PgcCp.corpus s) none = .ok w ∧ Made stat s w (PgcCp.corpus s) := by
  obtain ⟨w, h1, h2, h3, -, h5, h6, h7, -⟩ := Props.Corpus.purge_shares stat (PgcCp.world s) (PgcCp.corpus s) hs.comparable
  refine ⟨w, h1, h2, by rw [h3]; rfl, rfl, fun k hk => List.mem_range.1 hk, h5, ?_, h7⟩
  rw [h2]
  exact h6

theorem range_pairs {α : Type} (l : List α) : (List.range l.length).filterMap (fun k => l[k]?) = l := by
  induction l using List.reverseRecOn with
  | nil => rfl
  | append_singleton l a ih =>
    rw [List.length_append, List.length_singleton, List.range_succ, List.filterMap_append]
    congr 1
    · refine Eq.trans ?_ ih
      apply List.filterMap_congr
      intro k hk
      rw [List.getElem?_append_left (List.mem_range.1 hk)]
    · simp

/-- A corpus that was read, and can be written. -/
theorem ready_of_read {xml : Xml β} (hxml : Lawful xml) {fs : RelPath.FS} {cwd : List Text}
    (hcwd : Spec.RelPath.Place fs.link cwd) (hloops : ∀ q, (RelPath.locate fs cwd q).isSome) {stat : String → Option Nat}
    {gb : Banks γ} {fn : Text} {c : β} {s : State γ} (h : readAt xml fs cwd gb fn c = .ok s)
    (hc : Copyable stat xml.ws s) (hl : Loadable gb stat s) : Ready xml.ws fs gb stat s := by
  have hp : Pgc.parse (envAt xml fs cwd gb fn) .sparse (xml.parse c).1 = .ok s := by
    unfold readAt at h
    rcases h1 : Pgc.parse (envAt xml fs cwd gb fn) .sparse (xml.parse c).1 with e | s'
    · rw [h1] at h; cases h
    · rw [h1] at h
      dsimp only at h
      rcases h2 : (xml.parse c).2 with _ | e
      · rw [h2] at h; rw [← Except.ok.inj h]
      · rw [h2] at h; cases h
  have hI := readInv_sparse hp fun e he => hxml.texts c e he
  refine ⟨⟨hI.wf, hI.pairs, hI.metaIs, hI.rels, fun k b _ => ⟨b.path, rfl⟩⟩, ?_, hc, hl⟩
  intro k b hk
  obtain ⟨x, hx⟩ := hI.paths k b hk
  obtain ⟨l, h1, h2⟩ := Props.PgcCp.bankPath_some hcwd hloops fn x
  refine ⟨l, h1, ?_⟩
  rw [hx]
  change (RelPath.bankPath fs cwd fn x).getD x = _
  rw [h2]; rfl

/-! ### Joining -/

theorem tag_inj {c : Char} {i j : String} (h : tag c i = tag c j) : i = j := by
  unfold tag at h
  have := congrArg String.toList h
  rw [String.toList_ofList, String.toList_ofList] at this
  exact String.toList_injective (List.cons.inj this).2

theorem tag_ne {c d : Char} (hcd : c ≠ d) (i j : String) : tag c i ≠ tag d j := by
  intro h
  unfold tag at h
  have := congrArg String.toList h
  rw [String.toList_ofList, String.toList_ofList] at this
  exact hcd (List.cons.inj this).1

theorem tagBanks_get (c : Char) (d : AD (Option String) (Bank γ)) (i : String) :
    (tagBanks c d).get? (some (tag c i)) = d.get? (some i) := by
  induction d with
  | nil => rfl
  | cons e d ih =>
    obtain ⟨k, b⟩ := e
    unfold tagBanks at ih ⊢
    rw [List.filterMap_cons, AD.get?_cons]
    cases k with
    | none => simpa using ih
    | some k =>
      dsimp only [Option.map_some]
      rw [AD.get?_cons, ih]
      by_cases h : k = i
      · subst h; simp
      · rw [if_neg, if_neg]
        · simpa using h
        · intro h'
          exact h (tag_inj (Option.some.inj h'))

theorem tagBanks_keys {c : Char} {d : AD (Option String) (Bank γ)} {k : Option String} (h : k ∈ (tagBanks c d).keys) :
    ∃ i, k = some (tag c i) ∧ some i ∈ d.keys := by
  unfold AD.keys at h
  obtain ⟨e, he, rfl⟩ := List.mem_map.1 h
  unfold tagBanks at he
  obtain ⟨a, ha, hae⟩ := List.mem_filterMap.1 he
  obtain ⟨i, hi, rfl⟩ := Option.map_eq_some_iff.1 hae
  exact ⟨i, rfl, List.mem_map.2 ⟨a, ha, hi⟩⟩

theorem tagBanks_wf {c : Char} {d : AD (Option String) (Bank γ)} (h : d.WF) : (tagBanks c d).WF := by
  induction d with
  | nil => exact AD.WF.nil
  | cons e d ih =>
    obtain ⟨k, b⟩ := e
    unfold AD.WF AD.keys at h
    rw [List.map_cons, List.nodup_cons] at h
    have ih := ih h.2
    cases k with
    | none => exact ih
    | some k =>
      change AD.WF ((some (tag c k), b) :: tagBanks c d)
      unfold AD.WF AD.keys
      rw [List.map_cons, List.nodup_cons]
      refine ⟨?_, ih⟩
      intro hm
      obtain ⟨i, h1, h2⟩ := tagBanks_keys hm
      rw [← tag_inj (Option.some.inj h1)] at h2
      exact h.1 h2

theorem get?_append {κ ν : Type} [DecidableEq κ] (d d' : AD κ ν) (k : κ) :
    AD.get? (d ++ d') k = (d.get? k).or (d'.get? k) := by
  induction d with
  | nil => simp
  | cons e d ih =>
    rw [List.cons_append, AD.get?_cons, AD.get?_cons, ih]
    split <;> rfl

theorem joined_left (s t : State γ) (i : String) :
    AD.get? (tagBanks 'l' s.banks ++ tagBanks 'r' t.banks) (some (tag 'l' i)) = s.banks.get? (some i) := by
  rw [get?_append, tagBanks_get, (AD.not_mem_keys_iff (tagBanks 'r' t.banks) _).1, Option.or_none]
  intro h
  obtain ⟨j, h1, -⟩ := tagBanks_keys h
  exact tag_ne (by decide) _ _ (Option.some.inj h1)

theorem joined_right (s t : State γ) (i : String) :
    AD.get? (tagBanks 'l' s.banks ++ tagBanks 'r' t.banks) (some (tag 'r' i)) = t.banks.get? (some i) := by
  rw [get?_append, tagBanks_get, (AD.not_mem_keys_iff (tagBanks 'l' s.banks) _).1, Option.none_or]
  intro h
  obtain ⟨j, h1, -⟩ := tagBanks_keys h
  exact tag_ne (by decide) _ _ (Option.some.inj h1)

theorem SameBank.of_get {stat : String → Option Nat} {s t t' : State γ} {i j j' : String} (h : SameBank stat s t i j)
    (hj : t'.banks.get? (some j') = t.banks.get? (some j)) : SameBank stat s t' i j' := by
  obtain ⟨b, b', h1, h2, h3, h4⟩ := h
  exact ⟨b, b', h1, by rw [hj]; exact h2, h3, h4⟩

theorem SamePair.tagged {R : Elem → Elem → Prop} {stat : String → Option Nat} {s t t' : State γ} {c : Char}
    (hg : ∀ i, t'.banks.get? (some (tag c i)) = t.banks.get? (some i)) {p q : PPair γ}
    (h : Spec.SplitJoin.SamePair R stat s t p q) : Spec.SplitJoin.SamePair R stat s t' p (tagPair c q) :=
  ⟨SameBank.of_get h.source (hg _), SameBank.of_get h.target (hg _), h.ids, h.metaIs, h.align⟩

theorem PairInv.tagged {s t : State γ} {c : Char} (hg : ∀ i, t.banks.get? (some (tag c i)) = s.banks.get? (some i))
    {p : PPair γ} (h : PairInv s p) : PairInv t (tagPair c p) :=
  ⟨h.ids, ⟨by rw [show (tagPair c p).sourceBank = tag c p.sourceBank from rfl, hg]; exact h.banks.1,
    by rw [show (tagPair c p).targetBank = tag c p.targetBank from rfl, hg]; exact h.banks.2⟩, h.align, h.metaIs, h.kept⟩

theorem joined {ws : Char → Bool} {fs : RelPath.FS} {gb : Banks γ} {stat : String → Option Nat} {s a t : State γ}
    {l m : List (PPair γ)} {f : Bool} (hs : Ready ws fs gb stat s) (hl : ∀ p ∈ l, p ∈ s.pairs) (hm : ∀ p ∈ m, p ∈ s.pairs)
    (ha : Same (Kept ws f) stat s l a) (ra : Ready ws fs gb stat a) (ht : Same (Kept ws f) stat s m t)
    (rt : Ready ws fs gb stat t) :
    ∃ j, addCorpus a t = .ok j ∧ Same (Kept ws f) stat s (l ++ m) j ∧ Ready ws fs gb stat j := by
  set j : State γ := { a with
    banks := tagBanks 'l' a.banks ++ tagBanks 'r' t.banks
    pairs := a.pairs.map (tagPair 'l') ++ t.pairs.map (tagPair 'r') } with hj
  have gl : ∀ i, j.banks.get? (some (tag 'l' i)) = a.banks.get? (some i) := joined_left a t
  have gr : ∀ i, j.banks.get? (some (tag 'r' i)) = t.banks.get? (some i) := joined_right a t
  have hsame : Same (Kept ws f) stat s (l ++ m) j := by
    refine ⟨ha.relations, ha.metaIs, ?_, ?_⟩
    · refine List.rel_append ?_ ?_
      · rw [List.forall₂_map_right_iff]
        exact ha.pairs.imp fun p q h => SamePair.tagged gl h
      · rw [List.forall₂_map_right_iff]
        exact ht.pairs.imp fun p q h => SamePair.tagged gr h
    · rintro b ⟨q, hq, i, hi, hb⟩
      rcases List.mem_append.1 hq with hq | hq
      · obtain ⟨q, hq', rfl⟩ := List.mem_map.1 hq
        apply ha.files b
        rcases hi with rfl | rfl
        · exact ⟨q, hq', _, .inl rfl, by rw [← gl]; exact hb⟩
        · exact ⟨q, hq', _, .inr rfl, by rw [← gl]; exact hb⟩
      · obtain ⟨q, hq', rfl⟩ := List.mem_map.1 hq
        apply ht.files b
        rcases hi with rfl | rfl
        · exact ⟨q, hq', _, .inl rfl, by rw [← gr]; exact hb⟩
        · exact ⟨q, hq', _, .inr rfl, by rw [← gr]; exact hb⟩
  have hkey : ∀ k b, j.banks.get? k = some b → (∃ i, a.banks.get? i = some b) ∨ ∃ i, t.banks.get? i = some b := by
    intro k b hk
    have hmem : k ∈ j.banks.keys := (AD.mem_keys_iff _ _).2 (by rw [hk]; rfl)
    have : k ∈ (tagBanks 'l' a.banks).keys ∨ k ∈ (tagBanks 'r' t.banks).keys := by
      rw [hj] at hmem
      unfold AD.keys at hmem ⊢
      rw [List.map_append, List.mem_append] at hmem
      exact hmem
    rcases this with h | h
    · obtain ⟨i, rfl, -⟩ := tagBanks_keys h
      rw [gl] at hk
      exact .inl ⟨_, hk⟩
    · obtain ⟨i, rfl, -⟩ := tagBanks_keys h
      rw [gr] at hk
      exact .inr ⟨_, hk⟩
  refine ⟨j, ?_, hsame, hs.of_same hsame ?_ ?_ ?_⟩
  · unfold addCorpus
    rw [if_neg (not_not.2 (ha.relations.trans ht.relations.symm))]
  · intro p hp
    rcases List.mem_append.1 hp with h | h
    exacts [hl p h, hm p h]
  · refine ⟨?_, ?_, ra.inv.metaIs, ra.inv.rels, fun k b _ => ⟨b.path, rfl⟩⟩
    · rw [hj]
      unfold AD.WF AD.keys
      dsimp only
      rw [List.map_append]
      refine List.Nodup.append (tagBanks_wf ra.inv.wf) (tagBanks_wf rt.inv.wf) ?_
      intro k h1 h2
      obtain ⟨i, rfl, -⟩ := tagBanks_keys h1
      obtain ⟨i', h3, -⟩ := tagBanks_keys h2
      exact tag_ne (by decide) _ _ (Option.some.inj h3)
    · intro p hp
      rcases List.mem_append.1 hp with hp | hp
      · obtain ⟨q, hq, rfl⟩ := List.mem_map.1 hp
        exact PairInv.tagged gl (ra.inv.pairs q hq)
      · obtain ⟨q, hq, rfl⟩ := List.mem_map.1 hp
        exact PairInv.tagged gr (rt.inv.pairs q hq)
  · intro k b hk
    rcases hkey k b hk with ⟨i, hi⟩ | ⟨i, hi⟩
    · exact ra.placed i b hi
    · exact rt.placed i b hi

/-! ### Twice -/

theorem kept_trans {ws : Char → Bool} {f g : Bool} {a b c : Elem} (h : Kept ws f a b) (h' : Kept ws g b c) :
    Kept ws (f || g) a c := by
  cases f with
  | false =>
    have h : b = a := h
    subst h
    exact h'
  | true =>
    cases g with
    | false =>
      have h' : c = b := h'
      subst h'
      exact h
    | true => exact Props.Pgc.respaced_trans _ _ _ h h'

theorem SameBank.trans {stat : String → Option Nat} {s t u : State γ} {i j k : String} (h : SameBank stat s t i j)
    (h' : SameBank stat t u j k) : SameBank stat s u i k := by
  obtain ⟨b, b', h1, h2, h3, h4⟩ := h
  obtain ⟨c, c', k1, k2, k3, k4⟩ := h'
  rw [h2] at k1
  obtain rfl := Option.some.inj k1
  exact ⟨b, c', h1, k2, Corpus.sameFile_trans h3 k3, k4.trans h4⟩

theorem forall₂_trans {α δ ε : Type} {P : α → δ → Prop} {Q : δ → ε → Prop} {R : α → ε → Prop}
    (h : ∀ a b c, P a b → Q b c → R a c) {l : List α} {m : List δ} {n : List ε} (h1 : List.Forall₂ P l m)
    (h2 : List.Forall₂ Q m n) : List.Forall₂ R l n := by
  induction h1 generalizing n with
  | nil => cases h2; exact .nil
  | cons a _ ih =>
    cases h2 with
    | cons b h2 => exact .cons (h _ _ _ a b) (ih h2)

theorem kept_children {ws : Char → Bool} {f : Bool} {e e' : Elem} (h : Kept ws f e e') : e'.children = [] ↔ e.children = [] := by
  have := (kept_spaced ws f e e' h).2.2.2.length_eq
  rw [← List.length_eq_zero_iff, ← List.length_eq_zero_iff, this]

theorem same_trans {ws : Char → Bool} {f g : Bool} {stat : String → Option Nat} {s t u : State γ} {l : List (PPair γ)}
    (h : Same (Kept ws f) stat s l t) (h' : Same (Kept ws g) stat t t.pairs u) : Same (Kept ws (f || g)) stat s l u := by
  refine ⟨h'.relations.trans h.relations, ?_, forall₂_trans ?_ h.pairs h'.pairs, ?_⟩
  · have h1 := h.metaIs
    have h2 := h'.metaIs
    cases hs : s.meta with
    | none =>
      rw [hs] at h1
      dsimp only at h1 ⊢
      rw [h1] at h2
      exact h2
    | some e =>
      rw [hs] at h1
      dsimp only at h1 ⊢
      by_cases hc : e.children = []
      · rw [if_pos hc] at h1 ⊢
        rw [h1] at h2
        exact h2
      · rw [if_neg hc] at h1 ⊢
        obtain ⟨e', h3, h4⟩ := h1
        rw [h3] at h2
        dsimp only at h2
        rw [if_neg (fun h => hc ((kept_children h4).1 h))] at h2
        obtain ⟨e'', h5, h6⟩ := h2
        exact ⟨e'', h5, kept_trans h4 h6⟩
  · intro p q r hp hq
    refine ⟨SameBank.trans hp.source hq.source, SameBank.trans hp.target hq.target,
      ⟨hq.ids.1.trans hp.ids.1, hq.ids.2.trans hp.ids.2⟩, ?_, fun x y => (hq.align x y).trans (hp.align x y)⟩
    have h1 := hp.metaIs
    have h2 := hq.metaIs
    by_cases hc : p.meta.children = []
    · rw [if_pos hc] at h1 ⊢
      rw [h1] at h2
      exact h2
    · rw [if_neg hc] at h1 ⊢
      rw [if_neg (fun h => hc ((kept_children h1).1 h))] at h2
      exact kept_trans h1 h2
  · intro b hb
    obtain ⟨b', h1, h2⟩ := h'.files b hb
    obtain ⟨b'', h3, h4⟩ := h.files b' h1
    exact ⟨b'', h3, h2.trans h4⟩

/-- What a corpus is joined with, in turn. -/
theorem joined_all {ps : Paths} {xml : Xml β} {fs : RelPath.FS} {cwd : List Text} {gb : Banks γ} {disk : Disk β}
    {stat : String → Option Nat} {s : State γ} {f : Bool} (hs : Ready xml.ws fs gb stat s) {fns : List Text}
    {ls : List (List (PPair γ))}
    (h : List.Forall₂ (fun fn l => (∀ p ∈ l, p ∈ s.pairs) ∧ ∃ t, readFile ps xml fs cwd gb disk fn = .ok t ∧
      Same (Kept xml.ws f) stat s l t ∧ Ready xml.ws fs gb stat t) fns ls) :
    ∀ a l, (∀ p ∈ l, p ∈ s.pairs) → Same (Kept xml.ws f) stat s l a → Ready xml.ws fs gb stat a →
      ∃ j, Py.forIn fns a (joinStep ps xml fs cwd gb disk) = .ok j ∧ Same (Kept xml.ws f) stat s (l ++ ls.flatten) j ∧ Ready xml.ws fs gb stat j := by
  induction h with
  | nil => intro a l _ ha hr; exact ⟨a, rfl, by simpa using ha, hr⟩
  | @cons fn m fns ls h1 _ ih =>
    intro a l hl ha ra
    obtain ⟨hm, t, e1, e2, e3⟩ := h1
    obtain ⟨j, k1, k2, k3⟩ := joined hs hl hm ha ra e2 e3
    obtain ⟨j', q1, q2, q3⟩ := ih j (l ++ m) (by
      intro p hp
      rcases List.mem_append.1 hp with h | h
      exacts [hl p h, hm p h]) k2 k3
    refine ⟨j', ?_, by rw [List.flatten_cons, ← List.append_assoc]; exact q2, q3⟩
    simp only [Py.forIn, joinStep, e1, k1] at q1 ⊢
    exact q1

end Verif.SplitJoin
