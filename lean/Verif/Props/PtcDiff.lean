import Verif.Lemmas.HitaextNth
import Verif.Model.PtcDiff
import Verif.Spec.PtcDiff

/-! Property C64 (lib/daeso/ptc/diff.py). -/
namespace Verif.Props.PtcDiff
open Verif Verif.Etree Verif.Spec Verif.IElemTree Verif.HitaextDoc Verif.PtcDiff Verif.Props.IElemTree

/-- The elements of a corpus that its alignment aligns with a source element, in the order of the links. -/
def targets (c : Corpus) (e : Tree) : List Tree :=
  c.doc.links.filterMap fun l =>
    if (linkSource (c.doc.method = some "id") c.source l).map Tree.addr = some e.addr then
      linkTarget (c.doc.method = some "id") c.target l
    else none

/-- The elements are objects of their own, the alignment method is one of the known ones, and both ends of every link
designate an element. -/
structure Valid (c : Corpus) : Prop where
  source : Distinct c.source
  target : Distinct c.target
  method : c.doc.method = none ∨ c.doc.method = some "n" ∨ c.doc.method = some "id"
  links : ∀ l ∈ c.doc.links, (linkSource (c.doc.method = some "id") c.source l).isSome ∧
    (linkTarget (c.doc.method = some "id") c.target l).isSome

/-- The source elements with a tag, in document order. -/
def tagged (c : Corpus) (tag : String) : List Tree := (elems c.source).filter fun e => e.tag = tag

/-- An alignment as it is printed, without its number: heading, ids and texts. -/
abbrev Said := Side × Option String × Option String × Text × Text

/-- What an entry says. -/
def said (e : Entry) : Said := (e.side, e.fromId, e.toId, e.fromText, e.toText)

/-- What should be printed about an alignment. -/
def report (ws : Char → Bool) (side : Side) (e x : Tree) : Said :=
  (side, e.id, x.id, content { ws := ws } e, content { ws := ws } x)

/-- The alignments of `e` in the first corpus with an element whose id none of the alignments of `f` in the second
corpus has. -/
def missing (c d : Corpus) (e f : Tree) : List Tree :=
  (targets c e).filter fun x => ∀ y ∈ targets d f, y.id ≠ x.id

private theorem byId_ok' {t : Tree} {tag : String} {id : Option String} {e : Tree} (o : Opts) (s : St)
    (h : byId t tag id = some e) : e ∈ elems t ∧
      ∃ l, (update o t s).st.ids.get? tag = some l ∧ l.get? id = some e.addr := by
  have hm := List.mem_of_getLast? h
  rw [List.mem_filter] at hm
  have h1 := id_lookup o t s tag id
  unfold byId at h
  rw [h] at h1
  obtain ⟨l, h2, h3⟩ := Option.bind_eq_some_iff.1 h1
  exact ⟨hm.1, l, h2, h3⟩

private theorem designated_mem {b : Bool} {t : Tree} {tag n id} {e : Tree} (hd : Distinct t)
    (h : designated b t tag n id = some e) : e ∈ elems t := by
  unfold designated at h
  cases tag with
  | none => simp at h
  | some tag =>
    cases b with
    | true => exact (byId_ok' { ws := fun _ => false } fresh (by simpa using h)).1
    | false =>
      obtain ⟨k, -, h⟩ := Option.bind_eq_some_iff.1 (by simpa using h)
      exact (nth_ok { ws := fun _ => false } fresh hd h).1

private theorem resolve_ok (o : Opts) {c : Corpus} (hv : Valid c) {l : Link} {e x : Tree}
    (h : linkSource (c.doc.method = some "id") c.source l = some e)
    (h' : linkTarget (c.doc.method = some "id") c.target l = some x) :
    (if c.doc.method = some "id" then resolveId else resolveN) (update o c.source fresh).st (update o c.target fresh).st l =
      .ok (e.addr, x.addr) := by
  unfold linkSource designated at h
  unfold linkTarget designated at h'
  cases hf : l.fromTag with
  | none => simp [hf] at h
  | some ft =>
    cases ht : l.toTag with
    | none => simp [ht] at h'
    | some tt =>
      rw [hf] at h; rw [ht] at h'
      by_cases hm : c.doc.method = some "id"
      · simp only [hm] at h h' ⊢
        obtain ⟨-, l1, a1, a2⟩ := byId_ok' o fresh (by simpa using h)
        obtain ⟨-, l2, b1, b2⟩ := byId_ok' o fresh (by simpa using h')
        simp only [if_true, resolveId, hf, ht, lookTag, AD.get_eq a1, AD.get_eq a2, AD.get_eq b1, AD.get_eq b2, bind, Except.bind]
      · simp only [hm] at h h' ⊢
        obtain ⟨i, hi, h⟩ := Option.bind_eq_some_iff.1 (by simpa using h)
        obtain ⟨j, hj, h'⟩ := Option.bind_eq_some_iff.1 (by simpa using h')
        obtain ⟨-, -, -, -, l1, a1, a2⟩ := nth_ok o fresh hv.source h
        obtain ⟨-, -, -, -, l2, b1, b2⟩ := nth_ok o fresh hv.target h'
        simp only [if_false, resolveN, hf, ht, hi, hj, HitaextDoc.int, lookTag, AD.get_eq a1, AD.get_eq b1, a2, b2, bind,
          Except.bind]

private theorem inject_eq {c : Corpus} (hv : Valid c) (s : St × St) : inject c.doc s =
    Py.forIn c.doc.links s fun l s => match (if c.doc.method = some "id" then resolveId else resolveN) s.1 s.2 l with
      | .ok p => .ok (join p s)
      | .error e => .error e := by
  unfold inject
  rcases hv.method with h | h | h <;> rw [h]
  · rfl
  · simp only [if_true]
    rfl
  · simp only [if_true]
    rfl

private theorem visible_all (ws : Char → Bool) (t : Tree) : visible { ws := ws } t = elems t := by
  have key : (∀ t : Tree, visible { ws := ws } t = elems t) := by
    intro t
    induction t using Tree.rec (motive_2 := fun ts => visibleOf { ws := ws } ts = elemsOf ts) with
    | node a tag id text tail cs ih => simp [visible, elems, ih]
    | nil => rfl
    | cons c cs h1 h2 => simp [visibleOf, elemsOf, h1, h2]
  exact key t

/-- What is known of a corpus that was read. -/
private structure Knows (ws : Char → Bool) (c : Corpus) (I : Indexed) : Prop where
  sroot : I.source.root = c.source
  troot : I.target.root = c.target
  aligns : ∀ e ∈ elems c.source, I.source.st.aligns e.addr = (targets c e).map Tree.addr
  count : ∀ tag, I.source.st.count.get tag =
    if tagged c tag = [] then .error .keyError else .ok ((tagged c tag).map Tree.addr)
  stext : ∀ e ∈ elems c.source, getElemText I.source e.addr = content { ws := ws } e
  ttext : ∀ e ∈ elems c.target, getElemText I.target e.addr = content { ws := ws } e

private theorem targets_mem {c : Corpus} (hv : Valid c) {e x : Tree} (h : x ∈ targets c e) : x ∈ elems c.target := by
  obtain ⟨l, -, h⟩ := List.mem_filterMap.1 h
  split at h
  · exact designated_mem hv.target h
  · simp at h

private theorem read_knows (ws : Char → Bool) (c : Corpus) (hv : Valid c) :
    ∃ I, readCorpus ws c = .ok I ∧ Knows ws c I := by
  have hps : ∃ ps, List.Forall₂ (fun l (p : Nat × Nat) =>
      (if c.doc.method = some "id" then resolveId else resolveN) (update { ws := ws } c.source fresh).st
        (update { ws := ws } c.target fresh).st l = .ok p ∧
      (linkSource (c.doc.method = some "id") c.source l).map Tree.addr = some p.1 ∧
      (linkTarget (c.doc.method = some "id") c.target l).map Tree.addr = some p.2) c.doc.links ps := by
    have := hv.links
    revert this
    generalize c.doc.links = links
    intro hl
    induction links with
    | nil => exact ⟨[], .nil⟩
    | cons l links ih =>
      obtain ⟨ps, h⟩ := ih fun x hx => hl x (by simp [hx])
      obtain ⟨e, he⟩ := Option.isSome_iff_exists.1 (hl l (by simp)).1
      obtain ⟨x, hx⟩ := Option.isSome_iff_exists.1 (hl l (by simp)).2
      exact ⟨(e.addr, x.addr) :: ps, .cons ⟨resolve_ok _ hv he hx, by rw [he]; rfl, by rw [hx]; rfl⟩ h⟩
  obtain ⟨ps, hps⟩ := hps
  have hloop := inject_loop (if c.doc.method = some "id" then resolveId else resolveN)
    (by split; exact resolveId_same; exact resolveN_same) c.doc.links ps
    ((update { ws := ws } c.source fresh).st, (update { ws := ws } c.target fresh).st) (hps.imp fun _ _ h => h.1)
  obtain ⟨same1, same2⟩ := joinAll_same ps ((update { ws := ws } c.source fresh).st, (update { ws := ws } c.target fresh).st)
  have hal := joinAll_aligns ps ((update { ws := ws } c.source fresh).st, (update { ws := ws } c.target fresh).st)
  revert hloop same1 same2 hal
  generalize joinAll ps ((update { ws := ws } c.source fresh).st, (update { ws := ws } c.target fresh).st) = R
  intro hloop same1 same2 hal
  have hinj := (inject_eq hv _).trans hloop
  refine ⟨_, by simp only [readCorpus, hinj, bind, Except.bind]; rfl, rfl, rfl, ?_, ?_, ?_, ?_⟩
  · intro e he
    show R.1.aligns e.addr = _
    rw [(hal e.addr).1, no_alignments _ _ _ hv.source e he]
    unfold targets
    clear hal hloop same1 same2
    simp only [List.nil_append]
    have hln := hv.links
    revert hps
    generalize c.doc.links = links
    intro hps
    clear hln
    induction hps with
    | nil => rfl
    | @cons l p links ps h hps ih =>
      obtain ⟨-, h1, h2⟩ := h
      obtain ⟨x, hx, hx2⟩ := Option.map_eq_some_iff.1 h2
      by_cases hp : p.1 = e.addr
      · rw [List.filterMap_cons]
        simp only [h1, hp, if_true, hx, List.map_cons, List.filter_cons]
        simp [ih, hx2]
      · rw [List.filterMap_cons]
        simp only [h1, Option.some.injEq, hp, if_false, List.filter_cons]
        simpa using ih
  · intro tag
    show R.1.count.get tag = _
    rw [same1.count]
    have hc := (numbering { ws := ws } c.source fresh hv.source).1 tag
    by_cases ht : tagged c tag = []
    · rw [if_pos ht]
      rw [if_neg] at hc
      · simp only [AD.get, hc]
      · rw [List.any_eq_true]
        rintro ⟨e, h1, h2⟩
        have : e ∈ tagged c tag := List.mem_filter.2 ⟨h1, h2⟩
        rw [ht] at this
        simp at this
    · rw [if_neg ht]
      obtain ⟨e, he⟩ := List.exists_mem_of_ne_nil _ ht
      obtain ⟨h1, h2⟩ := List.mem_filter.1 he
      rw [if_pos (List.any_eq_true.2 ⟨e, h1, h2⟩)] at hc
      exact AD.get_eq hc
  · intro e he
    rw [← element_text { ws := ws } c.source fresh hv.source e (by rw [visible_all]; exact he)]
    unfold getElemText
    simp only [same1.start, same1.stop]
  · intro e he
    rw [← element_text { ws := ws } c.target fresh hv.target e (by rw [visible_all]; exact he)]
    unfold getElemText
    simp only [same2.start, same2.stop]

private theorem idsOf_ok (t : Tree) (hd : Distinct t) (l : List Tree) (h : ∀ x ∈ l, x ∈ elems t) :
    idsOf t (l.map Tree.addr) = .ok (l.map Tree.id) := by
  induction l with
  | nil => rfl
  | cons x l ih =>
    rw [List.map_cons, idsOf, elemAt_of t hd x (h x (by simp))]
    simp only [bind, Except.bind, ih fun y hy => h y (by simp [hy])]
    rfl

/-- The entries are these, numbered from the given number on. -/
private def Listed (n : Nat) (out : List Entry) (l : List Said) : Prop :=
  out.map said = l ∧ out.map (fun e => e.number) = List.range' (n + 1) l.length

private theorem Listed.append {n : Nat} {out out' : List Entry} {l l' : List Said} (h : Listed n out l)
    (h' : Listed (n + l.length) out' l') : Listed n (out ++ out') (l ++ l') := by
  obtain ⟨h1, h2⟩ := h
  obtain ⟨h3, h4⟩ := h'
  refine ⟨by simp [h1, h3], ?_⟩
  rw [List.map_append, h2, h4, List.length_append, ← List.range'_append_1]
  congr 2
  omega

private theorem onlyIn_ok {ws : Char → Bool} {side : Side} {c d : Corpus} {C D : Indexed} (hc : Valid c) (hd : Valid d)
    (kc : Knows ws c C) (kd : Knows ws d D) {e f : Tree} (he : e ∈ elems c.source) (hf : f ∈ elems d.source)
    (s : Nat × List Entry) :
    ∃ out, onlyIn side C D e.addr f.addr s = .ok (s.1 + (missing c d e f).length, s.2 ++ out) ∧
      Listed s.1 out ((missing c d e f).map (report ws side e)) := by
  unfold onlyIn missing
  have hsub : ∀ x ∈ targets c e, x ∈ elems c.target := fun x hx => targets_mem hc hx
  have hids : idsOf D.target.root (D.source.st.aligns f.addr) = .ok ((targets d f).map Tree.id) := by
    rw [kd.troot, kd.aligns f hf]; exact idsOf_ok _ hd.target _ fun x hx => targets_mem hd hx
  rw [kc.aligns e he]
  revert hsub
  generalize targets c e = l
  intro hsub
  rw [forIn_map]
  induction l generalizing s with
  | nil => exact ⟨[], by simp [Py.forIn], rfl, rfl⟩
  | cons x l ih =>
    have hx := hsub x (by simp)
    rw [Py.forIn]
    have hstep : onlyStep side C D e.addr f.addr x.addr s =
        if x.id ∈ (targets d f).map Tree.id then .ok s
        else .ok (s.1 + 1, s.2 ++ [⟨s.1 + 1, side, e.id, x.id, content { ws := ws } e, content { ws := ws } x⟩]) := by
      simp only [onlyStep, kc.troot, kc.sroot, elemAt_of _ hc.target x hx, elemAt_of _ hc.source e he, hids, kc.stext e he,
        kc.ttext x hx, bind, Except.bind]
      rfl
    rw [hstep]
    by_cases hm : x.id ∈ (targets d f).map Tree.id
    · have hdec : decide (∀ y ∈ targets d f, y.id ≠ x.id) = false := by
        obtain ⟨y, hy, hyx⟩ := List.mem_map.1 hm
        exact decide_eq_false fun h => h y hy hyx
      rw [if_pos hm, List.filter_cons, hdec]
      exact ih s fun y hy => hsub y (by simp [hy])
    · have hdec : decide (∀ y ∈ targets d f, y.id ≠ x.id) = true :=
        decide_eq_true fun y hy hyx => hm (List.mem_map.2 ⟨y, hy, hyx⟩)
      rw [if_neg hm, List.filter_cons, hdec]
      obtain ⟨out, h1, h2⟩ := ih (s.1 + 1, s.2 ++ [⟨s.1 + 1, side, e.id, x.id, content { ws := ws } e, content { ws := ws } x⟩])
        fun y hy => hsub y (by simp [hy])
      refine ⟨⟨s.1 + 1, side, e.id, x.id, content { ws := ws } e, content { ws := ws } x⟩ :: out, ?_, ?_⟩
      · refine h1.trans ?_
        simp only [if_true, List.length_cons, List.append_assoc, List.singleton_append]
        congr 2
        omega
      · exact Listed.append (out := [_]) (l := [report ws side e x]) ⟨rfl, rfl⟩ h2

/-- C64.  The elements with this tag in the two source documents are compared pairwise, in document order.  For each pair
are printed: the alignments of the true corpus whose target id does not occur among the targets in the predicted corpus,
then the alignments of the predicted corpus whose target id does not occur among those in the true corpus, with the ids and
the texts of both elements.  The entries are numbered from 1. -/
theorem printed_exact (ws : Char → Bool) (t p : Corpus) (ht : Valid t) (hp : Valid p) (tag : String)
    (hte : tagged t tag ≠ []) (hpe : tagged p tag ≠ []) :
    ∃ out, printDiff ws t p tag = .ok out ∧ out.map (fun e => e.number) = List.range' 1 out.length ∧
      out.map said = ((tagged t tag).zip (tagged p tag)).flatMap fun x =>
        (missing t p x.1 x.2).map (report ws .trueOnly x.1) ++ (missing p t x.2 x.1).map (report ws .predOnly x.2) := by
  obtain ⟨T, e1, kt⟩ := read_knows ws t ht
  obtain ⟨P, e2, kp⟩ := read_knows ws p hp
  have h3 : T.source.st.count.get tag = .ok ((tagged t tag).map Tree.addr) := by rw [kt.count, if_neg hte]
  have h4 : P.source.st.count.get tag = .ok ((tagged p tag).map Tree.addr) := by rw [kp.count, if_neg hpe]
  have hz : ((tagged t tag).map Tree.addr).zip ((tagged p tag).map Tree.addr) =
      ((tagged t tag).zip (tagged p tag)).map fun x => (x.1.addr, x.2.addr) := by
    rw [List.zip_map]; rfl
  obtain ⟨s, h5, h6, h7⟩ := Py.forIn_inv (l := (tagged t tag).zip (tagged p tag)) (s := ((0, []) : Nat × List Entry))
    (f := fun x => bothWays T P (x.1.addr, x.2.addr))
    (fun pre s => s.1 = s.2.length ∧ Listed 0 s.2 (pre.flatMap fun x =>
        (missing t p x.1 x.2).map (report ws .trueOnly x.1) ++ (missing p t x.2 x.1).map (report ws .predOnly x.2)))
    ⟨rfl, rfl, rfl⟩ (by
      intro pre x suf s hl hs
      have hx : x ∈ (tagged t tag).zip (tagged p tag) := by rw [hl]; simp
      obtain ⟨m1, m2⟩ := List.of_mem_zip (show (x.1, x.2) ∈ _ from hx)
      have m1 := (List.mem_filter.1 m1).1
      have m2 := (List.mem_filter.1 m2).1
      obtain ⟨o1, g1, g2⟩ := onlyIn_ok (side := .trueOnly) ht hp kt kp m1 m2 s
      obtain ⟨o2, g3, g4⟩ := onlyIn_ok (side := .predOnly) hp ht kp kt m2 m1 (s.1 + (missing t p x.1 x.2).length, s.2 ++ o1)
      have l1 := congrArg List.length g2.1
      have l2 := congrArg List.length g4.1
      have l3 := congrArg List.length hs.2.1
      simp only [List.length_map] at l1 l2 l3
      refine ⟨_, by simp only [bothWays, g1, g3, bind, Except.bind]; rfl, ?_, ?_⟩
      · simp [hs.1, l1, l2]; omega
      · rw [List.flatMap_append, List.append_assoc]
        refine hs.2.append ?_
        rw [← l3, ← hs.1, Nat.zero_add]
        simp only [List.flatMap_cons, List.flatMap_nil, List.append_nil]
        exact g2.append (by rw [List.length_map]; exact g4))
  refine ⟨s.2, ?_, ?_, h7.1⟩
  · unfold printDiff
    simp only [e1, e2, h3, h4, hz, bind, Except.bind, forIn_map, h5]
    rfl
  · rw [h7.2, ← h7.1, List.length_map]

/-- C64.  When no element of one of the source documents has the tag, KeyError is raised. -/
theorem unknown_tag (ws : Char → Bool) (t p : Corpus) (ht : Valid t) (hp : Valid p) (tag : String)
    (h : tagged t tag = [] ∨ tagged p tag = []) : printDiff ws t p tag = .error .keyError := by
  obtain ⟨T, e1, kt⟩ := read_knows ws t ht
  obtain ⟨P, e2, kp⟩ := read_knows ws p hp
  unfold printDiff
  by_cases h1 : tagged t tag = []
  · simp only [e1, e2, kt.count, h1, if_true, bind, Except.bind]
  · simp only [e1, e2, kt.count, kp.count, h1, h.resolve_left h1, if_true, if_false, bind, Except.bind]

private theorem zip_same {α : Type} (l : List α) : l.zip l = l.map fun x => (x, x) := by
  induction l with
  | nil => rfl
  | cons x l ih => simp [ih]

private theorem printed_iff {t p : Corpus} {l : List (Tree × Tree)} {ws : Char → Bool} {x : Said} :
    x ∈ (l.flatMap fun x => (missing t p x.1 x.2).map (report ws .trueOnly x.1) ++
        (missing p t x.2 x.1).map (report ws .predOnly x.2)) ↔
      (∃ e f, (e, f) ∈ l ∧ ∃ y ∈ missing t p e f, x = report ws .trueOnly e y) ∨
      (∃ e f, (e, f) ∈ l ∧ ∃ y ∈ missing p t f e, x = report ws .predOnly f y) := by
  simp only [List.mem_flatMap, List.mem_append, List.mem_map, Prod.exists]
  constructor
  · rintro ⟨e, f, h, ⟨y, h1, rfl⟩ | ⟨y, h1, rfl⟩⟩
    · exact Or.inl ⟨e, f, h, y, h1, rfl⟩
    · exact Or.inr ⟨e, f, h, y, h1, rfl⟩
  · rintro (⟨e, f, h, y, h1, rfl⟩ | ⟨e, f, h, y, h1, rfl⟩)
    · exact ⟨e, f, h, Or.inl ⟨y, h1, rfl⟩⟩
    · exact ⟨e, f, h, Or.inr ⟨y, h1, rfl⟩⟩

/-- The elements of a document have different ids. -/
def IdsDiffer (t : Tree) : Prop := ((elems t).map Tree.id).Nodup

/-- C64.  For two alignments of the same documents, whose target elements have different ids, this is exactly the
difference: an alignment of an element with the tag is printed as true only when it is in the true and not in the predicted
corpus, and as predicted only when it is the other way round. -/
theorem printed_difference (ws : Char → Bool) (t p : Corpus) (ht : Valid t) (hp : Valid p) (hs : p.source = t.source)
    (hT : p.target = t.target) (hid : IdsDiffer t.target) (tag : String) (hte : tagged t tag ≠ []) :
    ∃ out, printDiff ws t p tag = .ok out ∧ ∀ x, x ∈ out.map said ↔
      (∃ e ∈ tagged t tag, ∃ y, y ∈ targets t e ∧ y ∉ targets p e ∧ x = report ws .trueOnly e y) ∨
      (∃ e ∈ tagged t tag, ∃ y, y ∈ targets p e ∧ y ∉ targets t e ∧ x = report ws .predOnly e y) := by
  have htag : tagged p tag = tagged t tag := by unfold tagged; rw [hs]
  obtain ⟨out, h1, -, h2⟩ := printed_exact ws t p ht hp tag hte (by rw [htag]; exact hte)
  have hmem : ∀ x ∈ elems t.target, ∀ (l : List Tree), (∀ y ∈ l, y ∈ elems t.target) → ((∀ y ∈ l, y.id ≠ x.id) ↔ x ∉ l) := by
    intro x hx l hl
    constructor
    · exact fun h hm => h x hm rfl
    · intro h y hy hyx
      exact h (List.inj_on_of_nodup_map hid (hl y hy) hx hyx ▸ hy)
  have m1 : ∀ e y, y ∈ missing t p e e ↔ y ∈ targets t e ∧ y ∉ targets p e := by
    intro e y
    unfold missing
    rw [List.mem_filter, decide_eq_true_eq]
    exact and_congr_right fun hy => hmem y (targets_mem ht hy) _ fun z hz => hT ▸ targets_mem hp hz
  have m2 : ∀ e y, y ∈ missing p t e e ↔ y ∈ targets p e ∧ y ∉ targets t e := by
    intro e y
    unfold missing
    rw [List.mem_filter, decide_eq_true_eq]
    exact and_congr_right fun hy => hmem y (hT ▸ targets_mem hp hy) _ fun z hz => targets_mem ht hz
  refine ⟨out, h1, fun x => ?_⟩
  rw [h2, printed_iff, htag, zip_same]
  simp only [List.mem_map, Prod.mk.injEq]
  refine or_congr ⟨?_, ?_⟩ ⟨?_, ?_⟩
  · rintro ⟨e, f, ⟨z, hz, rfl, rfl⟩, y, hy, rfl⟩
    obtain ⟨a, b⟩ := (m1 _ _).1 hy
    exact ⟨z, hz, y, a, b, rfl⟩
  · rintro ⟨e, he, y, a, b, rfl⟩
    exact ⟨e, e, ⟨e, he, rfl, rfl⟩, y, (m1 _ _).2 ⟨a, b⟩, rfl⟩
  · rintro ⟨e, f, ⟨z, hz, rfl, rfl⟩, y, hy, rfl⟩
    obtain ⟨a, b⟩ := (m2 _ _).1 hy
    exact ⟨z, hz, y, a, b, rfl⟩
  · rintro ⟨e, he, y, a, b, rfl⟩
    exact ⟨e, e, ⟨e, he, rfl, rfl⟩, y, (m2 _ _).2 ⟨a, b⟩, rfl⟩

/-- C64.  A corpus does not differ from itself, or from one with the same alignments in another order or number. -/
theorem printed_nothing (ws : Char → Bool) (t p : Corpus) (ht : Valid t) (hp : Valid p) (tag : String)
    (hte : tagged t tag ≠ []) (hpe : tagged p tag ≠ [])
    (h : ∀ x ∈ (tagged t tag).zip (tagged p tag), ∀ i, (∃ y ∈ targets t x.1, y.id = i) ↔ ∃ y ∈ targets p x.2, y.id = i) :
    printDiff ws t p tag = .ok [] := by
  obtain ⟨out, h1, -, h2⟩ := printed_exact ws t p ht hp tag hte hpe
  rw [h1]
  have : out.map said = [] := by
    rw [h2, List.eq_nil_iff_forall_not_mem]
    intro x hx
    rcases printed_iff.1 hx with ⟨e, f, hm, y, hy, -⟩ | ⟨e, f, hm, y, hy, -⟩
    · unfold missing at hy
      rw [List.mem_filter, decide_eq_true_eq] at hy
      obtain ⟨z, hz, hzi⟩ := (h _ hm y.id).1 ⟨y, hy.1, rfl⟩
      exact hy.2 z hz hzi
    · unfold missing at hy
      rw [List.mem_filter, decide_eq_true_eq] at hy
      obtain ⟨z, hz, hzi⟩ := (h _ hm y.id).2 ⟨y, hy.1, rfl⟩
      exact hy.2 z hz hzi
  rw [List.map_eq_nil_iff.1 this]

/-- C64.  With the corpora exchanged, the same alignments are printed under the other heading. -/
theorem printed_exchange (ws : Char → Bool) (t p : Corpus) (ht : Valid t) (hp : Valid p) (tag : String)
    (hte : tagged t tag ≠ []) (hpe : tagged p tag ≠ []) :
    ∃ out out', printDiff ws t p tag = .ok out ∧ printDiff ws p t tag = .ok out' ∧ out.length = out'.length ∧
      ∀ x, (Side.trueOnly, x) ∈ out.map said ↔ (Side.predOnly, x) ∈ out'.map said := by
  obtain ⟨out, h1, -, h2⟩ := printed_exact ws t p ht hp tag hte hpe
  obtain ⟨out', h3, -, h4⟩ := printed_exact ws p t hp ht tag hpe hte
  have hz : (tagged p tag).zip (tagged t tag) = ((tagged t tag).zip (tagged p tag)).map Prod.swap := (List.zip_swap _ _).symm
  refine ⟨out, out', h1, h3, ?_, ?_⟩
  · rw [← List.length_map (f := said), h2, ← List.length_map (f := said) (as := out'), h4, hz]
    generalize (tagged t tag).zip (tagged p tag) = l
    induction l with
    | nil => rfl
    | cons x l ih => simp [ih]; omega
  · intro x
    rw [h2, h4, printed_iff, printed_iff, hz]
    simp only [report, Prod.mk.injEq, reduceCtorEq, false_and, and_false, exists_false, or_false, false_or, true_and, List.mem_map,
      Prod.exists, Prod.swap_prod_mk]
    constructor
    · rintro ⟨e, f, h, y, hy, rfl⟩
      exact ⟨f, e, ⟨e, f, h, rfl, rfl⟩, y, hy, rfl⟩
    · rintro ⟨e, f, ⟨a, b, h, rfl, rfl⟩, y, hy, rfl⟩
      exact ⟨a, b, h, y, hy, rfl⟩

private def s (n : Nat) (id : Option String) (w : String) : Tree := .node n "s" id w.toList [] []
private def d1 : Tree := .node 0 "d" (some "d") [] [] [s 1 (some "a") "one ", s 2 (some "b") "two", s 3 (some "c") "three"]
private def d2 : Tree := .node 0 "d" (some "d") [] [] [s 1 (some "x") "een", s 2 (some "y") "twee"]
private def bare : Tree := .node 0 "d" none [] [] [s 1 none "een", s 2 none "twee"]
private def short : Tree := .node 0 "d" (some "d") [] [] [s 1 (some "a") "one", s 2 (some "b") "two"]
private def ln (i j : Int) : Link := { fromTag := some "s", toTag := some "s", fromN := some i, toN := some j }
private def li (i j : String) : Link := { fromTag := some "s", toTag := some "s", fromId := some i, toId := some j }
private def ws : Char → Bool := fun c => c = ' '

/-- C64 does not hold for target elements without ids: they all count as the same, so that sentences aligned crosswise are
reported as aligned in the same way. -/
theorem without_ids : ∃ t p : Corpus, Valid t ∧ Valid p ∧ t.source = p.source ∧ t.target = p.target ∧
    (∃ e ∈ tagged t "s", ∃ y ∈ targets t e, ∀ z ∈ targets p e, z.addr ≠ y.addr) ∧ printDiff ws t p "s" = .ok [] :=
  ⟨⟨⟨[ln 1 1, ln 2 2], none⟩, d1, bare⟩, ⟨⟨[ln 1 2, ln 2 1], none⟩, d1, bare⟩,
    ⟨by unfold Distinct; decide +kernel, by unfold Distinct; decide +kernel, Or.inl rfl, by decide +kernel⟩,
    ⟨by unfold Distinct; decide +kernel, by unfold Distinct; decide +kernel, Or.inl rfl, by decide +kernel⟩, rfl, rfl, by
      refine ⟨s 1 (some "a") "one ", ?_, s 1 none "een", ?_, ?_⟩
      · simp [tagged, d1, elems, elemsOf, s, Tree.tag]
      · simp [targets, linkSource, linkTarget, designated, nth, ln, d1, bare, elems, elemsOf, s, Tree.tag, Tree.addr]
      · decide +kernel, by decide +kernel⟩

/-- C64 does not hold beyond the end of the shorter source document: alignments of further elements are not reported. -/
theorem further_elements : ∃ t p : Corpus, Valid t ∧ Valid p ∧ t.target = p.target ∧ IdsDiffer t.target ∧
    (∃ e ∈ tagged t "s", targets t e ≠ []) ∧ (∀ e ∈ tagged p "s", targets p e = []) ∧ printDiff ws t p "s" = .ok [] :=
  ⟨⟨⟨[li "c" "y"], some "id"⟩, d1, d2⟩, ⟨⟨[], some "id"⟩, short, d2⟩,
    ⟨by unfold Distinct; decide +kernel, by unfold Distinct; decide +kernel, Or.inr (Or.inr rfl), by decide +kernel⟩,
    ⟨by unfold Distinct; decide +kernel, by unfold Distinct; decide +kernel, Or.inr (Or.inr rfl), by decide +kernel⟩, rfl, by unfold IdsDiffer; decide +kernel, by
      refine ⟨s 3 (some "c") "three", ?_, ?_⟩
      · simp [tagged, d1, elems, elemsOf, s, Tree.tag]
      · have : (targets ⟨⟨[li "c" "y"], some "id"⟩, d1, d2⟩ (s 3 (some "c") "three")).length = 1 := by decide +kernel
        intro h
        rw [h] at this
        simp at this, fun _ _ => rfl, by decide +kernel⟩

private def tc : Corpus := ⟨⟨[li "a" "x", li "b" "x", li "b" "y"], some "id"⟩, d1, d2⟩
private def pc : Corpus := ⟨⟨[ln 1 2, ln 2 2, ln 2 2], none⟩, d1, d2⟩

example : Valid tc ∧ Valid pc ∧ IdsDiffer tc.target ∧ (tagged tc "s").length = 3 :=
  ⟨⟨by unfold Distinct; decide +kernel, by unfold Distinct; decide +kernel, Or.inr (Or.inr rfl), by decide +kernel⟩,
    ⟨by unfold Distinct; decide +kernel, by unfold Distinct; decide +kernel, Or.inl rfl, by decide +kernel⟩, by unfold IdsDiffer; decide +kernel, by decide +kernel⟩

example : printDiff ws tc pc "s" = .ok [
    ⟨1, .trueOnly, some "a", some "x", "one".toList, "een".toList⟩,
    ⟨2, .predOnly, some "a", some "y", "one".toList, "twee".toList⟩,
    ⟨3, .trueOnly, some "b", some "x", "two".toList, "een".toList⟩] := by decide +kernel

example : printDiff ws tc pc "p" = .error .keyError := by decide +kernel

end Verif.Props.PtcDiff
