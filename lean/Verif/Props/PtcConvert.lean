import Verif.Props.HitaextDoc
import Verif.Model.PtcConvert
import Verif.Spec.PtcConvert

/-! C72: links by number rewritten as links by id, and the other way round. -/
namespace Verif.Props.PtcConvert
open Verif Verif.Etree Verif.Spec Verif.IElemTree Verif.HitaextDoc Verif.Props.IElemTree Verif.PtcConvert
open Verif.Spec.PtcConvert Verif.Props.HitaextDoc

/-- The link by ids of the elements that a link by numbers designates. -/
def toId (tF tT : Tree) (l : ByN) : ById :=
  ⟨l.fromTag, (nth tF l.fromTag l.fromN).bind Tree.id, l.toTag, (nth tT l.toTag l.toN).bind Tree.id⟩

/-- A link by numbers designates two elements. -/
def Good (tF tT : Tree) (l : ByN) : Prop := (l.source tF).isSome ∧ (l.target tT).isSome

private theorem good_elems {tF tT : Tree} (hF : Distinct tF) (hT : Distinct tT) {l : ByN} (h : Good tF tT l) :
    ∃ e ∈ elems tF, ∃ e' ∈ elems tT, l.source tF = some e.addr ∧ l.target tT = some e'.addr ∧
      nth tF l.fromTag l.fromN = some e ∧ nth tT l.toTag l.toN = some e' ∧ e.tag = l.fromTag ∧ e'.tag = l.toTag := by
  obtain ⟨a, ha⟩ := Option.isSome_iff_exists.1 h.1
  obtain ⟨e, h1, h2⟩ := Option.map_eq_some_iff.1 ha
  obtain ⟨b, hb⟩ := Option.isSome_iff_exists.1 h.2
  obtain ⟨e', h3, h4⟩ := Option.map_eq_some_iff.1 hb
  have k1 := nth_ok { ws := fun _ => false } fresh hF h1
  have k2 := nth_ok { ws := fun _ => false } fresh hT h3
  exact ⟨e, k1.1, e', k2.1, by rw [ha, h2], by rw [hb, h4], h1, h3, k1.2.1, k2.2.1⟩

private theorem resolveN_ok {tF tT : Tree} {oF oT : Opts} {sF sT : St} (hF : Distinct tF) (hT : Distinct tT) (l : ByN)
    {e e' : Tree} (h : nth tF l.fromTag l.fromN = some e) (h' : nth tT l.toTag l.toN = some e') :
    resolveN (update oF tF sF).st (update oT tT sT).st l.link = .ok (e.addr, e'.addr) := by
  obtain ⟨-, -, -, -, l1, a1, a2⟩ := nth_ok oF sF hF h
  obtain ⟨-, -, -, -, l2, b1, b2⟩ := nth_ok oT sT hT h'
  simp only [resolveN, ByN.link, HitaextDoc.int, lookTag, AD.get_eq a1, AD.get_eq b1, a2, b2, bind, Except.bind]

/-- C72.  A document with links by number is rewritten: each link becomes the link by ids of the same two elements, as often
as it was there, in document order of the source elements; the method becomes "id". -/
theorem to_ids (ws : Char → Bool) (tF tT : Tree) (hF : Distinct tF) (hT : Distinct tT) (links : List ByN)
    (hl : ∀ l ∈ links, Good tF tT l) (m : Option String) (hm : m = none ∨ m = some "n") :
    convert "id" ws tF tT ⟨links.map ByN.link, m⟩ =
      .ok ⟨((inOrder tF (ByN.source tF) links).map (toId tF tT)).map ById.link, some "id"⟩ ∧
    (inOrder tF (ByN.source tF) links).Perm links := by
  have hsrc := fun l h => good_elems hF hT (hl l h)
  obtain ⟨F, T, h1, -, -, h4⟩ := core tF tT hF (update { ws := ws } tF fresh).st (update { ws := ws } tT fresh).st
    (no_alignments _ tF fresh hF) (no_alignments _ tT fresh hT) (ByN.source tF) (ByN.target tT) ByN.link
    (fun l => (toId tF tT l).link) links
    (fun l h => by
      obtain ⟨e, he, e', he', s1, s2, -⟩ := hsrc l h
      exact ⟨⟨e, he, s1⟩, e', he', s2⟩)
    resolveN resolveN_same (by
      intro l h a b ha hb
      obtain ⟨e, -, e', -, s1, s2, n1, n2, -⟩ := hsrc l h
      rw [ha] at s1; rw [hb] at s2
      cases s1; cases s2
      exact resolveN_ok hF hT l n1 n2)
    (fun F T e b d => do
        let e' ← elemAt tT b
        .ok (addId d e.tag e.id e'.tag e'.id)) (by
      intro l h e he e' he' hs ht F T d hFs hTs
      obtain ⟨e1, m1, e2, m2, s1, s2, n1, n2, t1, t2⟩ := hsrc l h
      obtain rfl : e = e1 := List.inj_on_of_nodup_map hF he m1 (by rw [hs] at s1; simpa using s1)
      obtain rfl : e' = e2 := List.inj_on_of_nodup_map hT he' m2 (by rw [ht] at s2; simpa using s2)
      simp only [elemAt_of tT hT e' he', bind, Except.bind]
      unfold addId ById.link toId
      rw [n1, n2, t1, t2]
      rfl) ⟨links.map ByN.link, some "id"⟩
  refine ⟨?_, inOrder_perm tF hF _ links fun l h => by
    obtain ⟨e, he, e', he', s1, s2, -⟩ := hsrc l h
    exact ⟨e, he, s1⟩⟩
  have hi : inject ⟨links.map ByN.link, m⟩ ((update { ws := ws } tF fresh).st, (update { ws := ws } tT fresh).st) = .ok (F, T) := by
    rcases hm with rfl | rfl
    · exact h1
    · exact h1
  unfold convert
  rw [hi]
  have he : extract tF tT F T { (⟨links.map ByN.link, m⟩ : Hitaext) with method := some "id" } =
      extractId tF tT F ⟨links.map ByN.link, some "id"⟩ := by simp [extract]
  dsimp only
  refine he.trans (h4.trans ?_)
  rw [List.map_map]
  rfl

/-- C72.  The rewritten document can be written exactly if all aligned elements have an id. -/
theorem writable_iff (ws : Char → Bool) (tF tT : Tree) (hF : Distinct tF) (hT : Distinct tT) (links : List ByN)
    (hl : ∀ l ∈ links, Good tF tT l) (m : Option String) (hm : m = none ∨ m = some "n") {d : Hitaext}
    (h : convert "id" ws tF tT ⟨links.map ByN.link, m⟩ = .ok d) :
    writable d = true ↔ ∀ l ∈ links, (∀ e, nth tF l.fromTag l.fromN = some e → e.id.isSome) ∧
      ∀ e, nth tT l.toTag l.toN = some e → e.id.isSome := by
  obtain ⟨h1, hp⟩ := to_ids ws tF tT hF hT links hl m hm
  rw [h] at h1
  rw [Except.ok.inj h1]
  unfold writable
  rw [if_pos rfl, List.all_eq_true, List.map_map]
  have key : ∀ l ∈ links, (((toId tF tT l).link.fromId.isSome && (toId tF tT l).link.toId.isSome) = true ↔
      (∀ e, nth tF l.fromTag l.fromN = some e → e.id.isSome) ∧ ∀ e, nth tT l.toTag l.toN = some e → e.id.isSome) := by
    intro l hm
    obtain ⟨e, he, e', he', s1, s2, n1, n2, -⟩ := good_elems hF hT (hl l hm)
    unfold toId ById.link
    rw [n1, n2]
    simp
  constructor
  · intro hx l hm
    exact (key l hm).1 (hx _ (List.mem_map_of_mem (f := ById.link ∘ toId tF tT) (hp.mem_iff.2 hm)))
  · intro hx x hm
    obtain ⟨l, hl', rfl⟩ := List.mem_map.1 hm
    exact (key l (hp.mem_iff.1 hl')).2 (hx l (hp.mem_iff.1 hl'))

/-- C72.  If the elements have ids of their own then the new links designate the same elements. -/
theorem ids_designate {tF tT : Tree} (hF : Distinct tF) (hT : Distinct tT) {l : ByN} (h : Good tF tT l)
    (hs : ∀ e, nth tF l.fromTag l.fromN = some e → Identified tF e)
    (ht : ∀ e, nth tT l.toTag l.toN = some e → Identified tT e) :
    (toId tF tT l).source tF = l.source tF ∧ (toId tF tT l).target tT = l.target tT := by
  obtain ⟨e, he, e', he', s1, s2, n1, n2, t1, t2⟩ := good_elems hF hT h
  have key : ∀ {t : Tree} {e : Tree}, e ∈ elems t → Identified t e → byId t e.tag e.id = some e := by
    intro t e he hi
    unfold byId
    cases hx : ((elems t).filter fun x => x.tag = e.tag ∧ x.id = e.id).getLast? with
    | none =>
      have : e ∈ ((elems t).filter fun x => x.tag = e.tag ∧ x.id = e.id) := by simp [he]
      rw [List.getLast?_eq_none_iff.1 hx] at this
      cases this
    | some x =>
      have hm := List.mem_of_getLast? hx
      rw [List.mem_filter] at hm
      have hp : x.tag = e.tag ∧ x.id = e.id := by simpa using hm.2
      rw [hi.2 x hm.1 hp.1 hp.2]
  rw [s1, s2]
  unfold toId ById.source ById.target
  rw [n1, n2]
  dsimp only [Option.bind_some]
  rw [← t1, ← t2, key he (hs e n1), key he' (ht e' n2)]
  exact ⟨rfl, rfl⟩

private theorem inOrder_filter {ι : Type} (t : Tree) (hd : Distinct t) (source : ι → Option Nat) (links : List ι)
    {e : Tree} (he : e ∈ elems t) :
    ((inOrder t source links).filter fun l => source l = some e.addr) = links.filter fun l => source l = some e.addr := by
  unfold inOrder Distinct at *
  generalize elems t = L at *
  induction L with
  | nil => cases he
  | cons x l ih =>
    rw [List.map_cons, List.nodup_cons] at hd
    rw [List.flatMap_cons, List.filter_append]
    rcases List.mem_cons.1 he with rfl | hm
    · have h0 : (l.flatMap fun e' => links.filter fun l => source l = some e'.addr).filter (fun l => source l = some e.addr) = [] := by
        rw [List.filter_eq_nil_iff]
        intro a ha
        obtain ⟨e', h1, h2⟩ := List.mem_flatMap.1 ha
        rw [List.mem_filter] at h2
        have h3 : source a = some e'.addr := by simpa using h2.2
        rw [h3]
        simp only [Option.some.injEq, decide_eq_true_eq]
        intro hc
        exact hd.1 (hc ▸ List.mem_map_of_mem h1)
      rw [h0, List.append_nil, List.filter_filter]
      simp
    · have h0 : (links.filter fun l => source l = some x.addr).filter (fun l => source l = some e.addr) = [] := by
        rw [List.filter_eq_nil_iff]
        intro a ha
        rw [List.mem_filter] at ha
        have h3 : source a = some x.addr := by simpa using ha.2
        rw [h3]
        simp only [Option.some.injEq, decide_eq_true_eq]
        intro hc
        exact hd.1 (hc ▸ List.mem_map_of_mem hm)
      rw [h0, List.nil_append]
      exact ih hd.2 hm

private theorem filter_eq_of {α : Type} {p q : α → Bool} {l : List α} (h : ∀ a ∈ l, p a = q a) : l.filter p = l.filter q :=
  List.filter_congr h

/-- C72.  If all aligned elements have ids of their own, then the document says the same alignment after rewriting: injected
into the texts, every source element has the same target elements in the same order, and every target element the same
source elements. -/
theorem same_alignment (ws : Char → Bool) (oF oT : Opts) (tF tT : Tree) (hF : Distinct tF) (hT : Distinct tT)
    (links : List ByN) (hl : ∀ l ∈ links, Good tF tT l) (m : Option String) (hm : m = none ∨ m = some "n")
    (hs : ∀ l ∈ links, ∀ e, nth tF l.fromTag l.fromN = some e → Identified tF e)
    (ht : ∀ l ∈ links, ∀ e, nth tT l.toTag l.toN = some e → Identified tT e) :
    ∃ d F T F' T', convert "id" ws tF tT ⟨links.map ByN.link, m⟩ = .ok d ∧ writable d = true ∧
      inject ⟨links.map ByN.link, m⟩ ((update oF tF fresh).st, (update oT tT fresh).st) = .ok (F, T) ∧
      inject d ((update oF tF fresh).st, (update oT tT fresh).st) = .ok (F', T') ∧
      (∀ e ∈ elems tF, F'.aligns e.addr = F.aligns e.addr) ∧
      ∀ e ∈ elems tT, (T'.aligns e.addr).Perm (T.aligns e.addr) := by
  obtain ⟨h1, hp⟩ := to_ids ws tF tT hF hT links hl m hm
  have hd : ∀ l ∈ inOrder tF (ByN.source tF) links,
      (toId tF tT l).source tF = l.source tF ∧ (toId tF tT l).target tT = l.target tT := by
    intro l h
    have h := hp.mem_iff.1 h
    exact ids_designate hF hT (hl l h) (hs l h) (ht l h)
  obtain ⟨F, T, i1, i2, i3, -⟩ := inject_extract_n tF tT oF oT fresh fresh hF hT links hl m hm
  obtain ⟨F', T', j1, j2, j3, -⟩ := inject_extract_id tF tT oF oT fresh fresh hF hT
    ((inOrder tF (ByN.source tF) links).map (toId tF tT)) (by
      intro l h
      obtain ⟨l0, h0, rfl⟩ := List.mem_map.1 h
      rw [(hd l0 h0).1, (hd l0 h0).2]
      exact hl l0 (hp.mem_iff.1 h0))
  refine ⟨_, F, T, F', T', h1, ?_, i1, j1, ?_, ?_⟩
  · exact (writable_iff ws tF tT hF hT links hl m hm h1).2 fun l h => ⟨fun e he => (hs l h e he).1, fun e he => (ht l h e he).1⟩
  · intro e he
    rw [j2 e he, i2 e he, List.filter_map, List.filterMap_map,
      filter_eq_of (q := fun l => decide (l.source tF = some e.addr)) (fun l h => by
        simp only [Function.comp_apply]; rw [(hd l h).1]), inOrder_filter tF hF _ _ he]
    refine List.filterMap_congr fun l h => ?_
    exact (hd l (hp.mem_iff.2 (List.mem_of_mem_filter h))).2
  · intro e he
    rw [j3 e he, i3 e he, List.filter_map, List.filterMap_map,
      filter_eq_of (q := fun l => decide (l.target tT = some e.addr)) (fun l h => by
        simp only [Function.comp_apply]; rw [(hd l h).2])]
    have : List.filterMap (ById.source tF ∘ toId tF tT) ((inOrder tF (ByN.source tF) links).filter
        fun l => decide (l.target tT = some e.addr)) = List.filterMap (ByN.source tF)
          ((inOrder tF (ByN.source tF) links).filter fun l => decide (l.target tT = some e.addr)) :=
      List.filterMap_congr fun l h => (hd l (List.mem_of_mem_filter h)).1
    rw [this]
    exact (hp.filter _).filterMap _

/-- The links that do not change any more. -/
private theorem ids_stable (ws : Char → Bool) (tF tT : Tree) (hF : Distinct tF) (hT : Distinct tT) (links : List ById)
    (hl : ∀ l ∈ links, (l.source tF).isSome ∧ (l.target tT).isSome) :
    convert "id" ws tF tT ⟨links.map ById.link, some "id"⟩ =
      .ok ⟨(inOrder tF (ById.source tF) links).map ById.link, some "id"⟩ := by
  obtain ⟨F, T, i1, -, -, i4, -⟩ := inject_extract_id tF tT { ws := ws } { ws := ws } fresh fresh hF hT links hl
  unfold convert
  rw [i1]
  exact i4

private theorem inOrder_map {ι κ : Type} (t : Tree) (f : ι → κ) (src : κ → Option Nat) (src' : ι → Option Nat) (links : List ι)
    (h : ∀ l ∈ links, src (f l) = src' l) : inOrder t src (links.map f) = (inOrder t src' links).map f := by
  unfold inOrder
  rw [List.map_flatMap]
  refine List.flatMap_congr fun e _ => ?_
  rw [List.filter_map]
  congr 1
  refine List.filter_congr fun l hm => ?_
  simp only [Function.comp_apply]
  rw [h l hm]

private theorem inOrder_inOrder {ι : Type} (t : Tree) (hd : Distinct t) (source : ι → Option Nat) (links : List ι) :
    inOrder t source (inOrder t source links) = inOrder t source links := by
  have := group_again ((elems t).map fun e => some e.addr)
    (by rw [← Function.comp_def, ← List.map_map]; exact hd.map (Option.some_injective _)) source links
  simpa [List.flatMap_map, inOrder] using this

/-- C72.  Rewriting again changes nothing. -/
theorem again (ws : Char → Bool) (tF tT : Tree) (hF : Distinct tF) (hT : Distinct tT)
    (links : List ByN) (hl : ∀ l ∈ links, Good tF tT l) (m : Option String) (hm : m = none ∨ m = some "n")
    (hs : ∀ l ∈ links, ∀ e, nth tF l.fromTag l.fromN = some e → Identified tF e)
    (ht : ∀ l ∈ links, ∀ e, nth tT l.toTag l.toN = some e → Identified tT e) {d : Hitaext}
    (h : convert "id" ws tF tT ⟨links.map ByN.link, m⟩ = .ok d) : convert "id" ws tF tT d = .ok d := by
  obtain ⟨h1, hp⟩ := to_ids ws tF tT hF hT links hl m hm
  rw [h] at h1
  obtain rfl := Except.ok.inj h1
  have hd : ∀ l ∈ inOrder tF (ByN.source tF) links,
      (toId tF tT l).source tF = l.source tF ∧ (toId tF tT l).target tT = l.target tT := by
    intro l h
    have h := hp.mem_iff.1 h
    exact ids_designate hF hT (hl l h) (hs l h) (ht l h)
  rw [ids_stable ws tF tT hF hT _ (by
    intro l h
    obtain ⟨l0, h0, rfl⟩ := List.mem_map.1 h
    rw [(hd l0 h0).1, (hd l0 h0).2]
    exact hl l0 (hp.mem_iff.1 h0))]
  rw [inOrder_map tF (toId tF tT) (ById.source tF) (ByN.source tF) _ (fun l h => (hd l h).1), inOrder_inOrder tF hF]

/-! ### Numbers again -/

private theorem byId_ok {t : Tree} {tag : String} {id : Option String} {e : Tree} (o : Opts) (s : St)
    (h : byId t tag id = some e) : e ∈ elems t ∧ e.tag = tag ∧ e.id = id ∧
      ∃ l, (update o t s).st.ids.get? tag = some l ∧ l.get? id = some e.addr := by
  have hm := List.mem_of_getLast? h
  rw [List.mem_filter] at hm
  have ht : e.tag = tag ∧ e.id = id := by simpa using hm.2
  have h1 := id_lookup o t s tag id
  unfold byId at h
  rw [h] at h1
  obtain ⟨l, h2, h3⟩ := Option.bind_eq_some_iff.1 h1
  exact ⟨hm.1, ht.1, ht.2, l, h2, h3⟩

/-- C72.  Links by id can always be rewritten as links by number that designate the same elements. -/
theorem to_numbers (ws : Char → Bool) (tF tT : Tree) (hF : Distinct tF) (hT : Distinct tT) (links : List ById)
    (hl : ∀ l ∈ links, (l.source tF).isSome ∧ (l.target tT).isSome) :
    ∃ out : List ByN, convert "n" ws tF tT ⟨links.map ById.link, some "id"⟩ = .ok ⟨out.map ByN.link, some "n"⟩ ∧
      List.Forall₂ (fun l (l' : ByN) => l'.fromTag = l.fromTag ∧ l'.toTag = l.toTag ∧ l'.source tF = l.source tF ∧
        l'.target tT = l.target tT) (inOrder tF (ById.source tF) links) out ∧
      (inOrder tF (ById.source tF) links).Perm links := by
  have hsrc : ∀ l ∈ links, ∃ e ∈ elems tF, ∃ e' ∈ elems tT, l.source tF = some e.addr ∧ l.target tT = some e'.addr ∧
      byId tF l.fromTag l.fromId = some e ∧ byId tT l.toTag l.toId = some e' ∧ e.tag = l.fromTag ∧ e'.tag = l.toTag := by
    intro l h
    obtain ⟨a, ha⟩ := Option.isSome_iff_exists.1 (hl l h).1
    obtain ⟨e, h1, h2⟩ := Option.map_eq_some_iff.1 ha
    obtain ⟨b, hb⟩ := Option.isSome_iff_exists.1 (hl l h).2
    obtain ⟨e', h3, h4⟩ := Option.map_eq_some_iff.1 hb
    have k1 := byId_ok { ws := ws } fresh h1
    have k2 := byId_ok { ws := ws } fresh h3
    exact ⟨e, k1.1, e', k2.1, by rw [ha, h2], by rw [hb, h4], h1, h3, k1.2.1, k2.2.1⟩
  let no : Tree → Nat → Int := fun t a => (((update { ws := ws } t fresh).st.n a).getD 0 : Nat)
  have hno : ∀ {t : Tree}, Distinct t → ∀ e ∈ elems t, (update { ws := ws } t fresh).st.n e.addr = some (no t e.addr).toNat ∧
      nth t e.tag (no t e.addr) = some e := by
    intro t hd e he
    obtain ⟨n, n1, n2⟩ := nth_self t { ws := ws } fresh hd e he
    have : no t e.addr = (n : Int) := by
      change (((update { ws := ws } t fresh).st.n e.addr).getD 0 : Int) = _
      rw [n1]; rfl
    rw [this]
    exact ⟨by rw [n1]; rfl, n2⟩
  let toN : ById → ByN := fun l => ⟨l.fromTag, no tF ((l.source tF).getD 0), l.toTag, no tT ((l.target tT).getD 0)⟩
  obtain ⟨F, T, h1, -, -, h4⟩ := core tF tT hF (update { ws := ws } tF fresh).st (update { ws := ws } tT fresh).st
    (no_alignments _ tF fresh hF) (no_alignments _ tT fresh hT) (ById.source tF) (ById.target tT) ById.link
    (fun l => (toN l).link) links
    (fun l h => by
      obtain ⟨e, he, e', he', s1, s2, -⟩ := hsrc l h
      exact ⟨⟨e, he, s1⟩, e', he', s2⟩)
    resolveId resolveId_same (by
      intro l h a b ha hb
      obtain ⟨e, -, e', -, s1, s2, n1, n2, -⟩ := hsrc l h
      rw [ha] at s1; rw [hb] at s2
      cases s1; cases s2
      obtain ⟨-, -, -, l1, a1, a2⟩ := byId_ok { ws := ws } fresh n1
      obtain ⟨-, -, -, l2, b1, b2⟩ := byId_ok { ws := ws } fresh n2
      simp only [resolveId, ById.link, lookTag, AD.get_eq a1, AD.get_eq b1, AD.get_eq a2, AD.get_eq b2, bind,
        Except.bind])
    (fun F T e b d => do
        let e' ← elemAt tT b
        let fn ← numberOf F e.addr
        let tn ← numberOf T b
        .ok (addN d e.tag fn e'.tag tn)) (by
      intro l h e he e' he' hs ht F T d hFs hTs
      obtain ⟨e1, m1, e2, m2, s1, s2, n1, n2, t1, t2⟩ := hsrc l h
      obtain rfl : e = e1 := List.inj_on_of_nodup_map hF he m1 (by rw [hs] at s1; simpa using s1)
      obtain rfl : e' = e2 := List.inj_on_of_nodup_map hT he' m2 (by rw [ht] at s2; simpa using s2)
      have k1 := (hno hF e he).1
      have k2 := (hno hT e' he').1
      have p1 : 0 ≤ no tF e.addr := Int.natCast_nonneg _
      have p2 : 0 ≤ no tT e'.addr := Int.natCast_nonneg _
      simp only [elemAt_of tT hT e' he', numberOf, hFs.n, hTs.n, k1, k2, bind, Except.bind]
      have : (toN l) = ⟨l.fromTag, no tF e.addr, l.toTag, no tT e'.addr⟩ := by
        change ByN.mk _ _ _ _ = _
        rw [s1, s2]; rfl
      rw [this]
      unfold addN ByN.link
      rw [t1, t2, Int.toNat_of_nonneg p1, Int.toNat_of_nonneg p2]) ⟨links.map ById.link, some "n"⟩
  have hp : (inOrder tF (ById.source tF) links).Perm links := inOrder_perm tF hF _ links fun l h => by
    obtain ⟨e, he, e', he', s1, s2, -⟩ := hsrc l h
    exact ⟨e, he, s1⟩
  refine ⟨(inOrder tF (ById.source tF) links).map toN, ?_, ?_, hp⟩
  · unfold convert
    have hi : inject ⟨links.map ById.link, some "id"⟩ ((update { ws := ws } tF fresh).st, (update { ws := ws } tT fresh).st) =
        .ok (F, T) := h1
    rw [hi]
    have he : extract tF tT F T { (⟨links.map ById.link, some "id"⟩ : Hitaext) with method := some "n" } =
        extractN tF tT F T ⟨links.map ById.link, some "n"⟩ := by simp [extract]
    dsimp only
    refine he.trans (h4.trans ?_)
    rw [List.map_map]
    rfl
  · rw [List.forall₂_map_right_iff, List.forall₂_same]
    intro l h
    obtain ⟨e, he, e', he', s1, s2, -, -, t1, t2⟩ := hsrc l (hp.mem_iff.1 h)
    refine ⟨rfl, rfl, ?_, ?_⟩
    · change (nth tF l.fromTag (no tF ((l.source tF).getD 0))).map Tree.addr = _
      rw [s1, Option.getD_some, ← t1, (hno hF e he).2]
      rfl
    · change (nth tT l.toTag (no tT ((l.target tT).getD 0))).map Tree.addr = _
      rw [s2, Option.getD_some, ← t2, (hno hT e' he').2]
      rfl

/-- C72.  Given one file instead of a list, the script would write the rewritten document, completely, if all aligned elements
have ids of their own. -/
theorem one_file {π : Type} (ws : Char → Bool) (site : π → Py (Hitaext × Tree × Tree)) {p : π} {tF tT : Tree}
    (hF : Distinct tF) (hT : Distinct tT) {links : List ByN} {m : Option String}
    (hp : site p = .ok (⟨links.map ByN.link, m⟩, tF, tT)) (hl : ∀ l ∈ links, Good tF tT l) (hm : m = none ∨ m = some "n")
    (hs : ∀ l ∈ links, ∀ e, nth tF l.fromTag l.fromN = some e → Identified tF e)
    (ht : ∀ l ∈ links, ∀ e, nth tT l.toTag l.toN = some e → Identified tT e) :
    nToId ws site (.path p) =
      .ok (some ⟨((inOrder tF (ByN.source tF) links).map (toId tF tT)).map ById.link, some "id"⟩) := by
  obtain ⟨d, -, -, -, -, h1, h2, -⟩ := same_alignment ws { ws := ws } { ws := ws } tF tT hF hT links hl m hm hs ht
  have h3 := (to_ids ws tF tT hF hT links hl m hm).1
  rw [h1] at h3
  unfold nToId openDoc
  dsimp only
  rw [hp]
  dsimp only
  rw [h1]
  dsimp only
  rw [if_pos h2, Except.ok.inj h3]

/-! ### Limits and examples -/

/-- Violation of C72.  The script itself does not run: it takes a list of files and opens the list. -/
theorem script_fails {π : Type} (ws : Char → Bool) (site : π → Py (Hitaext × Tree × Tree)) (args : List π) :
    main ws site args = .error .typeError := rfl

/-- A text with two sentences with ids and one without, and two with one id. -/
def sample : Tree := .node 0 "text" none [] [] [.node 1 "s" (some "a") [] [] [], .node 2 "s" (some "b") [] [] [],
  .node 3 "s" none [] [] [], .node 4 "s" (some "c") [] [] [], .node 5 "s" (some "c") [] [] []]

private def links (d : Py Hitaext) : List (Option String × Option String) :=
  match d with
  | .ok d => d.links.map fun l => (l.fromId, l.toId)
  | .error _ => []

/-- Limits.  An aligned element without an id gives a link that cannot be written; of two elements with one id the last one
gets the alignments. -/
theorem not_identified :
    convert "id" (fun _ => false) sample sample ⟨[(⟨"s", 3, "s", 1⟩ : ByN).link], none⟩ =
      .ok ⟨[(⟨"s", none, "s", some "a"⟩ : ById).link], some "id"⟩ ∧
    writable ⟨[(⟨"s", none, "s", some "a"⟩ : ById).link], some "id"⟩ = false ∧
    convert "id" (fun _ => false) sample sample ⟨[(⟨"s", 4, "s", 1⟩ : ByN).link], none⟩ =
      .ok ⟨[(⟨"s", some "c", "s", some "a"⟩ : ById).link], some "id"⟩ ∧
    (⟨"s", 4, "s", 1⟩ : ByN).source sample = some 4 ∧
    (⟨"s", some "c", "s", some "a"⟩ : ById).source sample = some 5 := by
  refine ⟨?_, ?_, ?_, ?_, ?_⟩
  · rfl
  · decide +kernel
  · rfl
  · decide +kernel
  · decide +kernel

-- the conditions of `same_alignment` and `again` are met
example : Distinct sample ∧
    (∀ l ∈ [(⟨"s", 2, "s", 1⟩ : ByN), ⟨"text", 1, "s", 2⟩], Good sample sample l) ∧
    (∀ l ∈ [(⟨"s", 2, "s", 1⟩ : ByN)], ∀ e, nth sample l.fromTag l.fromN = some e → Identified sample e) := by
  refine ⟨by unfold Distinct; decide +kernel, by unfold Good; decide +kernel, ?_⟩
  intro l hl e he
  obtain rfl : l = ⟨"s", 2, "s", 1⟩ := by simpa using hl
  have : e = .node 2 "s" (some "b") [] [] [] := (Option.some.inj he).symm
  subst this
  refine ⟨rfl, ?_⟩
  intro e' he'
  have : e' ∈ [sample, .node 1 "s" (some "a") [] [] [], .node 2 "s" (some "b") [] [] [],
    .node 3 "s" none [] [] [], .node 4 "s" (some "c") [] [] [], .node 5 "s" (some "c") [] [] []] := he'
  simp only [List.mem_cons, List.not_mem_nil, or_false] at this
  rcases this with rfl | rfl | rfl | rfl | rfl | rfl <;> simp [sample, Tree.tag, Tree.id]

-- the links in document order of the source elements
example : links (convert "id" (fun _ => false) sample sample ⟨[(⟨"s", 2, "s", 1⟩ : ByN).link, (⟨"s", 1, "s", 2⟩ : ByN).link], none⟩) =
    [(some "a", some "b"), (some "b", some "a")] := by decide +kernel

end Verif.Props.PtcConvert
