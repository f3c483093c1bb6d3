import Verif.Lemmas.HitaextRound

/-! Property C51 (lib/daeso/ptc/document.py). -/
namespace Verif.Props.HitaextDoc
open Verif Verif.Etree Verif.Spec Verif.IElemTree Verif.HitaextDoc Verif.Props.IElemTree

/-- A link by numbers: from tag, from number, to tag, to number. -/
structure ByN where
  fromTag : String
  fromN : Int
  toTag : String
  toN : Int

/-- A link by ids. -/
structure ById where
  fromTag : String
  fromId : Option String
  toTag : String
  toId : Option String

/-- The link element. -/
def ByN.link (l : ByN) : Link := { fromTag := some l.fromTag, toTag := some l.toTag, fromN := some l.fromN, toN := some l.toN }
/-- The link element. -/
def ById.link (l : ById) : Link := { fromTag := some l.fromTag, toTag := some l.toTag, fromId := l.fromId, toId := l.toId }

/-- The source element it designates. -/
def ByN.source (tF : Tree) (l : ByN) : Option Nat := (nth tF l.fromTag l.fromN).map Tree.addr
/-- The target element it designates. -/
def ByN.target (tT : Tree) (l : ByN) : Option Nat := (nth tT l.toTag l.toN).map Tree.addr
/-- The source element it designates. -/
def ById.source (tF : Tree) (l : ById) : Option Nat := (byId tF l.fromTag l.fromId).map Tree.addr
/-- The target element it designates. -/
def ById.target (tT : Tree) (l : ById) : Option Nat := (byId tT l.toTag l.toId).map Tree.addr

private theorem resolveN_ok {tF tT : Tree} {oF oT : Opts} {sF sT : St} (hF : Distinct tF) (hT : Distinct tT) (l : ByN)
    {e e' : Tree} (h : nth tF l.fromTag l.fromN = some e) (h' : nth tT l.toTag l.toN = some e') :
    resolveN (update oF tF sF).st (update oT tT sT).st l.link = .ok (e.addr, e'.addr) := by
  obtain ⟨-, -, -, -, l1, a1, a2⟩ := nth_ok oF sF hF h
  obtain ⟨-, -, -, -, l2, b1, b2⟩ := nth_ok oT sT hT h'
  simp only [resolveN, ByN.link, HitaextDoc.int, lookTag, AD.get_eq a1, AD.get_eq b1, a2, b2, bind, Except.bind]

/-- Nothing is lost or added by `inOrder`. -/
theorem inOrder_perm {ι : Type} (t : Tree) (hd : Distinct t) (source : ι → Option Nat) (links : List ι)
    (h : ∀ l ∈ links, ∃ e ∈ elems t, source l = some e.addr) : (inOrder t source links).Perm links := by
  have := group_perm ((elems t).map fun e => some e.addr)
    (by rw [← Function.comp_def, ← List.map_map]; exact hd.map (Option.some_injective _)) source links (by
    intro l hm
    obtain ⟨e, h1, h2⟩ := h l hm
    rw [h2]
    exact List.mem_map_of_mem h1)
  rwa [List.flatMap_map] at this

private theorem inOrder_inOrder {ι : Type} (t : Tree) (hd : Distinct t) (source : ι → Option Nat) (links : List ι) :
    inOrder t source (inOrder t source links) = inOrder t source links := by
  have := group_again ((elems t).map fun e => some e.addr)
    (by rw [← Function.comp_def, ← List.map_map]; exact hd.map (Option.some_injective _)) source links
  simpa [List.flatMap_map, inOrder] using this

private theorem inject_n (links : List Link) (s : St × St) : inject ⟨links, some "n"⟩ s = injectN links s := by
  simp [inject]
private theorem inject_id (links : List Link) (s : St × St) : inject ⟨links, some "id"⟩ s = injectId links s := by
  simp [inject]
private theorem extract_n (tF tT : Tree) (F T : St) (links : List Link) :
    extract tF tT F T ⟨links, some "n"⟩ = extractN tF tT F T ⟨links, some "n"⟩ := by simp [extract]
private theorem extract_id (tF tT : Tree) (F T : St) (links : List Link) :
    extract tF tT F T ⟨links, some "id"⟩ = extractId tF tT F ⟨links, some "id"⟩ := by simp [extract]

/-- C51, alignment by number.  Links whose tags and numbers designate elements are injected without error: every
source element gets the target elements of its links in the order of the links, and the other way round.  Extracting
gives each link back as often as it was there, with the same tags and numbers, in document order of the source
elements. -/
theorem inject_extract_n (tF tT : Tree) (oF oT : Opts) (sF sT : St) (hF : Distinct tF) (hT : Distinct tT)
    (links : List ByN) (hl : ∀ l ∈ links, (l.source tF).isSome ∧ (l.target tT).isSome) (m : Option String)
    (hm : m = none ∨ m = some "n") :
    ∃ F T, inject ⟨links.map ByN.link, m⟩ ((update oF tF sF).st, (update oT tT sT).st) = .ok (F, T) ∧
      (∀ e ∈ elems tF, F.aligns e.addr =
        (links.filter fun l => l.source tF = some e.addr).filterMap (ByN.target tT)) ∧
      (∀ e ∈ elems tT, T.aligns e.addr =
        (links.filter fun l => l.target tT = some e.addr).filterMap (ByN.source tF)) ∧
      extract tF tT F T ⟨links.map ByN.link, m⟩ = .ok ⟨(inOrder tF (ByN.source tF) links).map ByN.link, m⟩ ∧
      (inOrder tF (ByN.source tF) links).Perm links := by
  have hsrc : ∀ l ∈ links, ∃ e ∈ elems tF, l.source tF = some e.addr ∧ nth tF l.fromTag l.fromN = some e := by
    intro l hm
    obtain ⟨a, ha⟩ := Option.isSome_iff_exists.1 (hl l hm).1
    obtain ⟨e, h1, h2⟩ := Option.map_eq_some_iff.1 ha
    exact ⟨e, (nth_ok oF sF hF h1).1, by rw [ha, h2], h1⟩
  have htgt : ∀ l ∈ links, ∃ e ∈ elems tT, l.target tT = some e.addr ∧ nth tT l.toTag l.toN = some e := by
    intro l hm
    obtain ⟨a, ha⟩ := Option.isSome_iff_exists.1 (hl l hm).2
    obtain ⟨e, h1, h2⟩ := Option.map_eq_some_iff.1 ha
    exact ⟨e, (nth_ok oT sT hT h1).1, by rw [ha, h2], h1⟩
  obtain ⟨F, T, h1, h2, h3, h4⟩ := core tF tT hF (update oF tF sF).st (update oT tT sT).st
    (no_alignments oF tF sF hF) (no_alignments oT tT sT hT) (ByN.source tF) (ByN.target tT) ByN.link ByN.link links
    (fun l hm => ⟨(hsrc l hm).imp fun e h => ⟨h.1, h.2.1⟩, (htgt l hm).imp fun e h => ⟨h.1, h.2.1⟩⟩)
    resolveN resolveN_same (by
      intro l hm a b ha hb
      obtain ⟨e, -, h1, h2⟩ := hsrc l hm
      obtain ⟨e', -, h3, h4⟩ := htgt l hm
      rw [ha] at h1; rw [hb] at h3
      cases h1; cases h3
      exact resolveN_ok hF hT l h2 h4)
    (fun F T e b d => do
        let e' ← elemAt tT b
        let fn ← numberOf F e.addr
        let tn ← numberOf T b
        .ok (addN d e.tag fn e'.tag tn)) (by
      intro l hm e he e' he' hs ht F T d hFs hTs
      obtain ⟨e1, m1, h1, h2⟩ := hsrc l hm
      obtain ⟨e2, m2, h3, h4⟩ := htgt l hm
      obtain rfl : e = e1 := List.inj_on_of_nodup_map hF he m1 (by rw [hs] at h1; simpa using h1)
      obtain rfl : e' = e2 := List.inj_on_of_nodup_map hT he' m2 (by rw [ht] at h3; simpa using h3)
      obtain ⟨-, t1, n1, p1, -⟩ := nth_ok oF sF hF h2
      obtain ⟨-, t2, n2, p2, -⟩ := nth_ok oT sT hT h4
      simp only [elemAt_of tT hT e' he', numberOf, hFs.n, hTs.n, n1, n2, bind, Except.bind]
      unfold addN ByN.link
      rw [t1, t2, Int.toNat_of_nonneg (by omega), Int.toNat_of_nonneg (by omega)]) ⟨links.map ByN.link, m⟩
  refine ⟨F, T, ?_, h2, h3, ?_, inOrder_perm tF hF _ links fun l hm => (hsrc l hm).imp fun e h => ⟨h.1, h.2.1⟩⟩
  · rcases hm with rfl | rfl
    · exact h1
    · rw [inject_n]; exact h1
  · rcases hm with rfl | rfl
    · exact h4
    · rw [extract_n]; exact h4

private theorem byId_ok {t : Tree} {tag : String} {id : Option String} {e : Tree} (o : Opts) (s : St)
    (h : byId t tag id = some e) : e ∈ elems t ∧ e.tag = tag ∧ e.id = id ∧
      ∃ l, (update o t s).st.ids.get? tag = some l ∧ l.get? id = some e.addr := by
  have hm := List.mem_of_getLast? h
  rw [List.mem_filter] at hm
  have ht : e.tag = tag ∧ e.id = id := by simpa using hm.2
  have h1 := id_lookup o t s tag id
  unfold byId at h
  rw [h] at h1
  obtain ⟨l, h2, h3⟩ := Option.bind_eq_some_iff.1 h1
  exact ⟨hm.1, ht.1, ht.2, l, h2, h3⟩

/-- C51, alignment by id: the same, also when several elements have the same tag and id (the last of them gets the
alignments). -/
theorem inject_extract_id (tF tT : Tree) (oF oT : Opts) (sF sT : St) (hF : Distinct tF) (hT : Distinct tT)
    (links : List ById) (hl : ∀ l ∈ links, (l.source tF).isSome ∧ (l.target tT).isSome) :
    ∃ F T, inject ⟨links.map ById.link, some "id"⟩ ((update oF tF sF).st, (update oT tT sT).st) = .ok (F, T) ∧
      (∀ e ∈ elems tF, F.aligns e.addr =
        (links.filter fun l => l.source tF = some e.addr).filterMap (ById.target tT)) ∧
      (∀ e ∈ elems tT, T.aligns e.addr =
        (links.filter fun l => l.target tT = some e.addr).filterMap (ById.source tF)) ∧
      extract tF tT F T ⟨links.map ById.link, some "id"⟩ =
        .ok ⟨(inOrder tF (ById.source tF) links).map ById.link, some "id"⟩ ∧
      (inOrder tF (ById.source tF) links).Perm links := by
  have hsrc : ∀ l ∈ links, ∃ e ∈ elems tF, l.source tF = some e.addr ∧ byId tF l.fromTag l.fromId = some e := by
    intro l hm
    obtain ⟨a, ha⟩ := Option.isSome_iff_exists.1 (hl l hm).1
    obtain ⟨e, h1, h2⟩ := Option.map_eq_some_iff.1 ha
    exact ⟨e, (byId_ok oF sF h1).1, by rw [ha, h2], h1⟩
  have htgt : ∀ l ∈ links, ∃ e ∈ elems tT, l.target tT = some e.addr ∧ byId tT l.toTag l.toId = some e := by
    intro l hm
    obtain ⟨a, ha⟩ := Option.isSome_iff_exists.1 (hl l hm).2
    obtain ⟨e, h1, h2⟩ := Option.map_eq_some_iff.1 ha
    exact ⟨e, (byId_ok oT sT h1).1, by rw [ha, h2], h1⟩
  obtain ⟨F, T, h1, h2, h3, h4⟩ := core tF tT hF (update oF tF sF).st (update oT tT sT).st
    (no_alignments oF tF sF hF) (no_alignments oT tT sT hT) (ById.source tF) (ById.target tT) ById.link ById.link links
    (fun l hm => ⟨(hsrc l hm).imp fun e h => ⟨h.1, h.2.1⟩, (htgt l hm).imp fun e h => ⟨h.1, h.2.1⟩⟩)
    resolveId resolveId_same (by
      intro l hm a b ha hb
      obtain ⟨e, -, h1, h2⟩ := hsrc l hm
      obtain ⟨e', -, h3, h4⟩ := htgt l hm
      rw [ha] at h1; rw [hb] at h3
      cases h1; cases h3
      obtain ⟨-, -, -, l1, a1, a2⟩ := byId_ok oF sF h2
      obtain ⟨-, -, -, l2, b1, b2⟩ := byId_ok oT sT h4
      simp only [resolveId, ById.link, lookTag, AD.get_eq a1, AD.get_eq b1, AD.get_eq a2, AD.get_eq b2, bind,
        Except.bind])
    (fun F T e b d => do
        let e' ← elemAt tT b
        .ok (addId d e.tag e.id e'.tag e'.id)) (by
      intro l hm e he e' he' hs ht F T d hFs hTs
      obtain ⟨e1, m1, h1, h2⟩ := hsrc l hm
      obtain ⟨e2, m2, h3, h4⟩ := htgt l hm
      obtain rfl : e = e1 := List.inj_on_of_nodup_map hF he m1 (by rw [hs] at h1; simpa using h1)
      obtain rfl : e' = e2 := List.inj_on_of_nodup_map hT he' m2 (by rw [ht] at h3; simpa using h3)
      obtain ⟨-, t1, i1, -⟩ := byId_ok oF sF h2
      obtain ⟨-, t2, i2, -⟩ := byId_ok oT sT h4
      simp only [elemAt_of tT hT e' he', bind, Except.bind]
      unfold addId ById.link
      rw [t1, t2, i1, i2]) ⟨links.map ById.link, some "id"⟩
  refine ⟨F, T, ?_, h2, h3, ?_, inOrder_perm tF hF _ links fun l hm => (hsrc l hm).imp fun e h => ⟨h.1, h.2.1⟩⟩
  · rw [inject_id]; exact h1
  · rw [extract_id]; exact h4

/-- C51.  Extracted links that are injected and extracted again do not change any more. -/
theorem extract_stable (tF tT : Tree) (oF oT : Opts) (sF sT : St) (hF : Distinct tF) (hT : Distinct tT)
    (links : List ByN) (hl : ∀ l ∈ links, (l.source tF).isSome ∧ (l.target tT).isSome) (m : Option String)
    (hm : m = none ∨ m = some "n") :
    let L := (inOrder tF (ByN.source tF) links).map ByN.link
    ∃ F T, inject ⟨L, m⟩ ((update oF tF sF).st, (update oT tT sT).st) = .ok (F, T) ∧
      extract tF tT F T ⟨L, m⟩ = .ok ⟨L, m⟩ := by
  obtain ⟨-, -, -, -, -, -, hp⟩ := inject_extract_n tF tT oF oT sF sT hF hT links hl m hm
  obtain ⟨F, T, h1, -, -, h2, -⟩ := inject_extract_n tF tT oF oT sF sT hF hT (inOrder tF (ByN.source tF) links)
    (fun l h => hl l (hp.mem_iff.1 h)) m hm
  rw [inOrder_inOrder tF hF] at h2
  exact ⟨F, T, h1, h2⟩

/-- A link that does not designate an element raises, after the links before it: KeyError for a tag without elements,
IndexError for a number beyond the last one. -/
theorem unknown_element (tF tT : Tree) (oF oT : Opts) (sF sT : St) (hF : Distinct tF) (hT : Distinct tT)
    (links rest : List ByN) (bad : ByN) (hl : ∀ l ∈ links, (l.source tF).isSome ∧ (l.target tT).isSome) :
    ((∀ e ∈ elems tF, e.tag ≠ bad.fromTag) →
      injectN ((links ++ bad :: rest).map ByN.link) ((update oF tF sF).st, (update oT tT sT).st) =
        .error .keyError) ∧
    ((∃ e ∈ elems tF, e.tag = bad.fromTag) → ((elems tF).filter fun e => e.tag = bad.fromTag).length < bad.fromN →
      injectN ((links ++ bad :: rest).map ByN.link) ((update oF tF sF).st, (update oT tT sT).st) =
        .error .indexError) := by
  have hps : ∃ ps, List.Forall₂ (fun l p => resolveN (update oF tF sF).st (update oT tT sT).st l = .ok p)
      (links.map ByN.link) ps := by
    clear rest
    induction links with
    | nil => exact ⟨[], .nil⟩
    | cons l links ih =>
      obtain ⟨ps, h⟩ := ih fun x hx => hl x (by simp [hx])
      obtain ⟨a, ha⟩ := Option.isSome_iff_exists.1 (hl l (by simp)).1
      obtain ⟨b, hb⟩ := Option.isSome_iff_exists.1 (hl l (by simp)).2
      obtain ⟨e, h1, -⟩ := Option.map_eq_some_iff.1 ha
      obtain ⟨e', h2, -⟩ := Option.map_eq_some_iff.1 hb
      exact ⟨_ :: ps, .cons (resolveN_ok hF hT l h1 h2) h⟩
  obtain ⟨ps, hps⟩ := hps
  have hcnt := (numbering oF tF sF hF).1 bad.fromTag
  constructor
  · intro hno
    rw [List.map_append, List.map_cons]
    refine inject_error resolveN resolveN_same _ _ _ ps _ _ hps ?_
    rw [if_neg] at hcnt
    · simp only [resolveN, ByN.link, HitaextDoc.int, lookTag, AD.get, hcnt, bind, Except.bind]
    · rw [List.any_eq_true]
      rintro ⟨e, h1, h2⟩
      exact hno e h1 (by simpa using h2)
  · rintro ⟨e, h1, h2⟩ hlt
    rw [List.map_append, List.map_cons]
    refine inject_error resolveN resolveN_same _ _ _ ps _ _ hps ?_
    rw [if_pos (List.any_eq_true.2 ⟨e, h1, by simp [h2]⟩)] at hcnt
    have hg : Py.getI (((elems tF).filter fun e => e.tag = bad.fromTag).map Tree.addr) (bad.fromN - 1) =
        .error .indexError := by
      unfold Py.getI Py.get
      rw [if_pos (by omega), List.getElem?_eq_none (by simp; omega)]
    simp only [resolveN, ByN.link, HitaextDoc.int, lookTag, AD.get, hcnt, hg, bind, Except.bind]

private theorem good_resolved (tF tT : Tree) (oF oT : Opts) (sF sT : St) (hF : Distinct tF) (hT : Distinct tT) (links : List ByN)
    (hl : ∀ l ∈ links, (l.source tF).isSome ∧ (l.target tT).isSome) : ∃ ps, List.Forall₂ (fun l p =>
      resolveN (update oF tF sF).st (update oT tT sT).st l = .ok p) (links.map ByN.link) ps := by
  induction links with
  | nil => exact ⟨[], .nil⟩
  | cons l links ih =>
    obtain ⟨ps, h⟩ := ih fun x hx => hl x (by simp [hx])
    obtain ⟨a, ha⟩ := Option.isSome_iff_exists.1 (hl l (by simp)).1
    obtain ⟨b, hb⟩ := Option.isSome_iff_exists.1 (hl l (by simp)).2
    obtain ⟨e, h1, -⟩ := Option.map_eq_some_iff.1 ha
    obtain ⟨e', h2, -⟩ := Option.map_eq_some_iff.1 hb
    exact ⟨_ :: ps, .cons (resolveN_ok hF hT l h1 h2) h⟩

/-- A link by number that lacks an attribute raises, after the links before it: TypeError without a number and KeyError
without a tag; those of the source are looked at first. -/
theorem incomplete_link (tF tT : Tree) (oF oT : Opts) (sF sT : St) (hF : Distinct tF) (hT : Distinct tT)
    (links : List ByN) (rest : List Link) (bad : Link) (hl : ∀ l ∈ links, (l.source tF).isSome ∧ (l.target tT).isSome) :
    let r := injectN (links.map ByN.link ++ bad :: rest) ((update oF tF sF).st, (update oT tT sT).st)
    (bad.fromN = none → r = .error .typeError) ∧
    (bad.fromN ≠ none → bad.fromTag = none → r = .error .keyError) ∧
    (∀ (tag : String) (n : Nat) (e : Tree), bad.fromTag = some tag → bad.fromN = some ((n : Int) + 1) → ((elems tF).filter fun e => e.tag = tag)[n]? = some e →
      (bad.toN = none → r = .error .typeError) ∧ (bad.toN ≠ none → bad.toTag = none → r = .error .keyError)) := by
  obtain ⟨ps, hps⟩ := good_resolved tF tT oF oT sF sT hF hT links hl
  dsimp only
  have key : ∀ er, resolveN (update oF tF sF).st (update oT tT sT).st bad = .error er →
      injectN (links.map ByN.link ++ bad :: rest) ((update oF tF sF).st, (update oT tT sT).st) = .error er :=
    fun er h => inject_error resolveN resolveN_same _ _ _ ps _ _ hps h
  refine ⟨fun h => key _ ?_, fun h h' => key _ ?_, fun tag n e h1 h2 h3 => ⟨fun h => key _ ?_, fun h h' => key _ ?_⟩⟩
  · simp [resolveN, h, HitaextDoc.int, bind, Except.bind]
  · obtain ⟨n, hn⟩ := Option.ne_none_iff_exists'.1 h
    simp [resolveN, hn, h', HitaextDoc.int, lookTag, bind, Except.bind]
  all_goals
    have hm := List.mem_of_getElem? h3
    rw [List.mem_filter] at hm
    have hcnt := (numbering oF tF sF hF).1 tag
    rw [if_pos (List.any_eq_true.2 ⟨e, hm.1, hm.2⟩)] at hcnt
    have hg : Py.getI (((elems tF).filter fun e => e.tag = tag).map Tree.addr) ((n : Int) + 1 - 1) = .ok e.addr := by
      unfold Py.getI Py.get
      rw [if_pos (by omega)]
      have : ((n : Int) + 1 - 1).toNat = n := by omega
      rw [this, List.getElem?_map, h3]
      rfl
    rw [Int.add_sub_cancel] at hg
  · simp [resolveN, h1, h2, h, HitaextDoc.int, lookTag, AD.get, hcnt, hg, bind, Except.bind]
  · obtain ⟨m, hm⟩ := Option.ne_none_iff_exists'.1 h
    simp [resolveN, h1, h2, hm, h', HitaextDoc.int, lookTag, AD.get, hcnt, hg, bind, Except.bind]

/-- A link by id without a tag raises a KeyError. -/
theorem incomplete_id_link (F T : St) (rest : List Link) (bad : Link) (h : bad.fromTag = none) :
    injectId (bad :: rest) (F, T) = .error .keyError := by
  simp [injectId, Py.forIn, resolveId, h, lookTag, bind, Except.bind]

/-- Numbers below 1 count from the end, silently: number 0 designates the last element of its tag. -/
theorem number_zero (t : Tree) (o : Opts) (s : St) (hd : Distinct t) (e : Tree) (tag : String)
    (he : ((elems t).filter fun e => e.tag = tag).getLast? = some e) :
    ∃ l, (update o t s).st.count.get? tag = some l ∧ Py.getI l (0 - 1) = .ok e.addr := by
  have hm := List.mem_of_getLast? he
  rw [List.mem_filter] at hm
  refine ⟨_, by rw [(numbering o t s hd).1 tag, if_pos (List.any_eq_true.2 ⟨e, hm.1, hm.2⟩)], ?_⟩
  have hne : ((elems t).filter fun e => e.tag = tag) ≠ [] := by rintro h; rw [h] at he; simp at he
  have hpos := List.length_pos_iff.2 hne
  unfold Py.getI Py.get
  rw [if_neg (by omega), if_pos (by simp; omega)]
  rw [List.getLast?_eq_getElem?] at he
  have : (0 - 1 + ((((elems t).filter fun e => e.tag = tag).map Tree.addr).length : Int)).toNat =
      ((elems t).filter fun e => e.tag = tag).length - 1 := by simp; omega
  rw [this, List.getElem?_map, he]
  rfl

/-- An unknown alignment method raises. -/
theorem unknown_method (d : Hitaext) (m : String) (h : m ≠ "n" ∧ m ≠ "id") (s : St × St) (tF tT : Tree) :
    setAlignmentMethod d m = .error .assertionError ∧ inject { d with method := some m } s = .error .assertionError ∧
    extract tF tT s.1 s.2 { d with method := some m } = .error .assertionError := by
  simp [setAlignmentMethod, inject, extract, h.1, h.2]

example : (∀ l ∈ [(⟨"s", 3, "s", 1⟩ : ByN), ⟨"s", 1, "s", 2⟩, ⟨"p", 1, "p", 1⟩, ⟨"s", 3, "s", 1⟩],
      (l.source sample).isSome ∧ (l.target sample).isSome) ∧
    (inOrder sample (ByN.source sample) [(⟨"s", 3, "s", 1⟩ : ByN), ⟨"s", 1, "s", 2⟩, ⟨"p", 1, "p", 1⟩,
      ⟨"s", 3, "s", 1⟩]).map (fun l => (l.fromTag, l.fromN)) = [("p", 1), ("s", 1), ("s", 3), ("s", 3)] := by
  decide +kernel

example : ∀ l ∈ [(⟨"s", some "x", "p", some "p1"⟩ : ById)], (l.source sample).isSome ∧ (l.target sample).isSome := by
  decide +kernel

end Verif.Props.HitaextDoc
