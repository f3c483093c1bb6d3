import Verif.Lemmas.HitaextFileRun

/-! C66: what a Hitaext document says after any history of calls, and after it is written and read. -/
namespace Verif.Props.HitaextFile
open Verif Verif.Etree Verif.HitaextFile Verif.Spec.HitaextFile

private theorem new_shows : Shows template blank := by
  refine ⟨⟨⟨leaf "filename", by rfl, rfl⟩, ⟨leaf "elements", by rfl, rfl, rfl⟩⟩,
    ⟨⟨leaf "filename", by rfl, rfl⟩, ⟨leaf "elements", by rfl, rfl, rfl⟩⟩, ⟨leaf "alignment", by rfl, rfl, rfl⟩⟩

/-- A new document says nothing, and every history of calls on it does exactly what the record specification says. -/
theorem new_history (ws : Char → Bool) (ops : List Op) : ∃ d, ofElement ws none = .ok d ∧
    Shows (run d ops).root (history blank ops) ∧ (run d ops).filename = [] := by
  refine ⟨_, rfl, ?_⟩
  exact run_spec ops (d := { root := template, filename := [] }) new_shows

/-- The same for any document that says something, such as one read from a file; a call raises exactly when the record
specification has no result. -/
theorem document_history {d : Doc} {r : Rec} (h : Shows d.root r) (ops : List Op) :
    Shows (run d ops).root (history r ops) ∧
    ∀ op, (∃ e, step (run d ops) op = .error e) ↔ after (history r ops) op = none := by
  refine ⟨(run_spec ops h).1, fun op => ?_⟩
  rcases step_spec (run_spec ops h).1 op with ⟨h1, e, h2⟩ | ⟨r', d', h1, h2, _, _⟩
  · exact ⟨fun _ => h1, fun _ => ⟨e, h2⟩⟩
  · exact ⟨fun ⟨e, he⟩ => by (rw [h2] at he; cases he), fun hn => by (rw [h1] at hn; cases hn)⟩

private theorem children_tags (e : Elem) : e.children.map Elem.tag = (e.children.map entryOf).map Entry.tag := by
  rw [List.map_map]; rfl

private theorem children_filter (a : String) : ∀ l : List Elem,
    (l.filter fun c => decide (c.attrib.get? a = some "True")).map Elem.tag =
      ((l.map entryOf).filter fun y => decide (y.attr a = some "True")).map Entry.tag
  | [] => rfl
  | c :: l => by
    simp only [List.map_cons, List.filter_cons]
    have : (entryOf c).attr a = c.attrib.get? a := rfl
    rw [this]
    by_cases h : c.attrib.get? a = some "True"
    · simp only [h, decide_true, if_true, List.map_cons, children_filter a l]; rfl
    · simp only [h, decide_false, Bool.false_eq_true, if_false, children_filter a l]

private theorem findKids_first (tag : String) : ∀ l : List Elem,
    (findKids tag (find []) l).map entryOf = (l.map entryOf).find? fun y => decide (y.tag = tag)
  | [] => rfl
  | c :: l => by
    unfold findKids
    simp only [find, List.map_cons, List.find?_cons]
    have : (entryOf c).tag = c.tag := rfl
    rw [this]
    by_cases h : c.tag = tag
    · simp only [h, if_true, decide_true, Option.map_some]
    · simp only [h, if_false, decide_false]
      exact findKids_first tag l

/-- What the methods that read a document return. -/
theorem getters {d : Doc} {r : Rec} (h : Shows d.root r) (ws : Char → Bool) (s : Side) :
    getFilename ws d s = (match (r.side s).filename with
      | some x => .ok (strip ws x)
      | none => .error .attributeError) ∧
    getPseudoRoot d s = .ok (r.side s).pseudo ∧
    getElemTags d s = .ok ((r.side s).entries.map Entry.tag) ∧
    (∀ a, getTags d s a = .ok (((r.side s).entries.filter fun y => decide (y.attr a = some "True")).map Entry.tag)) ∧
    getPseudoRootTags d s = getTags d s "uniq" ∧
    (∀ t, (getEntry d s t).map entryOf = (r.side s).entries.find? fun y => decide (y.tag = t)) ∧
    getMethod d = .ok r.method ∧
    (∃ l, getLinks d = .ok l ∧ l.map entryOf = r.links) := by
  obtain ⟨e, h3, h4, h5⟩ := (shows_side h s).entries
  obtain ⟨al, ha, hm, hl⟩ := h.alignment
  have hlook : look d (elPath s) = .ok e := look_ok h3
  have hal : look d ["alignment"] = .ok al := look_ok ha
  refine ⟨getFilename_shows h s, ?_, ?_, ?_, rfl, ?_, ?_, ?_⟩
  · unfold getPseudoRoot; rw [hlook]; exact congrArg _ h4
  · unfold getElemTags; rw [hlook]; show Except.ok _ = _; rw [children_tags, h5]
  · intro a; unfold getTags; rw [hlook]; show Except.ok _ = _; rw [children_filter, h5]
  · intro t
    unfold getEntry
    rw [find_eq, reached_append, show reached (elPath s) d.root = [e] from h3]
    have := find_eq [t] e
    simp only [List.flatMap_cons, List.flatMap_nil, List.append_nil]
    rw [← this, ← h5]
    exact findKids_first t e.children
  · unfold getMethod; rw [hal]; exact congrArg _ hm
  · exact ⟨al.children, by unfold getLinks; rw [hal], hl⟩

/-- `init_elems` adds one entry for every tag of the document, in the order of first occurrence; a tag can serve as
pseudo root if it occurs once; the pseudo root is the root; none of the tags is ignored or set apart. -/
theorem init_elems_exact {d : Doc} {r : Rec} (h : Shows d.root r) (s : Side) (tree : Elem) :
    ∃ d', initElems d s tree = .ok d' ∧
      getPseudoRoot d' s = .ok (some tree.tag) ∧
      getElemTags d' s = .ok ((r.side s).entries.map Entry.tag ++ (docTags tree).eraseDups) ∧
      (r.side s = blank.source → ∃ l u, getElemTags d' s = .ok l ∧ getPseudoRootTags d' s = .ok u ∧ l.Nodup ∧
        (∀ t, t ∈ l ↔ t ∈ docTags tree) ∧ (∀ t, t ∈ u ↔ (docTags tree).count t = 1) ∧ u.Sublist l ∧
        (∀ a ∈ ["ignore", "skip", "newline", "blankline"], getTags d' s a = .ok [])) := by
  rcases step_spec h (.initElems s tree) with ⟨h1, _⟩ | ⟨r', d', h1, h2, _, h4⟩
  · simp [after] at h1
  refine ⟨d', h2, ?_⟩
  simp only [after, Option.some.injEq] at h1
  have hside : r'.side s = ⟨(r.side s).filename, some tree.tag,
      (r.side s).entries ++ (docTags tree).eraseDups.map (docEntry (docTags tree))⟩ := by
    rw [← h1]; cases s <;> rfl
  have g := getters h4 (fun _ => false) s
  rw [hside] at g
  obtain ⟨_, g2, g3, g4, g5, _⟩ := g
  have htags : ((docTags tree).eraseDups.map (docEntry (docTags tree))).map Entry.tag = (docTags tree).eraseDups := by
    rw [List.map_map]
    exact List.map_id _
  refine ⟨g2, ?_, ?_⟩
  · rw [g3]; show Except.ok _ = _; rw [List.map_append, htags]
  · intro hb
    have hb' : (r.side s).entries = [] := by rw [hb]; rfl
    have hfil : ∀ a, (((docTags tree).eraseDups.map (docEntry (docTags tree))).filter
        fun y => decide (y.attr a = some "True")).map Entry.tag =
        (docTags tree).eraseDups.filter fun t => decide ((docEntry (docTags tree) t).attr a = some "True") := by
      intro a
      rw [List.filter_map, List.map_map]
      exact List.map_id _
    refine ⟨_, _, g3, g5.trans (g4 "uniq"), ?_, ?_, ?_, ?_, ?_⟩
    · simp only [hb', List.nil_append, htags]
      exact nodup_eraseDups _
    · intro t
      simp only [hb', List.nil_append, htags, List.mem_eraseDups]
    · intro t
      simp only [hb', List.nil_append, hfil, List.mem_filter, List.mem_eraseDups, decide_eq_true_eq]
      have ha : (docEntry (docTags tree) t).attr "uniq" =
          some (if (docTags tree).count t = 1 then "True" else "False") := rfl
      rw [ha]
      constructor
      · rintro ⟨_, h2⟩
        by_contra hc
        rw [if_neg hc] at h2
        exact absurd h2 (by decide)
      · intro hc
        exact ⟨List.count_pos_iff.1 (by omega), by rw [if_pos hc]⟩
    · simp only [hb', List.nil_append, htags, hfil]
      exact List.filter_sublist
    · intro a ha
      rw [g4 a]
      show Except.ok _ = _
      simp only [hb', List.nil_append, hfil]
      congr 1
      rw [List.filter_eq_nil_iff]
      intro t _
      simp only [List.mem_cons, List.not_mem_nil, or_false] at ha
      rcases ha with h | h | h | h <;> subst h <;> simp [docEntry, newAttr]

/-- Calling `init_elems` again doubles the entries. -/
theorem init_twice {d : Doc} {r : Rec} (h : Shows d.root r) (s : Side) (tree : Elem) (hb : r.side s = blank.source) :
    ∃ d' d'', initElems d s tree = .ok d' ∧ initElems d' s tree = .ok d'' ∧
      getElemTags d'' s = .ok ((docTags tree).eraseDups ++ (docTags tree).eraseDups) := by
  rcases step_spec h (.initElems s tree) with ⟨h1, _⟩ | ⟨r', d', h1, h2, _, h4⟩
  · simp [after] at h1
  obtain ⟨d'', h5, _, h6, _⟩ := init_elems_exact h4 s tree
  refine ⟨d', d'', h2, h5, ?_⟩
  rw [h6]
  simp only [after, Option.some.injEq] at h1
  have hside : r'.side s = ⟨(r.side s).filename, some tree.tag,
      (r.side s).entries ++ (docTags tree).eraseDups.map (docEntry (docTags tree))⟩ := by
    rw [← h1]; cases s <;> rfl
  have hb' : (r.side s).entries = [] := by rw [hb]; rfl
  rw [hside]
  simp only [hb', List.nil_append]
  have htags : ((docTags tree).eraseDups.map (docEntry (docTags tree))).map Entry.tag = (docTags tree).eraseDups := by
    rw [List.map_map]
    exact List.map_id _
  rw [htags]

private theorem dropWhile_nil {p : Char → Bool} : ∀ {l : List Char}, l.dropWhile p = [] ↔ ∀ c ∈ l, p c = true
  | [] => by simp
  | c :: l => by
    rw [List.dropWhile_cons]
    by_cases h : p c = true
    · rw [if_pos h, dropWhile_nil]; simp [h]
    · rw [if_neg h]; simp [h]

private theorem strip_eq_nil {ws : Char → Bool} {x : Text} : strip ws x = [] ↔ ∀ c ∈ x, ws c = true := by
  unfold strip
  rw [List.reverse_eq_nil_iff, dropWhile_nil]
  constructor
  · intro h c hc
    by_contra hn
    have hx : x.dropWhile ws = [] := by
      cases hd : x.dropWhile ws with
      | nil => rfl
      | cons y ys =>
        exfalso
        have h1 := h y (by rw [hd]; simp)
        have h2 : ¬ ws y = true := by
          have := List.head_dropWhile_not ws (l := x) (by rw [hd]; simp)
          simp only [hd, List.head_cons] at this
          rw [this]; simp
        exact h2 h1
    exact hn (dropWhile_nil.1 hx c hc)
  · intro h c hc
    exact h c (List.dropWhile_sublist _ |>.subset (by simpa using hc))

/-- A file name of a side is there, with something other than white space. -/
def Named (ws : Char → Bool) (y : SideRec) : Prop := ∃ x, y.filename = some x ∧ ∃ c ∈ x, ws c = false

private theorem validate_shows {ws : Char → Bool} {d : Doc} {r : Rec} (h : Shows d.root r) :
    validate ws d = .ok () ↔ Named ws r.source ∧ Named ws r.target := by
  have key : ∀ y : SideRec, Named ws y ↔ ∃ x, y.filename = some x ∧ strip ws x ≠ [] := by
    intro y
    unfold Named
    constructor
    · rintro ⟨x, h1, c, hc, h2⟩
      refine ⟨x, h1, fun h3 => ?_⟩
      rw [strip_eq_nil.1 h3 c hc] at h2
      cases h2
    · rintro ⟨x, h1, h2⟩
      refine ⟨x, h1, ?_⟩
      by_contra hn
      apply h2
      rw [strip_eq_nil]
      intro c hc
      by_contra hw
      exact hn ⟨c, hc, by simpa using hw⟩
  rw [key, key]
  unfold validate
  rw [getFilename_shows h .source, getFilename_shows h .target]
  simp only [Rec.side]
  cases h1 : r.source.filename with
  | none => simp
  | some x =>
    dsimp only
    by_cases hx : strip ws x = []
    · simp [hx]
    · rw [if_neg hx]
      cases h2 : r.target.filename with
      | none => simp
      | some y =>
        dsimp only
        by_cases hy : strip ws y = []
        · simp [hy]
        · simp [hx, hy]

/-- A document is valid exactly if both file names are there. -/
theorem validate_iff {ws : Char → Bool} {d : Doc} {r : Rec} (h : Shows d.root r) :
    validate ws d = .ok () ↔ Named ws r.source ∧ Named ws r.target := validate_shows h

/-- A document with both file names can be written and read, and says the same; without, what was written cannot be
read. -/
theorem write_read {ws : Char → Bool} {d : Doc} {r : Rec} (h : Shows d.root r) (file : Text) :
    (Named ws r.source ∧ Named ws r.target →
      ∃ d', writeRead ws file d = .ok d' ∧ Shows d'.root r ∧ d'.filename = file) ∧
    (¬ (Named ws r.source ∧ Named ws r.target) → ∃ e, writeRead ws file d = .error e) := by
  have h' := shows_reread h
  have noE : ∀ y : SideRec, Named ws y → Pgc.noEmpty y.filename = y.filename := by
    rintro y ⟨x, h1, c, hc, _⟩
    unfold Pgc.noEmpty
    rw [h1, if_neg]
    intro h2
    injection h2 with h2
    rw [h2] at hc
    cases hc
  have iff : ∀ y : SideRec, Named ws { y with filename := Pgc.noEmpty y.filename } ↔ Named ws y := by
    intro y
    constructor
    · rintro ⟨x, h1, h2⟩
      refine ⟨x, ?_, h2⟩
      unfold Pgc.noEmpty at h1
      simp only at h1
      split at h1
      · cases h1
      · exact h1
    · rintro hn
      obtain ⟨x, h1, h2⟩ := id hn
      exact ⟨x, (noE y hn).trans h1, h2⟩
  have hv := validate_shows (ws := ws) (d := { root := Pgc.reread d.root, filename := file }) h'
  simp only [iff] at hv
  unfold writeRead openFile
  constructor
  · intro hn
    rw [hv.2 hn]
    refine ⟨_, rfl, ?_, rfl⟩
    rw [noE _ hn.1, noE _ hn.2] at h'
    exact h'
  · intro hn
    cases hc : validate ws { root := Pgc.reread d.root, filename := file } with
    | error e => exact ⟨e, rfl⟩
    | ok u => exact absurd (hv.1 hc) hn

/-- A new document that is written cannot be read, whatever entries and links it gets, unless both file names are set. -/
theorem new_unreadable {ws : Char → Bool} (file : Text) (ops : List Op)
    (hops : ∀ s x, Op.setFilename s x ∉ ops) :
    ∃ e, writeRead ws file (run { root := template, filename := [] } ops) = .error e := by
  refine (write_read (run_spec ops (d := { root := template, filename := [] }) new_shows).1 file).2 ?_
  have key : ∀ (ops : List Op) (r : Rec), (∀ s x, Op.setFilename s x ∉ ops) → r.source.filename = none →
      (history r ops).source.filename = none := by
    intro ops
    induction ops with
    | nil => intro r _ h; exact h
    | cons op ops ih =>
      intro r hops h
      refine ih _ (fun s x hx => hops s x (List.mem_cons_of_mem _ hx)) ?_
      cases op with
      | setFilename s x => exact absurd List.mem_cons_self (hops s x)
      | setPseudoRoot s t => cases s <;> exact h
      | addElem s t => cases s <;> exact h
      | setElem s t k v =>
        simp only [after]
        cases setFirst t k v (r.side s).entries with
        | none => exact h
        | some l => cases s <;> exact h
      | initElems s t => cases s <;> exact h
      | setMethod m =>
        simp only [after]
        split <;> exact h
      | clearLinks => exact h
      | addLink k a b c e => exact h
  rintro ⟨⟨x, hx, _⟩, _⟩
  rw [key ops _ hops rfl] at hx
  cases hx

/-- An element without children is replaced by the empty document. -/
theorem element_ignored (ws : Char → Bool) (tag : String) (a : AD String String) (x l : Option Text) :
    ofElement ws (some (.mk tag a x l [])) = ofElement ws none := rfl

/-! ### Searching for the files -/

/-- A document that exists at the path given, from where we are or from the place of the corpus, is found. -/
theorem search_finds {ws : Char → Bool} {isFile : Text → Bool} {d : Doc} {s : Side} {fn : Text}
    (h : getFilename ws d s = .ok fn) :
    (isFile fn = true → searchFilename ws isFile d s = .ok fn) ∧
    (isFile fn = false → isFile (PosixPath.join (PosixPath.dirname d.filename) fn) = true →
      searchFilename ws isFile d s = .ok (PosixPath.join (PosixPath.dirname d.filename) fn)) := by
  unfold searchFilename
  rw [h]
  dsimp only
  constructor
  · intro h1; rw [if_pos h1]
  · intro h1 h2; rw [if_neg (by rw [h1]; decide), if_pos h2]

private theorem takeWhile_append_dropWhile' (p : Text) : PosixPath.head p ++ PosixPath.basename p = p := by
  unfold PosixPath.head PosixPath.basename
  rw [← List.reverse_append, List.takeWhile_append_dropWhile, List.reverse_reverse]

private theorem join_parts {p : Text} (hp : ¬ ['/', '/'] <:+: p) :
    PosixPath.join (PosixPath.dirname p) (PosixPath.basename p) = p := by
  have hsplit := takeWhile_append_dropWhile' p
  have hb : ∀ c ∈ PosixPath.basename p, c ≠ '/' := by
    intro c hc
    have := List.all_eq_true.1 (List.all_takeWhile (l := p.reverse) (p := fun c => decide (c ≠ '/'))) c
      (List.mem_reverse.1 hc)
    simpa using this
  have hb0 : (PosixPath.basename p).head? ≠ some '/' := by
    intro h
    exact hb '/' (List.mem_of_mem_head? h) rfl
  unfold PosixPath.join
  rw [if_neg hb0]
  by_cases hh : PosixPath.head p = []
  · have hd : PosixPath.dirname p = [] := by unfold PosixPath.dirname; rw [hh]; rfl
    rw [hd, if_pos (.inl rfl), List.nil_append]
    rw [hh, List.nil_append] at hsplit
    exact hsplit
  · -- the head ends with a slash
    obtain ⟨h', hh'⟩ : ∃ h', PosixPath.head p = h' ++ ['/'] := by
      have hne : (p.reverse.dropWhile (· ≠ '/')) ≠ [] := by
        intro h; apply hh; unfold PosixPath.head; rw [h]; rfl
      cases hd : p.reverse.dropWhile (· ≠ '/') with
      | nil => exact absurd hd hne
      | cons y ys =>
        have hy := List.head_dropWhile_not (fun c : Char => decide (c ≠ '/')) (l := p.reverse) hne
        simp only [hd, List.head_cons] at hy
        have : y = '/' := by simpa using hy
        refine ⟨ys.reverse, ?_⟩
        unfold PosixPath.head
        rw [hd, this]
        simp
    by_cases he : h' = []
    · subst he
      have hd : PosixPath.dirname p = ['/'] := by unfold PosixPath.dirname; rw [hh']; rfl
      rw [hd, if_pos (.inr rfl)]
      rw [hh'] at hsplit
      exact hsplit
    · have hlast : h'.getLast? ≠ some '/' := by
        intro hl
        apply hp
        obtain ⟨k, hk⟩ : ∃ k, h' = k ++ ['/'] := by
          have := List.getLast?_eq_some_iff.1 hl
          exact this
        rw [hh', hk] at hsplit
        exact ⟨k, PosixPath.basename p, by simpa using hsplit⟩
      have hd : PosixPath.dirname p = h' := by
        unfold PosixPath.dirname
        have hall : ¬ (PosixPath.head p).all (· = '/') = true := by
          rw [hh']
          intro hall
          apply hlast
          rw [List.all_append, Bool.and_eq_true] at hall
          have hm := List.getLast_mem he
          have := List.all_eq_true.1 hall.1 _ hm
          rw [List.getLast?_eq_some_getLast he]
          simpa using this
        rw [if_neg hall, hh']
        unfold PosixPath.rstripSlash
        rw [List.reverse_append]
        simp only [List.reverse_cons, List.reverse_nil, List.nil_append, List.cons_append, List.dropWhile_cons,
          decide_true, if_true]
        cases hr : h'.reverse with
        | nil => exact absurd (List.reverse_eq_nil_iff.1 hr) he
        | cons y ys =>
          have hy : y ≠ '/' := by
            intro hy
            apply hlast
            rw [List.getLast?_eq_head?_reverse, hr, hy]
            rfl
          rw [List.dropWhile_cons, if_neg (by simpa using hy), ← hr, List.reverse_reverse]
      rw [hd, if_neg (by rintro (h | h); exacts [he h, hlast h])]
      rw [hh'] at hsplit
      simpa using hsplit

/-- Otherwise the search ends with the corpus itself, which exists when the document was read from a file: the document
that is searched is then taken to be the corpus.  The place where it should be looked for, the document's own base name
in the directory of the corpus, is not tried. -/
theorem search_wrong {ws : Char → Bool} {isFile : Text → Bool} {d : Doc} {s : Side} {fn : Text}
    (h : getFilename ws d s = .ok fn) (h1 : isFile fn = false)
    (h2 : isFile (PosixPath.join (PosixPath.dirname d.filename) fn) = false)
    (h3 : isFile d.filename = true) (hp : ¬ ['/', '/'] <:+: d.filename) :
    searchFilename ws isFile d s = .ok d.filename := by
  unfold searchFilename
  rw [h]
  dsimp only
  rw [if_neg (by rw [h1]; decide), if_neg (by rw [h2]; decide), join_parts hp, if_pos h3]

/-! ### Examples -/

private def text : Elem :=
  .mk "text" [] none none [.mk "p" [] none none [leaf "s", leaf "s"], .mk "p" [] none none [leaf "s"], leaf "note"]

private def calls : List Op :=
  [.setFilename .source " a.xml\n".toList, .setFilename .target "d/b.xml".toList, .initElems .source text,
   .setElem .source "p" "blankline" "True", .setElem .target "p" "skip" "True", .setMethod "id", .setMethod "x",
   .addLink "id" "s" "1" "s" "2"]

private def made : Doc := run { root := template, filename := [] } calls

private def blanks (c : Char) : Bool := c = ' ' || c = '\n'

example : (getElemTags made .source).toOption = some ["text", "p", "s", "note"] ∧
    (getPseudoRootTags made .source).toOption = some ["text", "note"] ∧
    (getTags made .source "blankline").toOption = some ["p"] ∧ (getElemTags made .target).toOption = some [] ∧
    (getMethod made).toOption = some (some "id") ∧
    (getFilename blanks made .source).toOption = some "a.xml".toList := by decide +kernel

/-- The document of a successful call. -/
private def got (x : Py Doc) : Doc := x.toOption.getD { root := template, filename := [] }

example : (getElemTags (got (writeRead blanks "x/c.hit".toList made)) .source).toOption =
      some ["text", "p", "s", "note"] ∧
    (searchFilename blanks (fun p => p = "x/d/b.xml".toList) (got (writeRead blanks "x/c.hit".toList made))
      .target).toOption = some "x/d/b.xml".toList ∧
    (searchFilename blanks (fun p => p = "x/b.xml".toList || p = "x/c.hit".toList)
      (got (writeRead blanks "x/c.hit".toList made)) .target).toOption = some "x/c.hit".toList := by decide +kernel

private theorem findKids_absent {α : Type} {t : String} (g : Elem → Option α) : ∀ {l : List Elem},
    (∀ c ∈ l, c.tag ≠ t) → findKids t g l = none
  | [], _ => rfl
  | c :: l, h => by
    rw [findKids, if_neg (h c (by simp))]
    exact findKids_absent g fun x hx => h x (by simp [hx])

private theorem updKids_absent {t : String} (g : Elem → Option Elem) : ∀ {l : List Elem},
    (∀ c ∈ l, c.tag ≠ t) → updKids t g l = none
  | [], _ => rfl
  | c :: l, h => by
    rw [updKids, if_neg (h c (by simp)), updKids_absent g fun x hx => h x (by simp [hx])]
    rfl

/-- A document that lacks a side's section, or the list of links, raises an AttributeError whenever that part is asked
for or changed: nothing is made up and nothing is created. -/
theorem missing_part (ws : Char → Bool) (isFile : Text → Bool) (d : Doc) :
    (∀ s : Side, (∀ c ∈ d.root.children, c.tag ≠ s.tag) →
      getFilename ws d s = .error .attributeError ∧ searchFilename ws isFile d s = .error .attributeError ∧
      getPseudoRoot d s = .error .attributeError ∧ getElemTags d s = .error .attributeError ∧
      (∀ a, getTags d s a = .error .attributeError) ∧ (∀ x, setFilename d s x = .error .attributeError) ∧
      (∀ t, setPseudoRoot d s t = .error .attributeError ∧ addElem d s t = .error .attributeError) ∧
      (∀ t k v, setElem d s t k v = .error .attributeError) ∧ (∀ t, initElems d s t = .error .attributeError) ∧
      ((s = .source ∨ getFilename ws d .source ≠ .ok [] ∧ ∃ x, getFilename ws d .source = .ok x) →
        openFile ws d.filename d.root = .error .attributeError)) ∧
    ((∀ c ∈ d.root.children, c.tag ≠ "alignment") →
      getMethod d = .error .attributeError ∧ getLinks d = .error .attributeError ∧
      clearLinks d = .error .attributeError ∧
      (∀ m, setMethod d m = .error (if m = "n" ∨ m = "id" then .attributeError else .assertionError)) ∧
      ∀ key ft fv tt tv, addLink d key ft fv tt tv = .error .attributeError) := by
  refine ⟨fun s h => ?_, fun h => ?_⟩
  · have hl : ∀ p, look d (s.tag :: p) = .error .attributeError := fun p => by
      rw [look, find, findKids_absent _ h]
    have hc : ∀ p f, change d (s.tag :: p) f = .error .attributeError := fun p f => by
      rw [change, update, updKids_absent _ h]; rfl
    have hf : getFilename ws d s = .error .attributeError := by rw [getFilename, fnPath, hl]
    refine ⟨hf, by rw [searchFilename, hf], by rw [getPseudoRoot, elPath, hl], by rw [getElemTags, elPath, hl],
      fun a => by rw [getTags, elPath, hl], fun x => hc _ _, fun t => ⟨hc _ _, hc _ _⟩, fun t k v => hc _ _,
      fun t => hc _ _, ?_⟩
    rintro (rfl | ⟨hne, x, hx⟩)
    · have : getFilename ws { root := d.root, filename := d.filename } .source = .error .attributeError := hf
      simp only [openFile, validate, this]
    · cases s
      · rw [hf] at hx; cases hx
      · have h1 : getFilename ws { root := d.root, filename := d.filename } .source = .ok x := hx
        have h2 : getFilename ws { root := d.root, filename := d.filename } .target = .error .attributeError := hf
        have : x ≠ [] := fun e => hne (e ▸ hx)
        simp only [openFile, validate, h1, h2, if_neg this]
  · have hl : look d ["alignment"] = .error .attributeError := by rw [look, find, findKids_absent _ h]
    have hc : ∀ f, change d ["alignment"] f = .error .attributeError := fun f => by
      rw [change, update, updKids_absent _ h]; rfl
    refine ⟨by rw [getMethod, hl], by rw [getLinks, hl], hc _, fun m => ?_, fun _ _ _ _ _ => hc _⟩
    rw [setMethod, hc]
    simp only [List.mem_cons, List.not_mem_nil, or_false]
    split <;> rfl

/-- A document with a target only. -/
example : (∀ c ∈ (Elem.mk "hitaext" [] none none [leaf "to", leaf "alignment"]).children, c.tag ≠ Side.source.tag) ∧
    getMethod { root := .mk "hitaext" [] none none [leaf "to", leaf "alignment"], filename := [] } = .ok none := by
  decide +kernel

end Verif.Props.HitaextFile
