import Verif.Lemmas.HitaextFile

namespace Verif.HitaextFile
open Verif Verif.Etree Verif.Spec.HitaextFile

theorem change_ok {d : Doc} {p : List String} {f : Elem → Elem} {x : Elem} (hf : ∀ e, (f e).tag = e.tag)
    (h : reached p d.root = [x]) : ∃ r', change d p f = .ok { d with root := r' } ∧ reached p r' = [f x] ∧
      ∀ q, Parts p q → reached q r' = reached q d.root := by
  obtain ⟨r', h1, hu⟩ := (update_spec hf p).1 d.root (by rw [h]; simp)
  refine ⟨r', by simp only [change, h1], ?_, hu.other⟩
  obtain ⟨y, ys, hy, hy'⟩ := hu.at_
  rw [h] at hy
  injection hy with e1 e2
  rw [hy', ← e1, ← e2]

theorem tag_ne {s s' : Side} (h : s ≠ s') : s.tag ≠ s'.tag := by
  cases s <;> cases s' <;> simp [Side.tag] at h ⊢

theorem tag_ne_alignment (s : Side) : s.tag ≠ "alignment" := by cases s <;> decide

theorem side_cases {P : Side → Prop} (h1 : P .source) (h2 : P .target) : ∀ s, P s
  | .source => h1
  | .target => h2

theorem shows_side {root : Elem} {r : Rec} (h : Shows root r) (s : Side) : ShowsSide root s (r.side s) := by
  cases s
  · exact h.source
  · exact h.target

theorem shows_of {root root' : Elem} {r : Rec} {s : Side} {f : SideRec → SideRec} (h : Shows root r)
    (hs : ShowsSide root' s (f (r.side s)))
    (ho : ∀ s', s ≠ s' → ∀ p, reached (s'.tag :: p) root' = reached (s'.tag :: p) root)
    (ha : reached ["alignment"] root' = reached ["alignment"] root) : Shows root' (r.setSide s f) := by
  have other : ∀ s', s ≠ s' → ShowsSide root' s' (r.side s') := by
    intro s' hne
    obtain ⟨⟨e, h1, h2⟩, ⟨e', h3, h4⟩⟩ := shows_side h s'
    exact ⟨⟨e, by rw [ho s' hne, h1], h2⟩, ⟨e', by rw [ho s' hne, h3], h4⟩⟩
  obtain ⟨e, h1, h2⟩ := h.alignment
  cases s
  · exact ⟨hs, other .target (by decide), ⟨e, by rw [ha, h1], h2⟩⟩
  · exact ⟨other .source (by decide), hs, ⟨e, by rw [ha, h1], h2⟩⟩

/-- A change of the elements of a side. -/
theorem change_elements {d : Doc} {r : Rec} (h : Shows d.root r) (s : Side) {f : Elem → Elem}
    (hf : ∀ e, (f e).tag = e.tag) (g : SideRec → SideRec) (hgf : ∀ y, (g y).filename = y.filename)
    (hg : ∀ e y, e.attrib.get? "pseudo_root" = y.pseudo → e.children.map entryOf = y.entries →
      (f e).attrib.get? "pseudo_root" = (g y).pseudo ∧ (f e).children.map entryOf = (g y).entries) :
    ∃ r', change d (elPath s) f = .ok { d with root := r' } ∧ Shows r' (r.setSide s g) := by
  obtain ⟨⟨e0, h1, h2⟩, ⟨e, h3, h4, h5⟩⟩ := shows_side h s
  obtain ⟨r', hc, hr, ho⟩ := change_ok (d := d) (p := elPath s) hf h3
  refine ⟨r', hc, shows_of h ⟨⟨e0, ?_, ?_⟩, ⟨f e, hr, hg e _ h4 h5⟩⟩ ?_ ?_⟩
  · exact (ho _ (.there (.here (by decide)))).trans h1
  · rw [hgf, h2]
  · intro s' hne p
    exact ho _ (.here (tag_ne hne))
  · exact ho _ (.here (tag_ne_alignment s))

theorem change_filename {d : Doc} {r : Rec} (h : Shows d.root r) (s : Side) (x : Text) :
    ∃ r', setFilename d s x = .ok { d with root := r' } ∧
      Shows r' (r.setSide s fun y => { y with filename := some x }) := by
  obtain ⟨⟨e0, h1, h2⟩, ⟨e, h3, h4⟩⟩ := shows_side h s
  obtain ⟨r', hc, hr, ho⟩ := change_ok (d := d) (p := fnPath s) (f := fun e => setText e (some x))
    (fun e => setText_tag e _) h1
  refine ⟨r', hc, shows_of h ⟨⟨_, hr, setText_text _ _⟩, ⟨e, ?_, h4⟩⟩ ?_ ?_⟩
  · exact (ho _ (.there (.here (by decide)))).trans h3
  · intro s' hne p
    exact ho _ (.here (tag_ne hne))
  · exact ho _ (.here (tag_ne_alignment s))

theorem change_alignment {d : Doc} {r : Rec} (h : Shows d.root r) {f : Elem → Elem}
    (hf : ∀ e, (f e).tag = e.tag) (m : Option String) (l : List Entry)
    (hg : ∀ e, e.attrib.get? "method" = r.method → e.children.map entryOf = r.links →
      (f e).attrib.get? "method" = m ∧ (f e).children.map entryOf = l) :
    ∃ r', change d ["alignment"] f = .ok { d with root := r' } ∧ Shows r' { r with method := m, links := l } := by
  obtain ⟨e, h1, h2, h3⟩ := h.alignment
  obtain ⟨r', hc, hr, ho⟩ := change_ok (d := d) (p := ["alignment"]) hf h1
  have side : ∀ s, ShowsSide r' s (r.side s) := by
    intro s
    obtain ⟨⟨e0, h1, h2⟩, ⟨e, h3, h4⟩⟩ := shows_side h s
    exact ⟨⟨e0, (ho _ (.here (tag_ne_alignment s).symm)).trans h1, h2⟩,
      ⟨e, (ho _ (.here (tag_ne_alignment s).symm)).trans h3, h4⟩⟩
  exact ⟨r', hc, side .source, side .target, ⟨f e, hr, hg e h2 h3⟩⟩

/-! ### Entries -/

theorem defaultElem_entry (t : String) : entryOf (defaultElem t) = ⟨t, newAttr⟩ := by
  unfold entryOf defaultElem newAttr
  simp only [Entry.mk.injEq]
  refine ⟨rfl, funext fun k => ?_⟩
  simp only [Elem.attrib, AD.get?_cons, AD.get?_nil]
  by_cases h1 : k = "ignore"
  · simp [h1]
  by_cases h2 : k = "skip"
  · simp [h2]
  by_cases h3 : k = "newline"
  · simp [h3]
  by_cases h4 : k = "blankline"
  · simp [h4]
  have e : ∀ a : String, ¬ k = a → ¬ a = k := fun a h h' => h h'.symm
  simp [h1, h2, h3, h4, e _ h1, e _ h2, e _ h3, e _ h4]

theorem setAttr_entry (e : Elem) (k v : String) :
    entryOf (setAttr e k v) = ⟨e.tag, fun j => if j = k then some v else (entryOf e).attr j⟩ := by
  unfold entryOf
  simp only [setAttr_tag, setAttr_attrib, AD.get?_set]

theorem tagElem_entry (tags : List String) (t : String) : entryOf (tagElem t (tags.count t)) = docEntry tags t := by
  unfold tagElem
  rw [setAttr_entry, defaultElem_entry]
  rfl

theorem link_entry (key ft fv tt tv : String) :
    entryOf (.mk "link" [("from_tag", ft), ("from_" ++ key, fv), ("to_tag", tt), ("to_" ++ key, tv)] none none []) =
      linkEntry key ft fv tt tv := by
  unfold entryOf linkEntry
  simp only [Entry.mk.injEq]
  refine ⟨rfl, funext fun k => ?_⟩
  simp only [Elem.attrib, AD.get?_cons, AD.get?_nil]
  have e : ∀ a : String, (a = k) = (k = a) := fun a => propext ⟨Eq.symm, Eq.symm⟩
  simp only [e]

/-- A change of the first child with a tag. -/
theorem updKids_first (tag k v : String) : ∀ cs : List Elem,
    (setFirst tag k v (cs.map entryOf) = none ∧ updKids tag (update [] fun e => setAttr e k v) cs = none) ∨
    (∃ cs', updKids tag (update [] fun e => setAttr e k v) cs = some cs' ∧
      setFirst tag k v (cs.map entryOf) = some (cs'.map entryOf))
  | [] => .inl ⟨rfl, rfl⟩
  | c :: cs => by
    unfold updKids
    simp only [List.map_cons, setFirst]
    have ht : (entryOf c).tag = c.tag := rfl
    rw [ht]
    by_cases h : c.tag = tag
    · right
      simp only [h, if_true, update]
      exact ⟨_, rfl, by simp only [List.map_cons, setAttr_entry, h]⟩
    · simp only [h, if_false]
      rcases updKids_first tag k v cs with ⟨h1, h2⟩ | ⟨cs', h1, h2⟩
      · left; rw [h1, h2]; exact ⟨rfl, rfl⟩
      · right; rw [h1, h2]; exact ⟨c :: cs', rfl, rfl⟩

theorem updKids_one {t : String} {g g' : Elem → Option Elem} : ∀ {cs : List Elem},
    (∀ c ∈ cs, c.tag = t → g c = g' c) → updKids t g cs = updKids t g' cs
  | [], _ => rfl
  | c :: cs, h => by
    unfold updKids
    rw [updKids_one fun c' hc' => h c' (List.mem_cons_of_mem _ hc')]
    by_cases hc : c.tag = t
    · rw [h c List.mem_cons_self hc]
    · simp only [hc, if_false]

/-- An update below the only element at a path is an update of that element. -/
theorem update_append {q : List String} {f : Elem → Elem} {g : Elem → Elem} : ∀ {p : List String} {e x : Elem},
    reached p e = [x] → update q f x = some (g x) → update (p ++ q) f e = update p (fun _ => g x) e
  | [], e, x, h, hq => by
    simp only [reached, List.cons.injEq, and_true] at h
    subst h
    exact hq
  | t :: ts, e, x, h, hq => by
    have : ∀ {cs : List Elem}, (cs.filter fun c => c.tag = t).flatMap (reached ts) = [x] →
        updKids t (update (ts ++ q) f) cs = updKids t (update ts fun _ => g x) cs := by
      intro cs
      induction cs with
      | nil => intro _; rfl
      | cons c cs ih =>
        intro h
        unfold updKids
        by_cases hc : c.tag = t
        · simp only [List.filter_cons, hc, decide_true, if_true, List.flatMap_cons] at h ⊢
          cases hr : reached ts c with
          | nil =>
            rw [hr, List.nil_append] at h
            have hn1 : update (ts ++ q) f c = none := by
              have := reached_append ts q c
              rw [hr] at this
              exact update_none (by simpa using this)
            have hn2 : update ts (fun _ => g x) c = none := update_none hr
            rw [hn1, hn2, ih h]
          | cons y ys =>
            rw [hr, List.cons_append] at h
            injection h with h1 h2
            subst h1
            rw [List.append_eq_nil_iff] at h2
            rw [update_append (p := ts) (by rw [hr, h2.1]) hq]
            have hne : update ts (fun _ => g y) c ≠ none := update_ne_none (by rw [hr]; simp)
            cases hu : update ts (fun _ => g y) c with
            | none => exact absurd hu hne
            | some z => rfl
        · simp only [List.filter_cons, hc, decide_false, Bool.false_eq_true, if_false] at h ⊢
          rw [ih h]
    simp only [List.cons_append, update]
    rw [this (by simpa only [reached_cons] using h)]
where
  update_none {p : List String} {f : Elem → Elem} : ∀ {e : Elem}, reached p e = [] → update p f e = none := by
    intro e h
    induction p generalizing e with
    | nil => simp [reached] at h
    | cons t ts ih =>
      simp only [update, updKids_none (fun e h => ih h) e.children (by simpa only [reached_cons] using h), Option.map_none]
  update_ne_none {p : List String} {f : Elem → Elem} : ∀ {e : Elem}, reached p e ≠ [] → update p f e ≠ none := by
    induction p with
    | nil => intro e _; simp [update]
    | cons t ts ih =>
      intro e h
      have : ∀ cs : List Elem, (cs.filter fun c => c.tag = t).flatMap (reached ts) ≠ [] →
          updKids t (update ts f) cs ≠ none := by
        intro cs
        induction cs with
        | nil => intro h; exact absurd rfl h
        | cons c cs ihc =>
          intro h
          unfold updKids
          by_cases hc : c.tag = t
          · simp only [List.filter_cons, hc, decide_true, if_true, List.flatMap_cons] at h ⊢
            cases hu : update ts f c with
            | some z => simp
            | none =>
              have h0 : reached ts c = [] := by
                by_contra hne
                exact ih hne hu
              rw [h0, List.nil_append] at h
              simpa using ihc h
          · simp only [List.filter_cons, hc, decide_false, Bool.false_eq_true, if_false] at h ⊢
            simpa using ihc h
      have := this e.children (by simpa only [reached_cons] using h)
      simpa [update] using this

/-- Other attributes and texts. -/
def setAttrs : Elem → AD String String → Option Text → Option Text → Elem
  | .mk t _ _ _ c, a, x, l => .mk t a x l c

theorem setElem_spec {d : Doc} {r : Rec} (h : Shows d.root r) (s : Side) (tag k v : String) :
    (setFirst tag k v (r.side s).entries = none ∧ setElem d s tag k v = .error .attributeError) ∨
    (∃ l r', setFirst tag k v (r.side s).entries = some l ∧ setElem d s tag k v = .ok { d with root := r' } ∧
      Shows r' (r.setSide s fun y => { y with entries := l })) := by
  obtain ⟨e, h3, h4, h5⟩ := (shows_side h s).entries
  rcases updKids_first tag k v e.children with ⟨h1, h2⟩ | ⟨cs', h1, h2⟩
  · left
    rw [h5] at h1
    refine ⟨h1, ?_⟩
    unfold setElem change
    have hr : reached (elPath s ++ [tag]) d.root = [] := by
      rw [reached_append]
      show (reached (elPath s) d.root).flatMap _ = []
      rw [show reached (elPath s) d.root = [e] from h3]
      simp only [List.flatMap_cons, List.flatMap_nil, List.append_nil]
      rw [← h5] at h1
      rw [reached_cons]
      have : ∀ cs : List Elem, setFirst tag k v (cs.map entryOf) = none → cs.filter (fun c => c.tag = tag) = [] := by
        intro cs
        induction cs with
        | nil => intro _; rfl
        | cons c cs ih =>
          intro hh
          simp only [List.map_cons, setFirst] at hh
          by_cases hc : c.tag = tag
          · rw [if_pos (show (entryOf c).tag = tag from hc)] at hh
            simp at hh
          · rw [if_neg (show ¬ (entryOf c).tag = tag from hc)] at hh
            simp only [Option.map_eq_none_iff] at hh
            simp only [List.filter_cons, hc, decide_false, Bool.false_eq_true, if_false, ih hh]
      rw [this _ h1]
      rfl
    rw [update_append.update_none hr]
  · right
    rw [h5] at h2
    have hu : update [tag] (fun e => setAttr e k v) e = some (setChildren e cs') := by
      simp only [update]
      have : (fun e : Elem => some (setAttr e k v)) = update [] fun e => setAttr e k v := rfl
      rw [this, h1]
      rfl
    have := update_append (p := elPath s) (q := [tag]) (f := fun e => setAttr e k v)
      (g := fun _ => setChildren e cs') (e := d.root) (x := e) h3 hu
    have htag : (setChildren e cs').tag = e.tag := setChildren_tag _ _
    -- replace the constant change by one that keeps tags
    have heq : update (elPath s) (fun _ => setChildren e cs') d.root =
        update (elPath s) (fun x => setChildren (setAttrs x e.attrib e.text e.tail) cs') d.root := by
      have h3' : reached (elPath s) d.root = [e] := h3
      have a := update_append (p := elPath s) (q := []) (e := d.root) (x := e)
        (f := fun x => setChildren (setAttrs x e.attrib e.text e.tail) cs')
        (g := fun _ => setChildren e cs') h3' (by cases e; rfl)
      rw [List.append_nil] at a
      exact a.symm
    obtain ⟨r', hc, hs⟩ := change_elements (f := fun x => setChildren (setAttrs x e.attrib e.text e.tail) cs') h s
      (fun x => by rw [setChildren_tag]; cases x; rfl)
      (fun y => { y with pseudo := e.attrib.get? "pseudo_root", entries := cs'.map entryOf }) (fun _ => rfl)
      (fun x y hx1 hx2 => by
        cases x
        exact ⟨rfl, by simp only [setChildren_children]⟩)
    refine ⟨_, r', h2, ?_, ?_⟩
    · rw [← hc]
      unfold setElem change
      rw [this, heq]
    · have e1 : (fun y : SideRec => ({ y with pseudo := e.attrib.get? "pseudo_root", entries := cs'.map entryOf } : SideRec))
          (r.side s) = { r.side s with entries := cs'.map entryOf } := by
        simp only [h4]
      have : r.setSide s (fun y => { y with pseudo := e.attrib.get? "pseudo_root", entries := cs'.map entryOf }) =
          r.setSide s fun y => { y with entries := cs'.map entryOf } := by
        cases s <;> simp only [Rec.setSide, Rec.side] at h4 ⊢ <;> rw [h4]
      rw [this] at hs
      exact hs

mutual
theorem iterTags_eq : ∀ e : Elem, iterTags e = docTags e
  | .mk t a x l c => by
    have h := iterTagsList_eq c
    unfold iterTags docTags
    unfold Pgc.events
    rw [List.filterMap_cons]
    simp only [List.filterMap_append, List.filterMap_cons, List.filterMap_nil, List.append_nil]
    rw [h]
    rfl
theorem iterTagsList_eq : ∀ l : List Elem, iterTagsList l = (Pgc.eventsList l).filterMap fun v => match v with
    | .start e => some e.tag
    | .stop _ => none
  | [] => rfl
  | e :: es => by
    unfold iterTagsList Pgc.eventsList
    rw [List.filterMap_append, iterTags_eq e, iterTagsList_eq es]
    rfl
end

/-- Every method does what the specification says. -/
theorem step_spec {d : Doc} {r : Rec} (h : Shows d.root r) (op : Op) :
    (after r op = none ∧ ∃ e, step d op = .error e) ∨
    (∃ r' d', after r op = some r' ∧ step d op = .ok d' ∧ d'.filename = d.filename ∧ Shows d'.root r') := by
  cases op with
  | setFilename s x =>
    obtain ⟨r', h1, h2⟩ := change_filename h s x
    exact .inr ⟨_, _, rfl, h1, rfl, h2⟩
  | setPseudoRoot s t =>
    obtain ⟨r', h1, h2⟩ := change_elements (f := fun e => setAttr e "pseudo_root" t) h s (fun e => setAttr_tag e _ _)
      (fun y => { y with pseudo := some t }) (fun _ => rfl)
      (fun e y h1 h2 => by rw [setAttr_attrib, setAttr_children]; exact ⟨AD.get?_set_self _ _ _, h2⟩)
    exact .inr ⟨_, _, rfl, h1, rfl, h2⟩
  | addElem s t =>
    obtain ⟨r', h1, h2⟩ := change_elements (f := fun e => setChildren e (e.children ++ [defaultElem t])) h s
      (fun e => setChildren_tag e _) (fun y => { y with entries := y.entries ++ [⟨t, newAttr⟩] }) (fun _ => rfl)
      (fun e y h1 h2 => by
        rw [setChildren_attrib, setChildren_children, List.map_append, h2]
        exact ⟨h1, by simp only [List.map_cons, List.map_nil, defaultElem_entry]⟩)
    exact .inr ⟨_, _, rfl, h1, rfl, h2⟩
  | setElem s t k v =>
    rcases setElem_spec h s t k v with ⟨h1, h2⟩ | ⟨l, r', h1, h2, h3⟩
    · exact .inl ⟨by simp only [after, h1, Option.map_none], _, h2⟩
    · exact .inr ⟨_, _, by simp only [after, h1, Option.map_some], h2, rfl, h3⟩
  | initElems s tree =>
    obtain ⟨r', h1, h2⟩ := change_elements (f := fun e =>
        setAttr (setChildren e ((iterTags tree).foldl initStep (e.children, [])).1) "pseudo_root" tree.tag) h s
      (fun e => by rw [setAttr_tag, setChildren_tag])
      (fun y => { y with pseudo := some tree.tag,
                         entries := y.entries ++ (docTags tree).eraseDups.map (docEntry (docTags tree)) })
      (fun _ => rfl)
      (fun e y h1 h2 => by
        rw [setAttr_attrib, setAttr_children, setChildren_children, iterTags_eq, (init_inv e.children (docTags tree)).1,
          List.map_append, h2, List.map_map]
        refine ⟨AD.get?_set_self _ _ _, ?_⟩
        simp only [List.append_cancel_left_eq]
        exact List.map_congr_left fun t _ => tagElem_entry _ t)
    exact .inr ⟨_, _, rfl, h1, rfl, h2⟩
  | setMethod m =>
    by_cases hm : m = "n" ∨ m = "id"
    · obtain ⟨r', h1, h2⟩ := change_alignment (f := fun e => setAttr e "method" m) h (fun e => setAttr_tag e _ _)
        (some m) r.links (fun e h1 h2 => by
          rw [setAttr_attrib, setAttr_children]; exact ⟨AD.get?_set_self _ _ _, h2⟩)
      refine .inr ⟨{ r with method := some m }, { d with root := r' }, by simp only [after, hm, if_true], ?_, rfl, h2⟩
      have : m ∈ ["n", "id"] := by simpa using hm
      simp only [step, setMethod, this, if_true, h1]
    · refine .inl ⟨by simp only [after, hm, if_false], .assertionError, ?_⟩
      have : ¬ m ∈ ["n", "id"] := by simpa using hm
      simp only [step, setMethod, this, if_false]
  | clearLinks =>
    obtain ⟨r', h1, h2⟩ := change_alignment (f := fun e => setChildren e []) h (fun e => setChildren_tag e _)
      r.method [] (fun e h1 h2 => by rw [setChildren_attrib, setChildren_children]; exact ⟨h1, rfl⟩)
    exact .inr ⟨_, _, rfl, h1, rfl, h2⟩
  | addLink key a b c e =>
    obtain ⟨r', h1, h2⟩ := change_alignment (f := fun x => setChildren x (x.children ++
        [.mk "link" [("from_tag", a), ("from_" ++ key, b), ("to_tag", c), ("to_" ++ key, e)] none none []])) h
      (fun e => setChildren_tag e _) r.method (r.links ++ [linkEntry key a b c e])
      (fun x h1 h2 => by
        rw [setChildren_attrib, setChildren_children, List.map_append, h2]
        exact ⟨h1, by simp only [List.map_cons, List.map_nil, link_entry]⟩)
    exact .inr ⟨_, _, rfl, h1, rfl, h2⟩

theorem run_spec : ∀ (ops : List Op) {d : Doc} {r : Rec}, Shows d.root r →
    Shows (run d ops).root (history r ops) ∧ (run d ops).filename = d.filename
  | [], _, _, h => ⟨h, rfl⟩
  | op :: ops, d, r, h => by
    unfold run history
    rcases step_spec h op with ⟨h1, e, h2⟩ | ⟨r', d', h1, h2, h3, h4⟩
    · rw [h1, h2]
      exact run_spec ops h
    · rw [h1, h2]
      have := run_spec ops h4
      exact ⟨this.1, this.2.trans h3⟩

/-! ### Writing and reading -/

theorem rereadList_eq : ∀ l : List Elem, Pgc.rereadList l = l.map Pgc.reread
  | [] => by simp [Pgc.rereadList]
  | e :: es => by rw [Pgc.rereadList, rereadList_eq es]; rfl

theorem reread_children (e : Elem) : (Pgc.reread e).children = e.children.map Pgc.reread := by
  cases e
  rw [Pgc.reread, rereadList_eq]
  rfl

theorem reread_tag (e : Elem) : (Pgc.reread e).tag = e.tag := by cases e; rw [Pgc.reread]; rfl
theorem reread_attrib (e : Elem) : (Pgc.reread e).attrib = e.attrib := by cases e; rw [Pgc.reread]; rfl
theorem reread_text (e : Elem) : (Pgc.reread e).text = Pgc.noEmpty e.text := by cases e; rw [Pgc.reread]; rfl

theorem reached_reread : ∀ (p : List String) (e : Elem), reached p (Pgc.reread e) = (reached p e).map Pgc.reread
  | [], e => rfl
  | t :: ts, e => by
    rw [reached_cons, reached_cons, reread_children, List.filter_map, List.map_flatMap, List.flatMap_map]
    have : ((fun c : Elem => decide (c.tag = t)) ∘ Pgc.reread) = fun c => decide (c.tag = t) := by
      funext c
      simp only [Function.comp, reread_tag]
    rw [this]
    congr 1
    funext c
    exact reached_reread ts c

theorem entry_reread (e : Elem) : entryOf (Pgc.reread e) = entryOf e := by
  unfold entryOf
  rw [reread_tag, reread_attrib]

theorem shows_reread {root : Elem} {r : Rec} (h : Shows root r) : Shows (Pgc.reread root)
    { r with source := { r.source with filename := Pgc.noEmpty r.source.filename },
             target := { r.target with filename := Pgc.noEmpty r.target.filename } } := by
  have kids : ∀ e : Elem, (Pgc.reread e).children.map entryOf = e.children.map entryOf := by
    intro e
    rw [reread_children, List.map_map]
    exact List.map_congr_left fun c _ => entry_reread c
  have side : ∀ s (y : SideRec), ShowsSide root s y →
      ShowsSide (Pgc.reread root) s { y with filename := Pgc.noEmpty y.filename } := by
    intro s y h
    obtain ⟨⟨e, h1, h2⟩, ⟨e', h3, h4, h5⟩⟩ := h
    exact ⟨⟨Pgc.reread e, by rw [reached_reread, h1]; rfl, by rw [reread_text, h2]⟩,
      ⟨Pgc.reread e', by rw [reached_reread, h3]; rfl, by rw [reread_attrib, h4], by rw [kids, h5]⟩⟩
  obtain ⟨e, h1, h2, h3⟩ := h.alignment
  exact ⟨side _ _ h.source, side _ _ h.target,
    ⟨Pgc.reread e, by rw [reached_reread, h1]; rfl, by rw [reread_attrib, h2], by rw [kids, h3]⟩⟩

theorem look_ok {d : Doc} {p : List String} {e : Elem} (h : reached p d.root = [e]) : look d p = .ok e := by
  unfold look
  rw [find_eq, h]
  rfl

theorem getFilename_shows {ws : Char → Bool} {d : Doc} {r : Rec} (h : Shows d.root r) (s : Side) :
    getFilename ws d s = match (r.side s).filename with
      | some x => .ok (strip ws x)
      | none => .error .attributeError := by
  obtain ⟨e, h1, h2⟩ := (shows_side h s).filename
  unfold getFilename
  rw [look_ok (p := fnPath s) h1]
  show (match e.text with | some x => _ | none => _) = _
  rw [h2]

end Verif.HitaextFile
