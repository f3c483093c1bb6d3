import Verif.Spec.SplitJoin
import Verif.Lemmas.PgcCopy
import Verif.Lemmas.Loading
import Verif.Props.Pgc

namespace Verif.SplitJoin
open Verif Verif.Etree Verif.Pgc Verif.PgcCp Verif.Spec Verif.Spec.PgcCp Verif.Spec.SplitJoin
set_option linter.unusedSectionVars false

variable {β γ : Type}

/-! ### Reading with sparse loading -/

theorem step_sparse (env : Env γ) (s : State γ) (ev : Event) (h : ∀ e, ev = .stop e → e.tag ≠ "aligned_graphs") :
    Pgc.step env .sparse s ev = Pgc.step env .none s ev := by
  cases ev with
  | start e => rfl
  | stop e =>
    have := h e rfl
    simp only [Pgc.step, this, if_false]
    rfl

theorem loadBank_relations {env : Env γ} {x : Option String × Bank γ} {s s' : State γ}
    (h : loadBank env .sparse x s = .ok s') : s'.relations = s.relations := by
  unfold loadBank at h
  dsimp only at h
  split at h
  · cases h
  · rw [← Except.ok.inj h]

theorem loadBanks_relations {env : Env γ} {s s' : State γ} (h : loadBanks env .sparse s = .ok s') :
    s'.relations = s.relations := by
  unfold loadBanks at h
  exact TextAlign.forIn_partial (fun t : State γ => t.relations = s.relations) rfl
    (fun x _ t t' ht hs => (loadBank_relations hs).trans ht) h

theorem forall₂_right {α δ : Type} {R : α → δ → Prop} {l : List α} {m : List δ} (h : List.Forall₂ R l m) {b : δ}
    (hb : b ∈ m) : ∃ a ∈ l, R a b := by
  induction h with
  | nil => simp at hb
  | cons h1 _ ih =>
    rcases List.mem_cons.1 hb with rfl | hb
    · exact ⟨_, by simp, h1⟩
    · obtain ⟨a, ha, h⟩ := ih hb
      exact ⟨a, by simp [ha], h⟩

theorem ReadInv.loaded {env : Env γ} {s s' : State γ} (h : ReadInv env s) (hI : Inv env s)
    (hs : loadBanks env .sparse s = .ok s') : ReadInv env s' := by
  obtain ⟨q1, -, -, q4, q5, q6⟩ := hI.loadBanks hs
  refine ⟨q1.wf, ?_, ?_, ?_, ?_⟩
  · intro p hp
    obtain ⟨p0, hp0, ⟨u1, u2, u3, u4⟩, u5, u6⟩ := forall₂_right q5 hp
    have := h.pairs p0 hp0
    refine ⟨by rw [← u3, ← u4]; exact this.ids, q1.known p hp, by rw [← u6]; exact this.align,
      by rw [← u5]; exact this.metaIs, by rw [← u5]; exact this.kept⟩
  · rw [q4]; exact h.metaIs
  · rw [loadBanks_relations hs]; exact h.rels
  · intro k b hk
    have hb := q6 k
    rw [hk] at hb
    simp only [Option.map_some] at hb
    obtain ⟨b', k1, k2⟩ := Option.map_eq_some_iff.1 hb.symm
    simp only [Prod.mk.injEq] at k2
    rw [← k2.1]
    exact h.paths k b' k1

/-- What is known about a corpus that was read with sparse loading. -/
theorem readInv_sparse {env : Env γ} {evs : List Event} {s : State γ} (h : parse env .sparse evs = .ok s)
    (hev : ∀ e, Event.stop e ∈ evs → reread e = e) : ReadInv env s := by
  unfold parse at h
  have := TextAlign.forIn_partial (fun t => ReadInv env t ∧ Inv env t) ⟨ReadInv.init env, Inv.init env⟩
    (fun ev hm t t' ht hst => ?_) h
  · exact this.1
  · refine ⟨?_, ht.2.step (by simp) hst⟩
    by_cases ha : ∃ e, ev = .stop e ∧ e.tag = "aligned_graphs"
    · obtain ⟨e, rfl, ha⟩ := ha
      have : loadBanks env .sparse t = .ok t' := by
        rw [← hst]; simp [Pgc.step, ha]
      exact ReadInv.loaded ht.1 ht.2 this
    · rw [step_sparse env t ev fun e he ht => ha ⟨e, he, ht⟩] at hst
      exact ht.1.step (fun e he => hev e (he ▸ hm)) hst

/-! ### Corpora that can be split, joined and read -/

/-- Reading without resolving paths. -/
def idEnv (ws : Char → Bool) : Env γ := ⟨ws, id, fun _ _ => .ok [], fun _ _ _ => .ok []⟩

/-- A corpus in memory that can be written and read again. -/
structure Ready (ws : Char → Bool) (fs : RelPath.FS) (gb : Banks γ) (stat : String → Option Nat) (s : State γ) : Prop where
  inv : ReadInv (idEnv (γ := γ) ws) s
  placed : ∀ k b, s.banks.get? k = some b → ∃ l, Spec.RelPath.Place fs.link l ∧ b.path = Spec.RelPath.path l
  copy : Copyable stat ws s
  load : Loadable gb stat s

theorem used_same {R : Elem → Elem → Prop} {stat : String → Option Nat} {s t : State γ} {l : List (PPair γ)}
    (h : Same R stat s l t) (hl : ∀ p ∈ l, p ∈ s.pairs) {b : Bank γ} (hb : Used t b) :
    ∃ b', Used s b' ∧ SameFile stat (String.ofList b'.path) (String.ofList b.path) ∧ b.format = b'.format := by
  obtain ⟨q, hq, i, hi, hbi⟩ := hb
  obtain ⟨p, hp, hpq⟩ := forall₂_right h.pairs hq
  rcases hi with rfl | rfl
  · obtain ⟨b1, b2, e1, e2, e3, e4⟩ := hpq.source
    rw [hbi] at e2
    obtain rfl := Option.some.inj e2
    exact ⟨b1, ⟨p, hl p hp, _, .inl rfl, e1⟩, e3, e4⟩
  · obtain ⟨b1, b2, e1, e2, e3, e4⟩ := hpq.target
    rw [hbi] at e2
    obtain rfl := Option.some.inj e2
    exact ⟨b1, ⟨p, hl p hp, _, .inr rfl, e1⟩, e3, e4⟩

/-- The kinds of change of metadata: none, or of white space. -/
theorem kept_spaced (ws : Char → Bool) (f : Bool) : Spaced ws (Kept ws f) := by
  cases f with
  | true => exact Props.Pgc.spaced_respaced ws
  | false =>
    intro e e' h
    obtain rfl : e' = e := h
    refine ⟨rfl, rfl, Or.inl rfl, ?_⟩
    generalize e'.children = l
    induction l with
    | nil => exact .nil
    | cons a l ih => exact .cons rfl ih

theorem Ready.of_same {ws : Char → Bool} {fs : RelPath.FS} {gb : Banks γ} {stat : String → Option Nat} {s t : State γ}
    {l : List (PPair γ)} {f : Bool} (hs : Ready ws fs gb stat s) (h : Same (Kept ws f) stat s l t)
    (hl : ∀ p ∈ l, p ∈ s.pairs) (inv : ReadInv (idEnv (γ := γ) ws) t)
    (placed : ∀ k b, t.banks.get? k = some b → ∃ l, Spec.RelPath.Place fs.link l ∧ b.path = Spec.RelPath.path l) :
    Ready ws fs gb stat t := by
  have hR := kept_spaced ws f
  have hforeign : ∀ e e', Kept ws f e e' → Spec.Pgc.ForeignList e.children → Spec.Pgc.ForeignList e'.children := fun e e' h hf =>
    foreignList_spaced hR _ _ (hR e e' h).2.2.2 hf
  refine ⟨inv, placed, ⟨?_, ?_, ?_, ?_, ?_, ?_, ?_, ?_, ?_⟩, ⟨?_, ?_⟩⟩
  · intro b hb
    obtain ⟨b', u, -, e⟩ := used_same h hl hb
    rw [e]; exact hs.copy.format b' u
  · intro b b' hb hb' hf
    obtain ⟨c, u, e1, e2⟩ := used_same h hl hb
    obtain ⟨c', u', e1', e2'⟩ := used_same h hl hb'
    rw [e2, e2']
    exact hs.copy.oneFormat c c' u u' (Corpus.sameFile_trans e1 (Corpus.sameFile_trans hf (Corpus.sameFile_symm e1')))
  · intro b b' hb hb'
    obtain ⟨c, u, e⟩ := h.files b hb
    obtain ⟨c', u', e'⟩ := h.files b' hb'
    rw [e, e']
    exact hs.copy.comparable c c' u u'
  · intro q hq x y r hr
    obtain ⟨p, hp, hpq⟩ := forall₂_right h.pairs hq
    rw [hpq.align] at hr
    exact hs.copy.nodes p (hl p hp) x y r hr
  · rw [h.relations]; exact hs.copy.sorted
  · rw [h.relations]; exact hs.copy.relations
  · intro q hq
    obtain ⟨p, hp, hpq⟩ := forall₂_right h.pairs hq
    have := hpq.metaIs
    split at this
    · rw [this]; simp [Elem.children, Spec.Pgc.ForeignList]
    · exact hforeign _ _ this (hs.copy.metas p (hl p hp))
  · intro e he
    have hm := h.metaIs
    cases hsm : s.meta with
    | none => rw [hsm] at hm; dsimp only at hm; rw [hm] at he; cases he
    | some e0 =>
      rw [hsm] at hm
      dsimp only at hm
      split at hm
      · rw [hm] at he; cases he
      · obtain ⟨e', h1, h2⟩ := hm
        rw [h1] at he
        obtain rfl := Option.some.inj he
        exact hforeign _ _ h2 (hs.copy.corpusMeta e0 hsm)
  · intro b m hb hm
    obtain ⟨c, u, e⟩ := h.files b hb
    exact hs.copy.names c m u (e ▸ hm)
  · intro q hq b b' hb hb' hf he
    obtain ⟨p, hp, hpq⟩ := forall₂_right h.pairs hq
    obtain ⟨b1, b2, e1, e2, e3, -⟩ := hpq.source
    obtain ⟨c1, c2, f1, f2, f3, -⟩ := hpq.target
    rw [hb] at e2
    rw [hb'] at f2
    obtain rfl := Option.some.inj e2
    obtain rfl := Option.some.inj f2
    exact hs.load.self p (hl p hp) b1 c1 e1 f1
      (Corpus.sameFile_trans e3 (Corpus.sameFile_trans hf (Corpus.sameFile_symm f3))) (by rw [← hpq.ids.1, ← hpq.ids.2, he])
  · intro b hb ids hids
    obtain ⟨c, u, e⟩ := h.files b hb
    obtain ⟨c', u', e1, e2⟩ := used_same h hl hb
    have hfmt : b.format = c.format := by
      rw [e2]; exact hs.copy.oneFormat c' c u' u (by rw [← e]; exact e1)
    rw [e, hfmt]
    apply hs.load.graphs c u
    intro i hi
    obtain ⟨q, hq, j, b', h1, h2, h3⟩ := hids i hi
    obtain ⟨p, hp, hpq⟩ := forall₂_right h.pairs hq
    rw [e] at h2
    rcases h3 with ⟨rfl, rfl⟩ | ⟨rfl, rfl⟩
    · obtain ⟨d1, d2, e1, e2, e3, -⟩ := hpq.source
      rw [h1] at e2
      obtain rfl := Option.some.inj e2
      exact ⟨p, hl p hp, _, d1, e1, Corpus.sameFile_trans h2 (Corpus.sameFile_symm e3), .inl ⟨rfl, hpq.ids.1⟩⟩
    · obtain ⟨d1, d2, e1, e2, e3, -⟩ := hpq.target
      rw [h1] at e2
      obtain rfl := Option.some.inj e2
      exact ⟨p, hl p hp, _, d1, e1, Corpus.sameFile_trans h2 (Corpus.sameFile_symm e3), .inr ⟨rfl, hpq.ids.2⟩⟩

/-! ### Writing and reading -/

theorem forall₂_filterMap {α δ ε : Type} {P : α → ε → Prop} {Q : δ → ε → Prop} {f : α → Option δ} {l : List α} {m : List ε}
    (h : List.Forall₂ P l m) (hf : ∀ a ∈ l, ∃ d, f a = some d ∧ ∀ b, P a b → Q d b) : List.Forall₂ Q (l.filterMap f) m := by
  induction h with
  | nil => exact .nil
  | @cons a b _ _ h1 _ ih =>
    obtain ⟨d, e1, e2⟩ := hf a (by simp)
    rw [List.filterMap_cons, e1]
    exact .cons (e2 _ h1) (ih fun a ha => hf a (by simp [ha]))

/-- A corpus made of graph pairs of `s`, with its relations and metadata, and with its banks or other ones for the same
files. -/
structure Made (stat : String → Option Nat) (s : State γ) (w : Corpus.World) (c : Corpus.Corpus) : Prop where
  path : w.path = (PgcCp.world s).path
  rels : w.rels c.rel = s.rels
  metaIs : c.meta = (PgcCp.corpus s).meta
  lt : ∀ k ∈ c.pairs, k < s.pairs.length
  uses : ∀ a, Props.Corpus.Uses w c.pairs a → Props.Corpus.Uses (PgcCp.world s) (PgcCp.corpus s).pairs a
  files : ∀ k ∈ c.pairs, SameFile stat (w.path ((PgcCp.world s).gp k).source) (w.path (w.gp k).source) ∧
    SameFile stat (w.path ((PgcCp.world s).gp k).target) (w.path (w.gp k).target)
  rest : ∀ k, (w.gp k).sourceId = ((PgcCp.world s).gp k).sourceId ∧ (w.gp k).targetId = ((PgcCp.world s).gp k).targetId ∧
    (w.gp k).meta = ((PgcCp.world s).gp k).meta ∧ (w.gp k).align = ((PgcCp.world s).gp k).align

theorem complete_sub {s : State γ} (h : complete s = true) {l : List (PPair γ)} (hl : ∀ p ∈ l, p ∈ s.pairs) :
    complete { s with pairs := l } = true := by
  unfold complete at h ⊢
  rw [List.all_eq_true] at h ⊢
  exact fun p hp => h p (hl p hp)

theorem Made.writable {stat : String → Option Nat} {env : Env γ} {s : State γ} {shown : String → Text} {w : Corpus.World}
    {c : Corpus.Corpus} (h : Made stat s w c)
    (hw : Props.Pgc.Writable stat env (PgcCp.world s) (formats s) shown (PgcCp.corpus s)) :
    Props.Pgc.Writable stat env w (formats s) shown c := by
  have hm : ∀ k ∈ c.pairs, k ∈ (PgcCp.corpus s).pairs := fun k hk => List.mem_range.2 (h.lt k hk)
  refine ⟨?_, ?_, ?_, ?_, ?_, ?_, ?_, ?_⟩
  · intro a b ha hb
    rw [h.path]
    exact hw.comparable a b (h.uses a ha) (h.uses b hb)
  · intro k hk
    rw [(h.rest k).2.2.2]; exact hw.aligned k (hm k hk)
  · intro k hk
    rw [(h.rest k).1, (h.rest k).2.1]; exact hw.ids k (hm k hk)
  · intro b hb
    rw [h.path]; exact hw.files b (h.uses b hb)
  · rw [h.rels]; exact hw.sorted
  · rw [h.rels]; exact hw.stripped
  · intro k hk
    rw [(h.rest k).2.2.1]; exact hw.metas k (hm k hk)
  · rw [h.metaIs]; exact hw.corpusMeta

theorem reads_back {xml : Xml β} (hxml : Lawful xml) (hnl : xml.ws '\n' = true) (hsp : xml.ws ' ' = true) {fs : RelPath.FS}
    {cwd cwd' : List Text} (hcwd : Spec.RelPath.Place fs.link cwd) (hcwd' : Spec.RelPath.Place fs.link cwd')
    {stat : String → Option Nat} {gb : Banks γ} {fn inf d : Text}
    (hd : RelPath.realpath fs cwd (PosixPath.dirname fn) = some d) (hd' : RelPath.realpath fs cwd' (PosixPath.dirname inf) = some d)
    {s : State γ} (hs : Ready xml.ws fs gb stat s) {w : Corpus.World} {c : Corpus.Corpus} (hm : Made stat s w c) (f : Bool) :
    ∃ out, writeCorpus xml fs cwd stat f s w c fn = .ok (out, none) ∧ ∃ t, readAt xml fs cwd' gb inf out = .ok t ∧
      Same (Kept xml.ws f) stat s (c.pairs.filterMap fun k => s.pairs[k]?) t ∧ Ready xml.ws fs gb stat t := by
  have hfiles : ∀ b, Used s b →
      strip xml.ws ((RelPath.bankText fs cwd false fn (String.ofList b.path).toList).getD []) ≠ [] ∧
      (envAt xml fs cwd' gb inf).resolve
        (strip xml.ws ((RelPath.bankText fs cwd false fn (String.ofList b.path).toList).getD [])) = b.path := by
    intro b hb
    obtain ⟨pp, hpp, i, hi, hbi⟩ := id hb
    obtain ⟨l, hl, hl'⟩ := hs.placed _ _ hbi
    have := Props.RelPath.files_lead_back (γ := γ) (fs := fs) (cwd := cwd) (cwd' := cwd')
      (env := envAt xml fs cwd' gb inf) (outf := fn)
      (inf := inf) (d := d) (abs := false) hxml.dot hxml.slash hcwd hcwd' hd hd'
      (by intro x y h; change (RelPath.bankPath fs cwd' inf x).getD x = y; rw [h]; rfl)
      (shown := fun p => (RelPath.bankText fs cwd false fn p.toList).getD [])
      (by intro p; unfold RelPath.bankText; rw [hd]; rfl)
      (p := String.ofList b.path) (l := l) (by rw [String.toList_ofList]; exact hl') hl (hs.copy.names b l hb hl')
    rw [String.toList_ofList] at this ⊢
    exact this
  have hw0 := writable_of (env' := envAt xml fs cwd' gb inf)
    (shown := fun p => (RelPath.bankText fs cwd false fn p.toList).getD []) hs.inv hs.copy rfl hfiles
  have hw := hm.writable hw0
  have hsub : ∀ p ∈ c.pairs.filterMap (fun k => s.pairs[k]?), p ∈ s.pairs := by
    intro p hp
    obtain ⟨k, -, hk⟩ := List.mem_filterMap.1 hp
    exact List.mem_of_getElem? hk
  -- banks of the pairs of `s`
  have hpairs : ∀ k ∈ c.pairs, ∃ p b1 b2, s.pairs[k]? = some p ∧ p ∈ s.pairs ∧ s.banks.get? (some p.sourceBank) = some b1 ∧
      s.banks.get? (some p.targetBank) = some b2 ∧ Used s b1 ∧ Used s b2 ∧
      w.path ((PgcCp.world s).gp k).source = String.ofList b1.path ∧
      w.path ((PgcCp.world s).gp k).target = String.ofList b2.path ∧
      ((PgcCp.world s).gp k).sourceId = p.sourceId ∧ ((PgcCp.world s).gp k).targetId = p.targetId := by
    intro k hk
    have hp : s.pairs[k]? = some (s.pairs[k]'(hm.lt k hk)) := List.getElem?_eq_getElem _
    have hmem := List.getElem_mem (hm.lt k hk)
    generalize s.pairs[k]'(hm.lt k hk) = p at hp hmem
    have hPI := hs.inv.pairs p hmem
    obtain ⟨b1, hb1⟩ := Option.isSome_iff_exists.1 hPI.banks.1
    obtain ⟨b2, hb2⟩ := Option.isSome_iff_exists.1 hPI.banks.2
    refine ⟨p, b1, b2, hp, hmem, hb1, hb2, ⟨p, hmem, _, .inl rfl, hb1⟩, ⟨p, hmem, _, .inr rfl, hb2⟩, ?_, ?_, ?_, ?_⟩
    · rw [hm.path, gp_at hp]; exact (path_at hb1).1
    · rw [hm.path, gp_at hp]; exact (path_at hb2).1
    · rw [gp_at hp]
    · rw [gp_at hp]
  have hself : ∀ k ∈ c.pairs, ¬ (SameFile stat (w.path (w.gp k).source) (w.path (w.gp k).target) ∧
      (w.gp k).sourceId = (w.gp k).targetId) := by
    rintro k hk ⟨h1, h2⟩
    obtain ⟨p, b1, b2, -, e2, e3, e4, -, -, e5, e6, e7, e8⟩ := hpairs k hk
    obtain ⟨f1, f2⟩ := hm.files k hk
    rw [e5] at f1
    rw [e6] at f2
    rw [(hm.rest k).1, (hm.rest k).2.1, e7, e8] at h2
    exact hs.load.self p e2 b1 b2 e3 e4 (Corpus.sameFile_trans f1 (Corpus.sameFile_trans h1 (Corpus.sameFile_symm f2))) h2
  have hread : ∀ b, Props.Corpus.Uses w c.pairs b → ∀ ids : List String, (∀ i ∈ ids, Spec.Pgc.Wanted stat w c.pairs b i) →
      ∃ gs, (envAt xml fs cwd' gb inf).readSparse (w.path b).toList (some (formats s b)) ids = .ok gs ∧
        ∀ i ∈ ids, (gs.get? i).isSome := by
    intro b hb ids hids
    obtain ⟨b0, u, p1, p2⟩ := uses_iff hs.inv (hm.uses b hb)
    obtain ⟨fm, g1, -⟩ := hs.copy.format b0 u
    rw [hm.path, p1, String.toList_ofList, p2, g1, Option.getD_some, ← g1]
    apply hs.load.graphs b0 u
    intro i hi
    obtain ⟨k, hk, hk'⟩ := hids i hi
    obtain ⟨p, b1, b2, -, e2, e3, e4, -, -, e5, e6, e7, e8⟩ := hpairs k hk
    obtain ⟨f1, f2⟩ := hm.files k hk
    have hb0 : String.ofList b0.path = w.path b := by rw [hm.path, p1]
    rcases hk' with ⟨h1, h2⟩ | ⟨h1, h2⟩
    · refine ⟨p, e2, _, b1, e3, ?_, .inl ⟨rfl, ?_⟩⟩
      · rw [hb0, ← e5]; exact Corpus.sameFile_trans h1 (Corpus.sameFile_symm f1)
      · rw [h2, (hm.rest k).1, e7]
    · refine ⟨p, e2, _, b2, e4, ?_, .inr ⟨rfl, ?_⟩⟩
      · rw [hb0, ← e6]; exact Corpus.sameFile_trans h1 (Corpus.sameFile_symm f2)
      · rw [h2, (hm.rest k).2.1, e8]
  obtain ⟨t0, g1, g2⟩ := Props.Pgc.write_read_loaded hw hself hread
  obtain ⟨R, hR, hRt, hRk⟩ : ∃ R : Elem → Elem → Prop, Spaced xml.ws R ∧
      R t0 (reread (if f then indent xml.ws 0 t0 else t0)) ∧ ∀ e e', reread e = e → R e e' → Kept xml.ws f e e' := by
    cases f with
    | true => exact ⟨Xml.Respaced xml.ws, Props.Pgc.spaced_respaced _,
        Props.Pgc.respaced_trans _ _ _ (Props.Etree.indent_respaced hnl hsp 0 t0) (Props.Pgc.spaced_reread_aux _ _), fun _ _ _ h => h⟩
    | false => exact ⟨fun e e' => e' = reread e, Props.Pgc.spaced_reread _, rfl, fun e e' he h => h.trans he⟩
  obtain ⟨t, g3, g4, -, g5⟩ := g2 R hR _ hRt
  refine ⟨xml.write (if f then indent xml.ws 0 t0 else t0), ?_, t, ?_, ?_⟩
  · unfold writeCorpus
    rw [g1]
    dsimp only
    rw [if_pos (complete_sub (complete_of hs.inv hs.copy) hsub)]
  · unfold readAt
    rw [hxml.reread, g3]
  have hbank : ∀ (n : Nat) (j : String) (i : String) (b : Bank γ), s.banks.get? (some j) = some b → Used s b →
      SameFile stat (String.ofList b.path) (w.path n) → Spec.Pgc.BankIs stat w (formats s) t n i → SameBank stat s t j i := by
    rintro n j i b hb hu hf ⟨bk, n', h1, h2, h3, h4⟩
    obtain ⟨m, um, e1, e2⟩ := g5 _ _ h1
    obtain ⟨b1, u1, p1, p2⟩ := uses_iff hs.inv (hm.uses m um)
    obtain ⟨fm, f1, -⟩ := hs.copy.format b1 u1
    have hp : SameFile stat (String.ofList b.path) (String.ofList bk.path) := by
      rw [h3, String.ofList_toList]; exact Corpus.sameFile_trans hf h2
    refine ⟨b, bk, hb, h1, hp, ?_⟩
    rw [e2, p2, f1, Option.getD_some, ← f1]
    refine (hs.copy.oneFormat b b1 hu u1 ?_).symm
    rw [← p1, ← hm.path, ← String.ofList_toList (s := w.path m), ← e1]
    exact hp
  have hsame : Same (Kept xml.ws f) stat s (c.pairs.filterMap fun k => s.pairs[k]?) t := by
    refine ⟨g4.relations.trans hm.rels, ?_, ?_, ?_⟩
    · have hmt := g4.metaIs
      rw [hm.metaIs] at hmt
      change (match s.meta.map fun e => (⟨s.pairs.length, e⟩ : Corpus.Meta) with
        | some m => if m.elem.children ≠ [] then ∃ e, t.meta = some e ∧ R m.elem e else t.meta = none
        | none => t.meta = none) at hmt
      cases he : s.meta with
      | none => rw [he] at hmt; exact hmt
      | some e =>
        rw [he] at hmt
        dsimp only [Option.map_some] at hmt ⊢
        by_cases hne : e.children = []
        · rw [if_neg (by simpa using hne)] at hmt
          rw [if_pos hne]; exact hmt
        · rw [if_pos hne] at hmt
          rw [if_neg hne]
          obtain ⟨e', h5, h6⟩ := hmt
          exact ⟨e', h5, hRk _ _ (hs.inv.metaIs e he).2 h6⟩
    · refine forall₂_filterMap g4.pairs fun k hk => ?_
      obtain ⟨p, b1, b2, e1, e2, e3, e4, u1, u2, e5, e6, e7, e8⟩ := hpairs k hk
      obtain ⟨f1, f2⟩ := hm.files k hk
      rw [e5] at f1
      rw [e6] at f2
      refine ⟨p, e1, fun q hP => ?_⟩
      obtain ⟨r1, r2, r3, r4⟩ := hm.rest k
      refine ⟨hbank _ _ _ b1 e3 u1 f1 hP.source, hbank _ _ _ b2 e4 u2 f2 hP.target,
        ⟨by rw [hP.sourceId, r1, e7], by rw [hP.targetId, r2, e8]⟩, ?_, ?_⟩
      · have hmt := hP.metaIs
        rw [r3, gp_at e1] at hmt
        dsimp only at hmt
        by_cases hne : p.meta.children = []
        · rw [if_neg (by simpa using hne)] at hmt
          rw [if_pos hne]; exact hmt
        · rw [if_pos hne] at hmt
          rw [if_neg hne]
          exact hRk _ _ (hs.inv.pairs p e2).kept hmt
      · obtain ⟨-, -, a3, a4⟩ := plainAlign_of hs.inv hs.copy e2
        intro x y
        by_cases hxy : x = none ∨ y = none
        · rw [hP.only x y hxy, a4 x y hxy]
        · cases x with
          | none => simp at hxy
          | some a =>
            cases y with
            | none => simp at hxy
            | some b => rw [hP.align a b, a3 a b, r4, gp_at e1]
    · rintro b ⟨q, hq, i, hi, hbi⟩
      obtain ⟨m, um, e1, e2⟩ := g5 _ _ hbi
      obtain ⟨b1, u1, p1, p2⟩ := uses_iff hs.inv (hm.uses m um)
      exact ⟨b1, u1, by rw [e1, hm.path, p1, String.toList_ofList]⟩
  refine ⟨hsame, hs.of_same hsame hsub ?_ ?_⟩
  · have hI := readInv_sparse g3 fun e he => by
      have := hxml.texts (xml.write (if f then indent xml.ws 0 t0 else t0)) e
      rw [hxml.reread] at this
      exact this he
    exact ⟨hI.wf, hI.pairs, hI.metaIs, hI.rels, fun k b _ => ⟨b.path, rfl⟩⟩
  · intro k b hk
    obtain ⟨m, um, e1, e2⟩ := g5 _ _ hk
    obtain ⟨b1, ⟨p, hp, j, hj, hbj⟩, p1, p2⟩ := uses_iff hs.inv (hm.uses m um)
    obtain ⟨l, h1, h2⟩ := hs.placed _ _ hbj
    exact ⟨l, h1, by rw [e1, hm.path, p1, String.toList_ofList, h2]⟩

end Verif.SplitJoin
