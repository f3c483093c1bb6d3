import Verif.Lemmas.PosixPath
import Verif.Lemmas.StatsCorpusRun
import Verif.Props.StatsTable

/-! Property C67 (lib/daeso/stats/corpus.py). -/
namespace Verif.Props.StatsCorpus
open Verif Verif.Etree Verif.StatsTable Verif.StatsCorpus Verif.Spec.StatsTable Verif.Spec.StatsCorpus

private theorem fine_iff {ws : Char → Bool} {j : Job} {b : Parts} : SoundParts ws j b ↔ Fine ws j b := by
  unfold SoundParts Fine
  simp only [same_iff]

/-- C67.  If the report files are those of some tables, a run over the corpus succeeds, and then they are those of the
tables renewed by it; no other file is changed. -/
theorem run_renews {ws : Char → Bool} (hw : Blanks ws) {j : Job} (hj : Sound ws j) (hd : Distinct j) (hs : j.subs ≠ [])
    {b : Parts} (hb : SoundParts ws j b) {f : Files} (h : Holds j b f) {b' : Parts} (hr : Renewed j b b') :
    ∃ g, run ws j f = .ok g ∧ Holds j b' g ∧ ∀ n, ¬ Report j n → g n = f n := by
  obtain ⟨g, h1, h2, h3⟩ := run_holds hw hj (fine_iff.1 hb) hd hs h
  refine ⟨g, h1, ?_, h3⟩
  have he : ∀ a ∈ j.annots, ∀ s ∈ j.subs, ∀ k, upd j b a s k = b' a s k := fun a ha s hs k => (renewed_eq hr ha hs k).symm
  refine ⟨fun a ha s hs k => by rw [← he a ha s hs k]; exact h2.sub a ha s hs k, fun a ha k => ?_, fun k => ?_⟩
  · rw [← List.map_congr_left fun s hs => he a ha s hs k]
    exact h2.annot a ha k
  · rw [← List.flatMap_congr fun a ha => List.map_congr_left fun s hs => he a ha s hs k]
    exact h2.seg k

private theorem drop_empty {α : Type} {N : Table} (F G : α → Table) (w : α → Bool) : ∀ (l : List α) {t : Table},
    t.map tag = N.map tag →
    (∀ x ∈ l, (w x = true ∧ F x = G x ∧ N.map tag = (F x).map tag) ∨ (w x = true ∧ NoValues (F x) ∧ NoValues (G x) ∧
      N.map tag = (F x).map tag ∧ N.map tag = (G x).map tag) ∨ (w x = false ∧ NoValues (F x) ∧ N.map tag = (F x).map tag)) →
    joinAll t (l.map F) = joinAll t ((l.filter w).map G)
  | [], _, _, _ => rfl
  | x :: l, t, ht, h => by
    have h' : ∀ y ∈ l, _ := fun y hy => h y (by simp [hy])
    rcases h x (by simp) with ⟨h1, h2, h3⟩ | ⟨h1, h2, h3, h4, h5⟩ | ⟨h1, h2, h3⟩
    · rw [List.filter_cons_of_pos h1]
      show joinAll (joinT t (F x)) (l.map F) = joinAll (joinT t (G x)) ((l.filter w).map G)
      rw [← h2]
      exact drop_empty F G w l (by rw [tag_joinT (ht.trans h3), ht]) h'
    · rw [List.filter_cons_of_pos h1]
      show joinAll (joinT t (F x)) (l.map F) = joinAll (joinT t (G x)) ((l.filter w).map G)
      rw [joinT_void (ht.trans h4) h2, joinT_void (ht.trans h5) h3]
      exact drop_empty F G w l ht h'
    · rw [List.filter_cons_of_neg (by simp [h1])]
      show joinAll (joinT t (F x)) (l.map F) = _
      rw [joinT_void (ht.trans h3) h2]
      exact drop_empty F G w l ht h'

private theorem drop_flat {β : Type} {N : Table} (F G : β → List Table) : ∀ (l : List β) {t : Table},
    t.map tag = N.map tag →
    (∀ x ∈ l, (∀ t : Table, t.map tag = N.map tag → joinAll t (F x) = joinAll t (G x)) ∧ ∀ p ∈ F x, N.map tag = p.map tag) →
    joinAll t (l.flatMap F) = joinAll t (l.flatMap G)
  | [], _, _, _ => rfl
  | x :: l, t, ht, h => by
    obtain ⟨h1, h2⟩ := h x (by simp)
    rw [List.flatMap_cons, List.flatMap_cons, joinAll_append, joinAll_append, ← h1 t ht]
    exact drop_flat F G l (by rw [tag_joinAll fun p hp => by rw [ht]; exact h2 p hp, ht]) fun y hy => h y (by simp [hy])

/-- C67.  The first run over a corpus: the report on the segment has the values of all parts that are asked for, in the order
of the annotations and the subsegments, each once. -/
theorem first_run {ws : Char → Bool} (hw : Blanks ws) {j : Job} (hj : Sound ws j) (hd : Distinct j) (hs : j.subs ≠ [])
    {f : Files} (hf : ∀ n, Report j n → f n = none) (w : Text → Text → Bool)
    (hwant : ∀ a s, w a s = true ↔ Wanted j.targets a s) :
    ∃ g, run ws j f = .ok g ∧
      (∀ k, ∃ t, JoinedAll (j.new k) (j.annots.flatMap fun a => (j.subs.filter (w a)).map fun s => j.stats a s k) t ∧
        Reports (g (j.segFile k)) (j.summ k t)) ∧
      ∀ n, ¬ Report j n → g n = f n := by
  have hb : SoundParts ws j (fun _ _ k => j.new k) := fun a ha s hs k => ⟨(hj.new k).1, (same_iff _ _).2 rfl⟩
  obtain ⟨g, h1, h2, h3⟩ := run_renews hw hj hd hs hb (holds_fresh hj hf) (upd_renewed j _)
  refine ⟨g, h1, fun k => ?_, h3⟩
  obtain ⟨t, ht, hr⟩ := h2.seg k
  have hst : ∀ a ∈ j.annots, ∀ s ∈ j.subs, (j.new k).map tag = (j.stats a s k).map tag := fun a ha s hs =>
    (same_iff _ _).1 (hj.stats a ha s hs k).2
  have e : joinAll (j.new k) (j.annots.flatMap fun a => j.subs.map fun s => upd j (fun _ _ k => j.new k) a s k) =
      joinAll (j.new k) (j.annots.flatMap fun a => (j.subs.filter (w a)).map fun s => j.stats a s k) := by
    refine drop_flat _ _ _ rfl fun a ha => ⟨fun t ht => drop_empty _ _ (w a) _ ht fun s hs' => ?_, ?_⟩
    · unfold upd
      by_cases hwt : Wanted j.targets a s
      · by_cases hv : NoValues (j.stats a s k)
        · rw [if_neg fun h => h.2 hv]
          exact .inr (.inl ⟨(hwant a s).2 hwt, (hj.new k).2, hv, rfl, hst a ha s hs'⟩)
        · rw [if_pos ⟨hwt, hv⟩]
          exact .inl ⟨(hwant a s).2 hwt, rfl, hst a ha s hs'⟩
      · rw [if_neg fun h => hwt h.1]
        exact .inr (.inr ⟨by rw [Bool.eq_false_iff]; exact fun h => hwt ((hwant a s).1 h), (hj.new k).2, rfl⟩)
    · exact annot_tags (fine_upd hj (fine_iff.1 hb)) ha k
  obtain rfl := joinedAll_unique ht
  rw [e] at hr
  refine ⟨_, joinedAll_joinAll fun p hp => ?_, hr⟩
  obtain ⟨a, ha, hp⟩ := List.mem_flatMap.1 hp
  obtain ⟨s, hs', rfl⟩ := List.mem_map.1 hp
  exact hst a ha s (List.mem_filter.1 hs').1

/-- Several runs, one after the other. -/
def runs (ws : Char → Bool) (j : Job) : List Event → Files → Py Files
  | [], f => .ok f
  | e :: h, f => match run ws { j with targets := e.1, stats := e.2 } f with
    | .error x => .error x
    | .ok g => runs ws j h g

private theorem history_aux {ws : Char → Bool} (hw : Blanks ws) {j : Job} (hj : Sound ws j) (hd : Distinct j)
    (hs : j.subs ≠ []) : ∀ (h : List Event), (∀ e ∈ h, SoundParts ws j e.2) → ∀ {b : Parts} {f : Files},
    SoundParts ws j b → Holds j b f →
    ∃ g b', runs ws j h f = .ok g ∧ Holds j b' g ∧
      (∀ a ∈ j.annots, ∀ s ∈ j.subs, ∀ k, Latest h a s k (b a s k) (b' a s k)) ∧ ∀ n, ¬ Report j n → g n = f n
  | [], _, b, f, _, hf => ⟨f, b, rfl, hf, fun a _ s _ k => .inr ⟨by simp, rfl⟩, fun _ _ => rfl⟩
  | e :: h, he, b, f, hb, hf => by
    let j1 : Job := { j with targets := e.1, stats := e.2 }
    have hj1 : Sound ws j1 := ⟨hj.new, he e (by simp), hj.summ⟩
    have hd1 : Distinct j1 := ⟨hd.sub, hd.annot, hd.seg, hd.sub_annot, hd.sub_seg, hd.annot_seg⟩
    have hf1 : Holds j1 b f := ⟨hf.sub, hf.annot, hf.seg⟩
    obtain ⟨g, h1, h2, h3⟩ := run_renews hw hj1 hd1 hs hb hf1 (upd_renewed j1 b)
    have hb1 : SoundParts ws j (upd j1 b) := fine_iff.2 (fine_upd hj1 (fine_iff.1 hb))
    obtain ⟨g', b', k1, k2, k3, k4⟩ := history_aux hw hj hd hs h (fun x hx => he x (by simp [hx])) hb1
      ⟨h2.sub, h2.annot, h2.seg⟩
    refine ⟨g', b', ?_, k2, ?_, ?_⟩
    · show (match run ws j1 f with
        | .error x => (Except.error x : Py Files)
        | .ok g => runs ws j h g) = _
      rw [h1]
      exact k1
    · intro a ha s hs' k
      rcases k3 a ha s hs' k with ⟨x, y, z, rfl, l1, l2, l3, l4⟩ | ⟨l1, l2⟩
      · exact .inl ⟨e :: x, y, z, rfl, l1, l2, l3, l4⟩
      · by_cases hc : Wanted e.1 a s ∧ ¬ NoValues (e.2 a s k)
        · refine .inl ⟨[], e, h, rfl, hc.1, hc.2, ?_, l1⟩
          rw [l2]
          show upd j1 b a s k = _
          unfold upd
          exact if_pos hc
        · refine .inr ⟨?_, ?_⟩
          · intro x hx
            rw [List.mem_cons] at hx
            rcases hx with rfl | hx
            · intro h; by_contra h'; exact hc ⟨h, h'⟩
            · exact l1 x hx
          · rw [l2]
            show upd j1 b a s k = _
            unfold upd
            exact if_neg hc
    · intro n hn
      rw [k4 n hn]
      exact h3 n hn

/-- C67.  After any number of runs, with any targets and whatever the corpus was at the time of each, the reports are those of
the tables that were found last: a part whose last table had no values is still reported with the one before it. -/
theorem history {ws : Char → Bool} (hw : Blanks ws) {j : Job} (hj : Sound ws j) (hd : Distinct j) (hs : j.subs ≠ [])
    (h : List Event) (he : ∀ e ∈ h, SoundParts ws j e.2) {f : Files} (hf : ∀ n, Report j n → f n = none) :
    ∃ g b, runs ws j h f = .ok g ∧ Holds j b g ∧
      (∀ a ∈ j.annots, ∀ s ∈ j.subs, ∀ k, Latest h a s k (j.new k) (b a s k)) ∧ ∀ n, ¬ Report j n → g n = f n :=
  history_aux hw hj hd hs h he (fun _ _ _ _ k => ⟨(hj.new k).1, (same_iff _ _).2 rfl⟩) (holds_fresh hj hf)

private theorem same_files {j : Job} {b b' : Parts} {f g g' : Files} (h1 : Holds j b g) (h2 : Holds j b' g')
    (hb : ∀ a ∈ j.annots, ∀ s ∈ j.subs, ∀ k, b a s k = b' a s k)
    (h3 : ∀ n, ¬ Report j n → g n = f n) (h4 : ∀ n, ¬ Report j n → g' n = f n) : g = g' := by
  funext n
  by_cases hn : Report j n
  · exact holds_unique h1 h2 hb hn
  · rw [h3 n hn, h4 n hn]

/-- C67.  It is enough to run for the parts that have changed: if the reports on all other parts are up to date, the outcome
is the same as that of a run for all. -/
theorem incremental {ws : Char → Bool} (hw : Blanks ws) {j : Job} (hj : Sound ws j) (hd : Distinct j) (hs : j.subs ≠ [])
    {b : Parts} (hb : SoundParts ws j b) {f : Files} (h : Holds j b f)
    (hup : ∀ a ∈ j.annots, ∀ s ∈ j.subs, ¬ Wanted j.targets a s → ∀ k, NoValues (j.stats a s k) ∨ b a s k = j.stats a s k) :
    ∃ g, run ws j f = .ok g ∧ run ws { j with targets := ["all".toList] } f = .ok g := by
  let j1 : Job := { j with targets := ["all".toList] }
  have hj1 : Sound ws j1 := ⟨hj.new, hj.stats, hj.summ⟩
  have hd1 : Distinct j1 := ⟨hd.sub, hd.annot, hd.seg, hd.sub_annot, hd.sub_seg, hd.annot_seg⟩
  have hf1 : Holds j1 b f := ⟨h.sub, h.annot, h.seg⟩
  obtain ⟨g, h1, h2, h3⟩ := run_renews hw hj hd hs hb h (upd_renewed j b)
  obtain ⟨g', k1, k2, k3⟩ := run_renews hw hj1 hd1 hs hb hf1 (upd_renewed j1 b)
  refine ⟨g, h1, ?_⟩
  rw [same_files h2 ⟨k2.sub, k2.annot, k2.seg⟩ ?_ h3 k3]
  · exact k1
  · intro a ha s hs' k
    have hall : Wanted j1.targets a s := .inr (.inl (by simp [j1]))
    obtain ⟨u1, u2⟩ := upd_renewed j b a ha s hs' k
    obtain ⟨v1, v2⟩ := upd_renewed j1 b a ha s hs' k
    by_cases hv : NoValues (j.stats a s k)
    · rw [u2 fun h => h.2 hv, v2 fun h => h.2 hv]
    · rw [v1 ⟨hall, hv⟩]
      by_cases hwt : Wanted j.targets a s
      · exact u1 ⟨hwt, hv⟩
      · rw [u2 fun h => hwt h.1]
        exact (hup a ha s hs' hwt k).resolve_left hv

/-- C67.  A run that finds nothing new changes nothing: a second run over the same corpus, and also a run over a corpus from
which all files were removed, whose reports then stay as they are. -/
theorem unchanged {ws : Char → Bool} (hw : Blanks ws) {j : Job} (hj : Sound ws j) (hd : Distinct j) (hs : j.subs ≠ [])
    {b : Parts} (hb : SoundParts ws j b) {f : Files} (h : Holds j b f)
    (hold : ∀ a ∈ j.annots, ∀ s ∈ j.subs, Wanted j.targets a s → ∀ k, NoValues (j.stats a s k) ∨ b a s k = j.stats a s k) :
    run ws j f = .ok f := by
  obtain ⟨g, h1, h2, h3⟩ := run_renews hw hj hd hs hb h (upd_renewed j b)
  rw [h1, same_files h2 h ?_ h3 fun _ _ => rfl]
  intro a ha s hs' k
  unfold upd
  split
  · rename_i hc
    exact ((hold a ha s hs' hc.1 k).resolve_left hc.2).symm
  · rfl

/-- C67.  Without subsegments the run is refused. -/
theorem no_subs (ws : Char → Bool) (j : Job) (f : Files) (h : j.subs = []) : run ws j f = .error .assertionError := by
  unfold run
  rw [if_pos h]

/-! ### Reports that were cut off -/

private theorem readText_cut {ws : Char → Bool} (hw : Blanks ws) {t p t1 : Table} (hr : Readable ws p)
    (hs : t.map tag = p.map tag) {c c' : Option Text} (hc : Reports c p) (hcut : Cut c c')
    (hok : readText ws c' t = .ok t1) : readText ws c t = .ok t1 := by
  rcases hcut with rfl | ⟨x, q, rfl, rfl, hq⟩
  · exact hok
  · by_cases hv : NoValues p
    · have := hc.1 hv
      cases this
    · have := hc.2 hv
      injection this with this
      subst this
      unfold readText at hok ⊢
      dsimp only at hok ⊢
      have hn : (read ws q t).2 = none := by
        cases h : (read ws q t).2 with
        | none => rfl
        | some e =>
          exfalso
          have : read ws q t = ((read ws q t).1, some e) := by rw [← h]
          rw [this] at hok
          cases hok
      rw [← Verif.Props.StatsTable.truncated hw t p hr ((same_iff t p).2 hs) true q hq hn]
      exact hok

private theorem forIn_cut {α : Type} {F F' : α → Table → Py Table} {I : Table → Prop} : ∀ (l : List α) {t t1 : Table}, I t →
    (∀ x ∈ l, ∀ t t1, I t → F' x t = .ok t1 → F x t = .ok t1 ∧ I t1) →
    Py.forIn l t F' = .ok t1 → Py.forIn l t F = .ok t1
  | [], _, _, _, _, h => h
  | x :: l, t, t1, hi, hstep, h => by
    simp only [Py.forIn] at h ⊢
    cases hx : F' x t with
    | error e => rw [hx] at h; cases h
    | ok u =>
      obtain ⟨h1, h2⟩ := hstep x (by simp) t u hi hx
      rw [hx] at h
      rw [h1]
      exact forIn_cut l h2 (fun y hy => hstep y (by simp [hy])) h

/-- C67.  Reports on parts that were cut off, as by a crash or a full disk, are never counted in part: a later run raises an
exception, or its reports on the annotations and the segment are those of a run with the complete files. -/
theorem cut_off {ws : Char → Bool} (hw : Blanks ws) {j : Job} (hj : Sound ws j) (hd : Distinct j)
    {b : Parts} (hb : SoundParts ws j b) {f : Files} (h : Holds j b f) {f' g' : Files}
    (hcut : ∀ a ∈ j.annots, ∀ s ∈ j.subs, ∀ k, Cut (f (j.subFile a s k)) (f' (j.subFile a s k)))
    (hsame : ∀ n, (∀ a ∈ j.annots, ∀ s ∈ j.subs, ∀ k, n ≠ j.subFile a s k) → f' n = f n)
    (hrun : run ws j f' = .ok g') :
    ∃ g, run ws j f = .ok g ∧ (∀ a ∈ j.annots, ∀ k, g' (j.annotFile a k) = g (j.annotFile a k)) ∧
      ∀ k, g' (j.segFile k) = g (j.segFile k) := by
  obtain ⟨hs, -, q2, q3, -⟩ := run_ok hd hrun
  obtain ⟨g, hg, -, -⟩ := run_renews hw hj hd hs hb h (upd_renewed j b)
  obtain ⟨-, -, r2, r3, -⟩ := run_ok hd hg
  have hfine := fine_upd hj (fine_iff.1 hb)
  have hann : ∀ a ∈ j.annots, ∀ k, f' (j.annotFile a k) = f (j.annotFile a k) := fun a ha k =>
    hsame _ fun a' ha' s' hs' k' he => hd.sub_annot a' ha' s' hs' k' a ha k he.symm
  have hseg : ∀ k, f' (j.segFile k) = f (j.segFile k) := fun k =>
    hsame _ fun a' ha' s' hs' k' he => hd.sub_seg a' ha' s' hs' k' k he.symm
  have hsub : ∀ a ∈ j.annots, ∀ s ∈ j.subs, ∀ k, Cut (subContent j f a s k) (subContent j f' a s k) := by
    intro a ha s hs' k
    unfold subContent content
    split
    · split
      · exact hcut a ha s hs' k
      · exact .inl rfl
    · exact hcut a ha s hs' k
  have htab : ∀ a ∈ j.annots, ∀ k t, annotTable ws j f' a k = .ok t → annotTable ws j f a k = .ok t := by
    intro a ha k t ht
    unfold annotTable at ht ⊢
    refine forIn_cut (I := fun t => t.map tag = (j.new k).map tag) j.subs rfl ?_ ht
    intro s hs' t t1 hi hx
    have hfs := hfine a ha s hs' k
    have htag := hi.trans hfs.2
    have := readText_cut hw hfs.1 htag (sub_reports h ha hs' k) (hsub a ha s hs' k) hx
    refine ⟨this, ?_⟩
    rw [readText_reports hw hfs.1 htag (sub_reports h ha hs' k)] at this
    injection this with this
    rw [← this, tag_joinT htag, hi]
  have hac : ∀ a ∈ j.annots, ∀ k t, annotContent j f' a k t = annotContent j f a k t := by
    intro a ha k t
    unfold annotContent
    rw [hann a ha k]
  refine ⟨g, hg, ?_, ?_⟩
  · intro a ha k
    obtain ⟨t, ht, he⟩ := q2 a ha k
    obtain ⟨u, hu, he'⟩ := r2 a ha k
    rw [htab a ha k t ht] at hu
    injection hu with hu
    subst hu
    rw [he, he', hac a ha k]
  · intro k
    obtain ⟨t, ht, he⟩ := q3 k
    obtain ⟨u, hu, he'⟩ := r3 k
    have : segTable ws j f k = .ok t := by
      unfold segTable at ht ⊢
      refine forIn_cut (I := fun _ => True) j.annots trivial ?_ ht
      intro a ha x y _ hx
      refine ⟨?_, trivial⟩
      cases hA : annotTable ws j f' a k with
      | error e => rw [hA] at hx; cases hx
      | ok A =>
        rw [hA] at hx
        rw [htab a ha k A hA]
        dsimp only at hx ⊢
        rw [← hac a ha k]
        exact hx
    rw [this] at hu
    injection hu with hu
    subst hu
    rw [he, he', hseg k]

/-! ### Names -/

private theorem kind_name {k k' : Kind} (h : k.name = k'.name) : k = k' := by
  cases k <;> cases k' <;> first | rfl | exact absurd h (by decide)

private theorem kind_dots (k : Kind) : '.' ∉ k.name ∧ '/' ∉ k.name := by cases k <;> decide

private theorem split_first {a b r s : Text} (ha : '.' ∉ a) (hb : '.' ∉ b) (h : a ++ '.' :: r = b ++ '.' :: s) :
    a = b ∧ r = s := by
  induction a generalizing b with
  | nil =>
    cases b with
    | nil => simpa using h
    | cons y b =>
      simp only [List.nil_append, List.cons_append, List.cons.injEq] at h
      exact absurd (by rw [← h.1]; simp) hb
  | cons x a ih =>
    cases b with
    | nil =>
      simp only [List.nil_append, List.cons_append, List.cons.injEq] at h
      exact absurd (by rw [h.1]; simp) ha
    | cons y b =>
      simp only [List.cons_append, List.cons.injEq] at h
      obtain ⟨h1, h2⟩ := ih (fun hx => ha (by simp [hx])) (fun hx => hb (by simp [hx])) h.2
      exact ⟨by rw [h.1, h1], h2⟩

private theorem split_last {a b r s : Text} (hr : '.' ∉ r) (hs : '.' ∉ s) (h : a ++ '.' :: r = b ++ '.' :: s) :
    a = b ∧ r = s := by
  have h' := congrArg List.reverse h
  simp only [List.reverse_append, List.reverse_cons, List.append_assoc, List.singleton_append] at h'
  obtain ⟨h1, h2⟩ := split_first (a := r.reverse) (b := s.reverse) (by simpa using hr) (by simpa using hs) h'
  exact ⟨by simpa using h2, by simpa using h1⟩

/-- Slashes replaced by points. -/
private def noSlash (s : Text) : Text := s.map fun c => if c = '/' then '.' else c

private theorem noSlash_id {s : Text} (h : '/' ∉ s) : noSlash s = s := by
  induction s with
  | nil => rfl
  | cons c s ih =>
    have : c ≠ '/' := fun hc => h (by simp [hc])
    show (if c = '/' then '.' else c) :: noSlash s = _
    rw [if_neg this, ih fun hx => h (by simp [hx])]

private theorem noSlash_inj {s u : Text} (hs : '.' ∉ s) (hu : '.' ∉ u) (h : noSlash s = noSlash u) : s = u := by
  induction s generalizing u with
  | nil =>
    cases u with
    | nil => rfl
    | cons _ _ => simp [noSlash] at h
  | cons c s ih =>
    cases u with
    | nil => simp [noSlash] at h
    | cons d u =>
      have h' : (if c = '/' then '.' else c) :: noSlash s = (if d = '/' then '.' else d) :: noSlash u := h
      simp only [List.cons.injEq] at h'
      have hc : c ≠ '.' := fun hx => hs (by simp [hx])
      have hd : d ≠ '.' := fun hx => hu (by simp [hx])
      rw [ih (fun hx => hs (by simp [hx])) (fun hx => hu (by simp [hx])) h'.2]
      congr 1
      have h1 := h'.1
      split at h1
      · split at h1
        · rename_i e1 e2; rw [e1, e2]
        · exact absurd h1.symm hd
      · split at h1
        · exact absurd h1 hc
        · exact h1

private theorem subFile_eq {j : Job} {a s : Text} (hseg : '/' ∉ j.seg) (ha : '/' ∉ a) (k : Kind) :
    j.subFile a s k = "stats".toList ++ '.' :: (j.seg ++ '.' :: (a ++ '.' :: (noSlash s ++ '.' :: k.name))) := by
  have h1 : j.subFile a s k = noSlash ("stats".toList ++ '.' :: (j.seg ++ '.' :: (a ++ '.' :: (s ++ '.' :: k.name)))) := rfl
  have happ : ∀ x y, noSlash (x ++ y) = noSlash x ++ noSlash y := fun x y => by simp [noSlash]
  have hdot : ∀ x, noSlash ('.' :: x) = '.' :: noSlash x := fun _ => rfl
  rw [h1]
  simp only [happ, hdot, noSlash_id hseg, noSlash_id ha, noSlash_id (kind_dots k).2]
  rw [noSlash_id (by decide)]

private theorem seg_slash (j : Job) : '/' ∉ j.seg := by
  unfold Job.seg PosixPath.basename
  rw [List.mem_reverse]
  intro h
  simpa using List.mem_takeWhile_imp h

/-- C67.  The report files have different names if annotations have no points or slashes in their names and subsegments no
points; a subsegment may have slashes, and the segment may have points. -/
theorem distinct_names (j : Job) (ha : ∀ a ∈ j.annots, '.' ∉ a ∧ '/' ∉ a) (hs : ∀ s ∈ j.subs, '.' ∉ s) : Distinct j := by
  have hseg := seg_slash j
  have esub : ∀ a ∈ j.annots, ∀ s k, j.subFile a s k =
      ("stats".toList ++ '.' :: (j.seg ++ ['.'])) ++ (a ++ '.' :: (noSlash s ++ '.' :: k.name)) := fun a h s k => by
    rw [subFile_eq hseg (ha a h).2]; simp
  have eann : ∀ a k, j.annotFile a k = ("stats".toList ++ '.' :: (j.seg ++ ['.'])) ++ (a ++ '.' :: k.name) := fun a k => by
    show "stats".toList ++ '.' :: (j.seg ++ '.' :: (a ++ '.' :: k.name)) = _
    simp
  have eseg : ∀ k, j.segFile k = ("stats".toList ++ '.' :: (j.seg ++ ['.'])) ++ k.name := fun k => by
    show "stats".toList ++ '.' :: (j.seg ++ '.' :: k.name) = _
    simp
  have hz : ∀ {x : Text}, '.' ∉ x → x.count '.' = 0 := fun h => List.count_eq_zero.2 h
  refine ⟨?_, ?_, ?_, ?_, ?_, ?_⟩
  · intro a h1 s h2 k a' h1' s' h2' k' he
    rw [esub a h1, esub a' h1', List.append_cancel_left_eq] at he
    obtain ⟨e1, e2⟩ := split_first (ha a h1).1 (ha a' h1').1 he
    obtain ⟨e3, e4⟩ := split_last (kind_dots k).1 (kind_dots k').1 e2
    exact ⟨e1, noSlash_inj (hs s h2) (hs s' h2') e3, kind_name e4⟩
  · intro a h1 k a' h1' k' he
    rw [eann, eann, List.append_cancel_left_eq] at he
    obtain ⟨e1, e2⟩ := split_first (ha a h1).1 (ha a' h1').1 he
    exact ⟨e1, kind_name e2⟩
  · intro k k' he
    rw [eseg, eseg, List.append_cancel_left_eq] at he
    exact kind_name he
  · intro a h1 s h2 k a' h1' k' he
    rw [esub a h1, eann, List.append_cancel_left_eq] at he
    have := congrArg (List.count '.') he
    simp [List.count_append, List.count_cons, hz (ha a h1).1, hz (ha a' h1').1, hz (kind_dots k).1, hz (kind_dots k').1] at this
  · intro a h1 s h2 k k' he
    rw [esub a h1, eseg, List.append_cancel_left_eq] at he
    have := congrArg (List.count '.') he
    simp [List.count_append, List.count_cons, hz (kind_dots k').1] at this
  · intro a h1 k k' he
    rw [eann, eseg, List.append_cancel_left_eq] at he
    have := congrArg (List.count '.') he
    simp [List.count_append, List.count_cons, hz (kind_dots k').1] at this

/-! ### A corpus -/

/-- White space: space and line end. -/
private def blanks (c : Char) : Bool := c = ' ' || c = '\n'

private theorem blanks_ok : Blanks blanks :=
  ⟨rfl, rfl, rfl, rfl, fun c h => by
    have h1 : c ≠ ' ' := by rintro rfl; simp at h
    have h2 : c ≠ '\n' := by rintro rfl; simp at h
    simp [blanks, h1, h2]⟩

/-- A table of files and numbers. -/
def tab (l : List Text) (m : List Int) (o : Option ℚ) : Table :=
  [⟨"FILE".toList, [], .string l, none⟩, ⟨"CN".toList, [], .count m, o⟩]

/-- The sum of the numbers. -/
def total (t : Table) : Table := t.map fun c => match c.cells with
  | .count m => { c with overall := some m.sum }
  | _ => c

/-- A job on two annotations and two subsegments. -/
def job (targets subs : List Text) (stats : Parts) : Job :=
  ⟨"x/s1".toList, ["ma".toList, "aa".toList], subs, targets, stats, fun _ => tab [] [] none, fun _ => total⟩

/-- One file in each part of the annotation "ma". -/
def found : Parts := fun a s k =>
  if a = "ma".toList ∧ k = .pgc then tab ["f.pgc".toList] [s.length] none else tab [] [] none

private theorem tab_readable (l : List Text) (m : List Int) (o : Option ℚ) (h : l.length = m.length)
    (hl : ∀ s ∈ l, s = "f.pgc".toList) : Readable blanks (tab l m o) where
  columns := by simp [tab]
  wide := by simp [tab]
  rows := ⟨l.length, by simp [tab, Cells.len, h]⟩
  labels := by simp [tab, blanks]
  words := by
    intro c hc u hu s hs
    simp only [tab, List.mem_cons, List.not_mem_nil, or_false] at hc
    rcases hc with rfl | rfl
    · simp only [Cells.string.injEq] at hu
      subst hu
      rw [hl s hs]
      decide
    · simp at hu
  first := by
    intro c hc
    simp only [tab, List.head?_cons, Option.some.injEq] at hc
    subst hc
    refine ⟨by show ¬ "----".toList <+: "FILE".toList; decide, fun u hu s hs => ?_⟩
    simp only [Cells.string.injEq] at hu
    subst hu
    rw [hl s hs]
    decide
  apart := by simp [tab, Apart]

private theorem total_only : OnlyOverall total := by
  intro t
  unfold total
  induction t with
  | nil => exact .nil
  | cons c t ih =>
    refine .cons ?_ ih
    dsimp only
    split <;> exact ⟨rfl, rfl, rfl⟩

/-- The hypotheses are met. -/
theorem job_sound (targets subs : List Text) : Sound blanks (job targets subs found) := by
  refine ⟨fun k => ⟨tab_readable _ _ _ rfl (by simp), by simp [job, tab, NoValues, Cells.len]⟩, ?_, fun k => total_only⟩
  intro a ha s hs k
  show Readable blanks (found a s k) ∧ List.Forall₂ SameType (tab [] [] none) (found a s k)
  unfold found
  split
  · exact ⟨tab_readable _ _ _ rfl (by simp), by simp [tab, SameType]⟩
  · exact ⟨tab_readable _ _ _ rfl (by simp), by simp [tab, SameType]⟩

example : Distinct (job [] ["a/b".toList, "c".toList] found) :=
  distinct_names _ (by simp [job]) (by simp [job])

/-- What is in a file after a run. -/
def after (ws : Char → Bool) (j : Job) (n : Text) : Option Text := match run ws j (fun _ => none) with
  | .ok g => g n
  | .error _ => none

example : after blanks (job [] ["a/b".toList, "c".toList] found) "stats.s1.pgc".toList =
    some (write true (total (tab ["f.pgc".toList, "f.pgc".toList] [3, 1] none))) := by decide +kernel

example : after blanks (job [] ["a/b".toList, "c".toList] found) "stats.s1.ma.a.b.pgc".toList =
    some (write true (tab ["f.pgc".toList] [3] none)) := by decide +kernel

example : after blanks (job ["c".toList] ["a/b".toList, "c".toList] found) "stats.s1.pgc".toList =
    some (write true (total (tab ["f.pgc".toList] [1] none))) := by decide +kernel

/-- What is in a file after a run for everything and a run for nothing. -/
def afterTwice (ws : Char → Bool) (j : Job) (n : Text) : Option Text := match run ws j (fun _ => none) with
  | .ok g => match run ws { j with targets := ["nothing".toList] } g with
    | .ok g' => g' n
    | .error _ => none
  | .error _ => none

/-- C67.  The names of the report files: the name of the segment is the last part of its directory, whether or not that is
given with slashes at its end; slashes in the name of a subsegment become points. -/
theorem file_names (j : Job) {d n : Text} (m : Nat) (hd : d = [] ∨ ∃ x, d = x ++ "/".toList) (hn : '/' ∉ n) (hn' : n ≠ [])
    (hj : j.segDir = d ++ n ++ List.replicate m '/') (k : Kind) :
    j.segFile k = "stats.".toList ++ n ++ ".".toList ++ (match k with | .pgc => "pgc".toList | .gb => "gb".toList) ∧
    (∀ a, j.annotFile a k = "stats.".toList ++ n ++ ".".toList ++ a ++ ".".toList ++
      (match k with | .pgc => "pgc".toList | .gb => "gb".toList)) ∧
    (∀ a s, '/' ∉ a → j.subFile a s k = "stats.".toList ++ n ++ ".".toList ++ a ++ ".".toList ++
      (s.map fun c => if c = '/' then '.' else c) ++ ".".toList ++
      (match k with | .pgc => "pgc".toList | .gb => "gb".toList)) := by
  have hseg : j.seg = n := by
    unfold Job.seg
    have hlast : (d ++ n).getLast? ≠ some '/' := by
      rw [List.getLast?_append_of_ne_nil _ hn']
      exact PosixPath.noSlash_last hn
    rw [hj, PosixPath.rstripSlash_append hlast, PosixPath.basename_append hn hd]
  have hmap : ∀ x : Text, '/' ∉ x → (x.map fun c => if c = '/' then '.' else c) = x := by
    intro x hx
    conv_rhs => rw [← List.map_id x]
    refine List.map_congr_left fun c hc => ?_
    have : c ≠ '/' := by rintro rfl; exact hx hc
    simp [this]
  refine ⟨?_, ?_, ?_⟩
  · unfold Job.segFile
    rw [hseg]
    cases k <;> simp [dots, Kind.name]
  · intro a
    unfold Job.annotFile
    rw [hseg]
    cases k <;> simp [dots, Kind.name]
  · intro a s ha
    unfold Job.subFile
    rw [hseg]
    have h1 := hmap a ha
    have h2 := hmap n hn
    cases k <;> simp [dots, Kind.name, h1, h2]

example : (job [] [] found).segDir = "x/".toList ++ "s1".toList ++ List.replicate 0 '/' := rfl

/-- C67, limits.  Two subsegments whose names differ only in slashes and points share a file: after the next run the values of
the second are counted in the place of those of the first. -/
theorem shared_name : ∃ j : Job, j.subs = ["a/b".toList, "a.b".toList] ∧
    after blanks j (j.segFile .pgc) =
      some (write true (total (tab ["f.pgc".toList, "f.pgc".toList] [5, 7] none))) ∧
    afterTwice blanks j (j.segFile .pgc) =
      some (write true (total (tab ["f.pgc".toList, "f.pgc".toList] [7, 7] none))) := by
  refine ⟨job [] ["a/b".toList, "a.b".toList] fun a s k => if a = "ma".toList ∧ k = .pgc then
    tab ["f.pgc".toList] [if s = "a/b".toList then 5 else 7] none else tab [] [] none, rfl, ?_, ?_⟩ <;> decide +kernel

end Verif.Props.StatsCorpus
