import Verif.Lemmas.StatsCorpusJoin

namespace Verif.StatsCorpus
open Verif Verif.Etree Verif.StatsTable Verif.Spec.StatsTable Verif.Spec.StatsCorpus

set_option linter.unusedSectionVars false

theorem isTarget_iff (j : Job) (a s : Text) : j.isTarget a s = true ↔ Wanted j.targets a s := by
  unfold Job.isTarget Wanted
  by_cases h : j.targets = []
  · simp [h]
  · simp [h, or_assoc]

open Classical in
/-- The parts after a run. -/
noncomputable def upd (j : Job) (b : Parts) : Parts := fun a s k =>
  if Wanted j.targets a s ∧ ¬ NoValues (j.stats a s k) then j.stats a s k else b a s k

theorem upd_renewed (j : Job) (b : Parts) : Renewed j b (upd j b) := by
  intro a _ s _ k
  unfold upd
  exact ⟨fun h => if_pos h, fun h => if_neg h⟩

theorem renewed_eq {j : Job} {b b' : Parts} (h : Renewed j b b') {a s : Text} (ha : a ∈ j.annots) (hs : s ∈ j.subs) (k : Kind) :
    b' a s k = upd j b a s k := by
  unfold upd
  split
  · rename_i hc; exact (h a ha s hs k).1 hc
  · rename_i hc; exact (h a ha s hs k).2 hc

/-- Parts that can be read. -/
def Fine (ws : Char → Bool) (j : Job) (b : Parts) : Prop := ∀ a ∈ j.annots, ∀ s ∈ j.subs, ∀ k,
  Readable ws (b a s k) ∧ (j.new k).map tag = (b a s k).map tag

theorem fine_upd {ws : Char → Bool} {j : Job} {b : Parts} (hj : Sound ws j) (hb : Fine ws j b) : Fine ws j (upd j b) := by
  intro a ha s hs k
  unfold upd
  split
  · exact ⟨(hj.stats a ha s hs k).1, (same_iff _ _).1 (hj.stats a ha s hs k).2⟩
  · exact hb a ha s hs k

theorem upd_noValues {j : Job} {b : Parts} {a s : Text} {k : Kind} (h : NoValues (upd j b a s k)) : NoValues (b a s k) := by
  unfold upd at h
  split at h
  · rename_i hc; exact absurd h hc.2
  · exact h

theorem noValues_joinT {t p : Table} (h : t.map tag = p.map tag) : NoValues (joinT t p) ↔ NoValues t ∧ NoValues p := by
  induction t generalizing p with
  | nil =>
    cases p with
    | nil => simp [joinT, NoValues]
    | cons c p => simp at h
  | cons a t ih =>
    cases p with
    | nil => simp at h
    | cons c p =>
      simp only [List.map_cons, List.cons.injEq] at h
      have := ih h.2
      show NoValues (joinC a c :: joinT t p) ↔ _
      unfold NoValues at *
      simp only [List.mem_cons, forall_eq_or_imp, this, len_joinC h.1]
      constructor
      · rintro ⟨h1, h2, h3⟩; exact ⟨⟨by omega, h2⟩, by omega, h3⟩
      · rintro ⟨⟨h1, h2⟩, h3, h4⟩; exact ⟨by omega, h2, h4⟩

theorem noValues_joinAll : ∀ {ps : List Table} {t : Table}, (∀ p ∈ ps, t.map tag = p.map tag) →
    (NoValues (joinAll t ps) ↔ NoValues t ∧ ∀ p ∈ ps, NoValues p)
  | [], t, _ => by simp [joinAll]
  | p :: ps, t, h => by
    have h0 := tag_joinT (h p (by simp))
    show NoValues (joinAll (joinT t p) ps) ↔ _
    rw [noValues_joinAll fun q hq => by rw [h0]; exact h q (by simp [hq]), noValues_joinT (h p (by simp))]
    simp [and_assoc]

/-- Reading a list of reports. -/
theorem read_list {ws : Char → Bool} (hw : Blanks ws) {α : Type} (F : α → Option Text) (P : α → Table) :
    ∀ (l : List α) {t : Table}, (∀ s ∈ l, Reports (F s) (P s) ∧ Readable ws (P s) ∧ t.map tag = (P s).map tag) →
    Py.forIn l t (fun s t => readText ws (F s) t) = .ok (joinAll t (l.map P))
  | [], _, _ => rfl
  | s :: l, t, h => by
    obtain ⟨h1, h2, h3⟩ := h s (by simp)
    simp only [Py.forIn, readText_reports hw h2 h3 h1]
    rw [read_list hw F P l fun x hx => by rw [tag_joinT h3]; exact h x (by simp [hx])]
    rfl

theorem content_eq (old : Option Text) (t : Table) : (NoValues t → content old t = old) ∧
    (¬ NoValues t → content old t = some (write true t)) := by
  unfold content
  constructor
  · intro h; rw [if_pos ((void_iff t).2 h)]
  · intro h; rw [if_neg fun h' => h ((void_iff t).1 h')]

theorem sub_reports {j : Job} {b : Parts} {f : Files} (h : Holds j b f) {a s : Text} (ha : a ∈ j.annots) (hs : s ∈ j.subs)
    (k : Kind) : Reports (subContent j f a s k) (upd j b a s k) := by
  have hb := h.sub a ha s hs k
  unfold subContent upd
  by_cases ht : j.isTarget a s = true
  · rw [if_pos ht]
    have hw := (isTarget_iff j a s).1 ht
    obtain ⟨c1, c2⟩ := content_eq (f (j.subFile a s k)) (j.stats a s k)
    by_cases hv : NoValues (j.stats a s k)
    · rw [if_neg fun hc => hc.2 hv, c1 hv]; exact hb
    · rw [if_pos ⟨hw, hv⟩, c2 hv]; exact ⟨fun h => absurd h hv, fun _ => rfl⟩
  · rw [if_neg ht, if_neg fun hc => ht ((isTarget_iff j a s).2 hc.1)]; exact hb

theorem joinAll_append (t : Table) (l m : List Table) : joinAll t (l ++ m) = joinAll (joinAll t l) m := by
  simp [joinAll]

section
variable {ws : Char → Bool} (hw : Blanks ws) {j : Job} (hj : Sound ws j) {b : Parts} (hb : Fine ws j b)
include hw hj hb

/-- The table of an annotation. -/
noncomputable abbrev annotJoin (j : Job) (b : Parts) (a : Text) (k : Kind) : Table :=
  joinAll (j.new k) (j.subs.map fun s => b a s k)

theorem annotTable_eq {f : Files} (h : Holds j b f) {a : Text} (ha : a ∈ j.annots) (k : Kind) :
    annotTable ws j f a k = .ok (annotJoin j (upd j b) a k) := by
  unfold annotTable
  exact read_list hw _ (fun s => upd j b a s k) j.subs fun s hs =>
    ⟨sub_reports h ha hs k, (fine_upd hj hb a ha s hs k).1, (fine_upd hj hb a ha s hs k).2⟩

omit hw hj in
theorem annot_tags {a : Text} (ha : a ∈ j.annots) (k : Kind) :
    ∀ p ∈ j.subs.map (fun s => b a s k), (j.new k).map tag = p.map tag := by
  intro p hp
  obtain ⟨s, hs, rfl⟩ := List.mem_map.1 hp
  exact (hb a ha s hs k).2

omit hw hj in
theorem seg_tags (k : Kind) :
    ∀ p ∈ j.annots.flatMap (fun a => j.subs.map fun s => b a s k), (j.new k).map tag = p.map tag := by
  intro p hp
  obtain ⟨a, ha, hp⟩ := List.mem_flatMap.1 hp
  exact annot_tags hb ha k p hp

omit hw in
theorem annot_reports {f : Files} (h : Holds j b f) {a : Text} (ha : a ∈ j.annots) (k : Kind) :
    Reports (annotContent j f a k (annotJoin j (upd j b) a k)) (j.summ k (annotJoin j (upd j b) a k)) := by
  obtain ⟨c1, c2⟩ := content_eq (f (j.annotFile a k)) (j.summ k (annotJoin j (upd j b) a k))
  unfold annotContent
  refine ⟨fun hv => ?_, c2⟩
  rw [c1 hv]
  obtain ⟨t, ht, hr⟩ := h.annot a ha k
  obtain rfl := joinedAll_unique ht
  refine hr.1 ?_
  rw [same_void (hj.summ k _)] at hv ⊢
  rw [noValues_joinAll (annot_tags (fine_upd hj hb) ha k)] at hv
  rw [noValues_joinAll (annot_tags hb ha k)]
  refine ⟨hv.1, fun p hp => ?_⟩
  obtain ⟨s, hs, rfl⟩ := List.mem_map.1 hp
  exact upd_noValues (hv.2 _ (List.mem_map.2 ⟨s, hs, rfl⟩))

theorem seg_list {f : Files} (h : Holds j b f) (k : Kind) : ∀ (l : List Text), (∀ a ∈ l, a ∈ j.annots) → ∀ {t : Table},
    t.map tag = (j.new k).map tag →
    Py.forIn l t (fun a t => match annotTable ws j f a k with
      | .error e => .error e
      | .ok A => readText ws (annotContent j f a k A) t) =
    .ok (joinAll t (l.flatMap fun a => j.subs.map fun s => upd j b a s k))
  | [], _, _, _ => rfl
  | a :: l, hl, t, ht => by
    have ha := hl a (by simp)
    have hf := fine_upd hj hb
    have htags := annot_tags hf ha k
    have hread : Readable ws (annotJoin j (upd j b) a k) := by
      refine readable_joinAll (hj.new k).1 fun p hp => ⟨?_, htags p hp⟩
      obtain ⟨s, hs, rfl⟩ := List.mem_map.1 hp
      exact (hf a ha s hs k).1
    have hsum := hj.summ k (annotJoin j (upd j b) a k)
    have hrt := readText_reports (t := t) hw (same_readable hsum hread)
      (by rw [same_tag hsum, tag_joinAll htags, ht]) (annot_reports hj hb h ha k)
    rw [same_join hsum, joinAll_assoc (hj.new k).2 ht htags] at hrt
    simp only [Py.forIn, annotTable_eq hw hj hb h ha k, hrt]
    rw [seg_list h k l (fun x hx => hl x (by simp [hx]))
      (by rw [tag_joinAll fun p hp => by rw [ht]; exact htags p hp, ht]),
      List.flatMap_cons, joinAll_append]

theorem run_holds (hd : Distinct j) (hs : j.subs ≠ []) {f : Files} (h : Holds j b f) :
    ∃ g, run ws j f = .ok g ∧ Holds j (upd j b) g ∧ ∀ n, ¬ Report j n → g n = f n := by
  have hseg : ∀ k, segTable ws j f k = .ok (joinAll (j.new k) (j.annots.flatMap fun a => j.subs.map fun s => upd j b a s k)) :=
    fun k => seg_list hw hj hb h k j.annots (fun _ h => h) rfl
  obtain ⟨g, hg⟩ := run_succ hd hs fun k => ⟨_, hseg k⟩
  obtain ⟨-, r1, r2, r3, r4⟩ := run_ok hd hg
  refine ⟨g, hg, ⟨?_, ?_, ?_⟩, r4⟩
  · intro a ha s hs' k
    rw [r1 a ha s hs' k]
    exact sub_reports h ha hs' k
  · intro a ha k
    refine ⟨annotJoin j (upd j b) a k, joinedAll_joinAll (annot_tags (fine_upd hj hb) ha k), ?_⟩
    obtain ⟨t, ht, he⟩ := r2 a ha k
    rw [annotTable_eq hw hj hb h ha k] at ht
    injection ht with ht
    subst ht
    rw [he]
    exact annot_reports hj hb h ha k
  · intro k
    refine ⟨_, joinedAll_joinAll (seg_tags (fine_upd hj hb) k), ?_⟩
    obtain ⟨t, ht, he⟩ := r3 k
    rw [hseg k] at ht
    injection ht with ht
    subst ht
    rw [he]
    obtain ⟨c1, c2⟩ := content_eq (f (j.segFile k))
      (j.summ k (joinAll (j.new k) (j.annots.flatMap fun a => j.subs.map fun s => upd j b a s k)))
    refine ⟨fun hv => ?_, c2⟩
    rw [c1 hv]
    obtain ⟨t, ht, hr⟩ := h.seg k
    obtain rfl := joinedAll_unique ht
    refine hr.1 ?_
    rw [same_void (hj.summ k _)] at hv ⊢
    rw [noValues_joinAll (seg_tags (fine_upd hj hb) k)] at hv
    rw [noValues_joinAll (seg_tags hb k)]
    refine ⟨hv.1, fun p hp => ?_⟩
    obtain ⟨a, ha, hp⟩ := List.mem_flatMap.1 hp
    obtain ⟨s, hs, rfl⟩ := List.mem_map.1 hp
    exact upd_noValues (hv.2 _ (List.mem_flatMap.2 ⟨a, ha, List.mem_map.2 ⟨s, hs, rfl⟩⟩))

end

theorem reports_unique {c d : Option Text} {t : Table} (h1 : Reports c t) (h2 : Reports d t) : c = d := by
  by_cases hv : NoValues t
  · rw [h1.1 hv, h2.1 hv]
  · rw [h1.2 hv, h2.2 hv]

/-- The reports are determined by the parts. -/
theorem holds_unique {j : Job} {b b' : Parts} {f g : Files} (hf : Holds j b f) (hg : Holds j b' g)
    (hb : ∀ a ∈ j.annots, ∀ s ∈ j.subs, ∀ k, b a s k = b' a s k) {n : Text} (hn : Report j n) : f n = g n := by
  rcases hn with ⟨a, ha, s, hs, k, rfl⟩ | ⟨a, ha, k, rfl⟩ | ⟨k, rfl⟩
  · have := hf.sub a ha s hs k
    rw [hb a ha s hs k] at this
    exact reports_unique this (hg.sub a ha s hs k)
  · obtain ⟨t, ht, h1⟩ := hf.annot a ha k
    obtain ⟨u, hu, h2⟩ := hg.annot a ha k
    have e : (j.subs.map fun s => b a s k) = j.subs.map fun s => b' a s k :=
      List.map_congr_left fun s hs => hb a ha s hs k
    obtain rfl := joinedAll_unique ht
    obtain rfl := joinedAll_unique hu
    rw [e] at h1
    exact reports_unique h1 h2
  · obtain ⟨t, ht, h1⟩ := hf.seg k
    obtain ⟨u, hu, h2⟩ := hg.seg k
    have e : (j.annots.flatMap fun a => j.subs.map fun s => b a s k) = j.annots.flatMap fun a => j.subs.map fun s => b' a s k :=
      List.flatMap_congr fun a ha => List.map_congr_left fun s hs => hb a ha s hs k
    obtain rfl := joinedAll_unique ht
    obtain rfl := joinedAll_unique hu
    rw [e] at h1
    exact reports_unique h1 h2

/-- No report files yet. -/
theorem holds_fresh {ws : Char → Bool} {j : Job} (hj : Sound ws j) {f : Files} (hf : ∀ n, Report j n → f n = none) :
    Holds j (fun _ _ k => j.new k) f := by
  have hN : ∀ (k : Kind) (ps : List Table), (∀ p ∈ ps, p = j.new k) → NoValues (j.summ k (joinAll (j.new k) ps)) ∧
      JoinedAll (j.new k) ps (joinAll (j.new k) ps) := by
    intro k ps h
    have ht : ∀ p ∈ ps, (j.new k).map tag = p.map tag := fun p hp => by rw [h p hp]
    refine ⟨?_, joinedAll_joinAll ht⟩
    rw [same_void (hj.summ k _), noValues_joinAll ht]
    exact ⟨(hj.new k).2, fun p hp => by rw [h p hp]; exact (hj.new k).2⟩
  have hr : ∀ n t, Report j n → NoValues t → Reports (f n) t := fun n t h1 h2 => ⟨fun _ => hf n h1, fun h => absurd h2 h⟩
  refine ⟨fun a ha s hs k => hr _ _ (.inl ⟨a, ha, s, hs, k, rfl⟩) (hj.new k).2, fun a ha k => ?_, fun k => ?_⟩
  · obtain ⟨h1, h2⟩ := hN k (j.subs.map fun _ => j.new k) (by simp)
    exact ⟨_, h2, hr _ _ (.inr (.inl ⟨a, ha, k, rfl⟩)) h1⟩
  · obtain ⟨h1, h2⟩ := hN k (j.annots.flatMap fun _ => j.subs.map fun _ => j.new k) (by simp)
    exact ⟨_, h2, hr _ _ (.inr (.inr ⟨k, rfl⟩)) h1⟩

end Verif.StatsCorpus
