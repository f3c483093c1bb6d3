import Verif.Spec.StatsCorpus
import Verif.Lemmas.Base

namespace Verif.StatsCorpus
open Verif Verif.Etree Verif.StatsTable Verif.Spec.StatsTable Verif.Spec.StatsCorpus

set_option linter.unusedSectionVars false

/-- The table of a kind. -/
def St.tab (s : St) : Kind → Table
  | .pgc => s.pgc
  | .gb => s.gb

/-- Reading what is in a file. -/
def readText (ws : Char → Bool) (c : Option Text) (t : Table) : Py Table :=
  match c with
  | none => .ok t
  | some x => match read ws x t with
    | (t', none) => .ok t'
    | (_, some e) => .error e

theorem readSub_eq (ws : Char → Bool) (f : Files) (t : Table) (fn : Text) : readSub ws f t fn = readText ws (f fn) t := rfl

/-- What a table leaves in a file. -/
def content (old : Option Text) (t : Table) : Option Text := if isEmpty t then old else some (write true t)

theorem writeTable_at (t : Table) (fn : Text) (f : Files) : writeTable t fn f fn = content (f fn) t := by
  unfold writeTable content put
  split
  · rfl
  · simp

theorem writeTable_ne {t : Table} {fn g : Text} {f : Files} (h : g ≠ fn) : writeTable t fn f g = f g := by
  unfold writeTable put
  split
  · rfl
  · simp [h]

/-- The contents of a subsegment's file after a run. -/
def subContent (j : Job) (f : Files) (a s : Text) (k : Kind) : Option Text :=
  if j.isTarget a s then content (f (j.subFile a s k)) (j.stats a s k) else f (j.subFile a s k)

/-- The table of an annotation. -/
def annotTable (ws : Char → Bool) (j : Job) (f : Files) (a : Text) (k : Kind) : Py Table :=
  Py.forIn j.subs (j.new k) fun s t => readText ws (subContent j f a s k) t

/-- The contents of a subsegment's file at any time. -/
def Between (j : Job) (f g : Files) : Prop :=
  ∀ a ∈ j.annots, ∀ s ∈ j.subs, ∀ k, g (j.subFile a s k) = f (j.subFile a s k) ∨ g (j.subFile a s k) = subContent j f a s k

/-- The files after the writing of a subsegment. -/
def subFiles (j : Job) (a s : Text) (g : Files) : Files :=
  if j.isTarget a s then
    writeTable (j.stats a s .gb) (j.subFile a s .gb) (writeTable (j.stats a s .pgc) (j.subFile a s .pgc) g)
  else g

theorem subStep_ok {ws : Char → Bool} {j : Job} {a s : Text} {st st' : St} (h : subStep ws j a s st = .ok st') :
    st'.files = subFiles j a s st.files ∧
    ∀ k, readText ws (st'.files (j.subFile a s k)) (st.tab k) = .ok (st'.tab k) := by
  unfold subStep at h
  change (match readSub ws (subFiles j a s st.files) st.pgc (j.subFile a s .pgc) with
    | .error e => (Except.error e : Py St)
    | .ok p => match readSub ws (subFiles j a s st.files) st.gb (j.subFile a s .gb) with
      | .error e => (Except.error e : Py St)
      | .ok g => (Except.ok ⟨subFiles j a s st.files, p, g⟩ : Py St)) = _ at h
  cases hp : readSub ws (subFiles j a s st.files) st.pgc (j.subFile a s .pgc) with
  | error e => rw [hp] at h; cases h
  | ok p =>
    cases hg : readSub ws (subFiles j a s st.files) st.gb (j.subFile a s .gb) with
    | error e => rw [hp] at h; dsimp only at h; rw [hg] at h; cases h
    | ok g =>
      rw [hp] at h
      dsimp only at h
      rw [hg] at h
      injection h with h
      subst h
      exact ⟨rfl, fun k => by cases k <;> assumption⟩

section
variable {ws : Char → Bool} {j : Job} (hd : Distinct j)
include hd

theorem subFiles_at {a s : Text} (ha : a ∈ j.annots) (hs : s ∈ j.subs) (k : Kind) (g : Files) :
    subFiles j a s g (j.subFile a s k) = subContent j g a s k := by
  unfold subFiles subContent
  split
  · have hne : j.subFile a s .pgc ≠ j.subFile a s .gb := fun h => by
      have := (hd.sub a ha s hs .pgc a ha s hs .gb h).2.2
      cases this
    cases k
    · rw [writeTable_ne hne, writeTable_at]
    · rw [writeTable_at, writeTable_ne hne.symm]
  · rfl

theorem subFiles_ne {a s : Text} {n : Text} (h : ∀ k, n ≠ j.subFile a s k) (g : Files) :
    subFiles j a s g n = g n := by
  unfold subFiles
  split
  · rw [writeTable_ne (h .gb), writeTable_ne (h .pgc)]
  · rfl

theorem content_between {old o : Option Text} {t : Table} (h : o = old ∨ o = content old t) : content o t = content old t := by
  unfold content at *
  split
  · rename_i he
    rw [if_pos he] at h
    rcases h with h | h <;> exact h
  · rfl

theorem subContent_between {f g : Files} (hb : Between j f g) {a s : Text} (ha : a ∈ j.annots) (hs : s ∈ j.subs) (k : Kind) :
    subContent j g a s k = subContent j f a s k := by
  have h := hb a ha s hs k
  unfold subContent at h ⊢
  split
  · rename_i ht
    rw [if_pos ht] at h
    exact content_between hd h
  · rename_i ht
    rw [if_neg ht] at h
    rcases h with h | h <;> exact h

/-- One subsegment. -/
theorem sub_files {f g : Files} (hb : Between j f g) {a s : Text} (ha : a ∈ j.annots) (hs : s ∈ j.subs) :
    Between j f (subFiles j a s g) ∧
    (∀ k, subFiles j a s g (j.subFile a s k) = subContent j f a s k) ∧
    (∀ a' ∈ j.annots, ∀ s' ∈ j.subs, ∀ k, g (j.subFile a' s' k) = subContent j f a' s' k →
      subFiles j a s g (j.subFile a' s' k) = subContent j f a' s' k) ∧
    (∀ n, (∀ k, n ≠ j.subFile a s k) → subFiles j a s g n = g n) := by
  have h2 : ∀ k, subFiles j a s g (j.subFile a s k) = subContent j f a s k := fun k => by
    rw [subFiles_at hd ha hs, subContent_between hd hb ha hs]
  have h4 : ∀ n, (∀ k, n ≠ j.subFile a s k) → subFiles j a s g n = g n := fun n h => subFiles_ne hd h g
  have cases' : ∀ a' ∈ j.annots, ∀ s' ∈ j.subs, ∀ k,
      (subFiles j a s g (j.subFile a' s' k) = g (j.subFile a' s' k)) ∨
      (subFiles j a s g (j.subFile a' s' k) = subContent j f a' s' k) := by
    intro a' ha' s' hs' k
    by_cases he : a' = a ∧ s' = s
    · obtain ⟨rfl, rfl⟩ := he
      exact .inr (h2 k)
    · refine .inl (h4 _ fun k' h => he ?_)
      have := hd.sub a' ha' s' hs' k a ha s hs k' h
      exact ⟨this.1, this.2.1⟩
  refine ⟨?_, h2, ?_, h4⟩
  · intro a' ha' s' hs' k
    rcases cases' a' ha' s' hs' k with h | h
    · rw [h]; exact hb a' ha' s' hs' k
    · exact .inr h
  · intro a' ha' s' hs' k hg
    rcases cases' a' ha' s' hs' k with h | h
    · rw [h, hg]
    · exact h

/-- The loop over the subsegments. -/
theorem subs_loop {f : Files} {a : Text} (ha : a ∈ j.annots) : ∀ (l : List Text), (∀ s ∈ l, s ∈ j.subs) → ∀ {st st' : St},
    Between j f st.files → Py.forIn l st (subStep ws j a) = .ok st' →
    Between j f st'.files ∧
    (∀ s ∈ l, ∀ k, st'.files (j.subFile a s k) = subContent j f a s k) ∧
    (∀ a' ∈ j.annots, ∀ s' ∈ j.subs, ∀ k, st.files (j.subFile a' s' k) = subContent j f a' s' k →
      st'.files (j.subFile a' s' k) = subContent j f a' s' k) ∧
    (∀ n, (∀ s ∈ l, ∀ k, n ≠ j.subFile a s k) → st'.files n = st.files n) ∧
    (∀ k, Py.forIn l (st.tab k) (fun s t => readText ws (subContent j f a s k) t) = .ok (st'.tab k))
  | [], _, st, st', hb, h => by
    simp only [Py.forIn] at h
    injection h with h
    subst h
    exact ⟨hb, fun s hs => absurd hs (by simp), fun _ _ _ _ _ h => h, fun _ _ => rfl, fun _ => rfl⟩
  | s :: l, hl, st, st', hb, h => by
    simp only [Py.forIn] at h
    cases hs : subStep ws j a s st with
    | error e => rw [hs] at h; cases h
    | ok st1 =>
      rw [hs] at h
      obtain ⟨hf, hr⟩ := subStep_ok hs
      obtain ⟨b1, b2, b3, b4⟩ := sub_files hd hb ha (hl s (by simp))
      rw [← hf] at b1 b2 b3 b4
      obtain ⟨c1, c2, c3, c4, c5⟩ := subs_loop ha l (fun x hx => hl x (by simp [hx])) b1 h
      refine ⟨c1, ?_, ?_, ?_, ?_⟩
      · intro s' hs' k
        rw [List.mem_cons] at hs'
        rcases hs' with rfl | hs'
        · exact c3 a ha s' (hl s' (by simp)) k (b2 k)
        · exact c2 s' hs' k
      · intro a' ha' s' hs' k hg
        exact c3 a' ha' s' hs' k (b3 a' ha' s' hs' k hg)
      · intro n hn
        rw [c4 n fun s' hs' => hn s' (by simp [hs']), b4 n (hn s (by simp))]
      · intro k
        simp only [Py.forIn]
        rw [← b2 k, hr k]
        exact c5 k

end

/-- The files after the writing of an annotation. -/
def annotFiles (j : Job) (a : Text) (p g : Table) (f : Files) : Files :=
  writeTable (j.summ .gb g) (j.annotFile a .gb) (writeTable (j.summ .pgc p) (j.annotFile a .pgc) f)

theorem annotStep_ok {ws : Char → Bool} {j : Job} (hd : Distinct j) {a : Text} (ha : a ∈ j.annots) {st st' : St}
    (h : annotStep ws j a st = .ok st') :
    ∃ m, Py.forIn j.subs ⟨st.files, j.new .pgc, j.new .gb⟩ (subStep ws j a) = .ok m ∧
      st'.files = annotFiles j a m.pgc m.gb m.files ∧
      ∀ k, readText ws (st'.files (j.annotFile a k)) (st.tab k) = .ok (st'.tab k) := by
  unfold annotStep at h
  cases hm : Py.forIn j.subs ⟨st.files, j.new .pgc, j.new .gb⟩ (subStep ws j a) with
  | error e => rw [hm] at h; cases h
  | ok m =>
    rw [hm] at h
    dsimp only at h
    cases hp : readSub ws (writeTable (j.summ .pgc m.pgc) (j.annotFile a .pgc) m.files) st.pgc (j.annotFile a .pgc) with
    | error e => rw [hp] at h; cases h
    | ok p =>
      rw [hp] at h
      dsimp only at h
      cases hg : readSub ws (writeTable (j.summ .gb m.gb) (j.annotFile a .gb)
          (writeTable (j.summ .pgc m.pgc) (j.annotFile a .pgc) m.files)) st.gb (j.annotFile a .gb) with
      | error e => rw [hg] at h; cases h
      | ok g =>
        rw [hg] at h
        injection h with h
        subst h
        refine ⟨m, rfl, rfl, fun k => ?_⟩
        cases k
        · have hne : j.annotFile a .pgc ≠ j.annotFile a .gb := fun h => by
            have := (hd.annot a ha .pgc a ha .gb h).2
            cases this
          show readText ws (writeTable _ _ (writeTable _ _ _) _) _ = _
          rw [writeTable_ne hne]
          exact hp
        · exact hg

/-- The contents of an annotation's file after a run. -/
def annotContent (j : Job) (f : Files) (a : Text) (k : Kind) (t : Table) : Option Text :=
  content (f (j.annotFile a k)) (j.summ k t)

/-- What holds of an annotation's file that has been written. -/
def AnnotDone (ws : Char → Bool) (j : Job) (f g : Files) (a : Text) : Prop :=
  ∀ k, ∃ t, annotTable ws j f a k = .ok t ∧ g (j.annotFile a k) = annotContent j f a k t

/-- What holds of an annotation's file at any time. -/
def AnnotBetween (ws : Char → Bool) (j : Job) (f g : Files) : Prop :=
  ∀ a ∈ j.annots, ∀ k, g (j.annotFile a k) = f (j.annotFile a k) ∨
    ∃ t, annotTable ws j f a k = .ok t ∧ g (j.annotFile a k) = annotContent j f a k t

theorem annots_loop {ws : Char → Bool} {j : Job} (hd : Distinct j) {f : Files} : ∀ (l : List Text), (∀ a ∈ l, a ∈ j.annots) →
    ∀ {st st' : St}, Between j f st.files → AnnotBetween ws j f st.files →
    Py.forIn l st (annotStep ws j) = .ok st' →
    Between j f st'.files ∧ AnnotBetween ws j f st'.files ∧
    (∀ a ∈ l, ∀ s ∈ j.subs, ∀ k, st'.files (j.subFile a s k) = subContent j f a s k) ∧
    (∀ a ∈ j.annots, ∀ s ∈ j.subs, ∀ k, st.files (j.subFile a s k) = subContent j f a s k →
      st'.files (j.subFile a s k) = subContent j f a s k) ∧
    (∀ a ∈ l, AnnotDone ws j f st'.files a) ∧
    (∀ a ∈ j.annots, AnnotDone ws j f st.files a → AnnotDone ws j f st'.files a) ∧
    (∀ n, (∀ a ∈ l, (∀ s ∈ j.subs, ∀ k, n ≠ j.subFile a s k) ∧ ∀ k, n ≠ j.annotFile a k) → st'.files n = st.files n) ∧
    (∀ k, Py.forIn l (st.tab k) (fun a t => match annotTable ws j f a k with
      | .error e => .error e
      | .ok A => readText ws (annotContent j f a k A) t) = .ok (st'.tab k))
  | [], _, st, st', hb, hab, h => by
    simp only [Py.forIn] at h
    injection h with h
    subst h
    exact ⟨hb, hab, fun s hs => absurd hs (by simp), fun _ _ _ _ _ h => h, fun s hs => absurd hs (by simp),
      fun _ _ h => h, fun _ _ => rfl, fun _ => rfl⟩
  | a :: l, hl, st, st', hb, hab, h => by
    simp only [Py.forIn] at h
    cases hs : annotStep ws j a st with
    | error e => rw [hs] at h; cases h
    | ok st1 =>
      rw [hs] at h
      have ha : a ∈ j.annots := hl a (by simp)
      obtain ⟨m, hm, hf, hr⟩ := annotStep_ok hd ha hs
      obtain ⟨b1, b2, b3, b4, b5⟩ := subs_loop (ws := ws) hd ha j.subs (fun _ h => h) (f := f)
        (st := ⟨st.files, j.new .pgc, j.new .gb⟩) hb hm
      have hsubs : ∀ a' ∈ j.annots, ∀ s' ∈ j.subs, ∀ k, st1.files (j.subFile a' s' k) = m.files (j.subFile a' s' k) := by
        intro a' ha' s' hs' k
        rw [hf]
        unfold annotFiles
        rw [writeTable_ne (hd.sub_annot a' ha' s' hs' k a ha .gb), writeTable_ne (hd.sub_annot a' ha' s' hs' k a ha .pgc)]
      have hmann : ∀ a' ∈ j.annots, ∀ k, m.files (j.annotFile a' k) = st.files (j.annotFile a' k) := by
        intro a' ha' k
        exact b4 _ fun s hs' k' h => hd.sub_annot a ha s hs' k' a' ha' k h.symm
      have htab : ∀ k, annotTable ws j f a k = .ok (m.tab k) := by
        intro k
        have := b5 k
        unfold annotTable
        cases k <;> exact this
      have hdone : AnnotDone ws j f st1.files a := by
        intro k
        refine ⟨m.tab k, htab k, ?_⟩
        have hold : content (m.files (j.annotFile a k)) (j.summ k (m.tab k)) = annotContent j f a k (m.tab k) := by
          rw [hmann a ha k]
          refine content_between hd ?_
          rcases hab a ha k with h | ⟨t, ht, h⟩
          · exact .inl h
          · rw [htab k] at ht
            injection ht with ht
            subst ht
            exact .inr h
        have hne : j.annotFile a .pgc ≠ j.annotFile a .gb := fun h => by
          have := (hd.annot a ha .pgc a ha .gb h).2
          cases this
        rw [hf]
        unfold annotFiles
        cases k
        · rw [writeTable_ne hne, writeTable_at]; exact hold
        · rw [writeTable_at, writeTable_ne hne.symm]; exact hold
      have hother : ∀ a' ∈ j.annots, a' ≠ a → ∀ k, st1.files (j.annotFile a' k) = st.files (j.annotFile a' k) := by
        intro a' ha' hne k
        rw [hf]
        unfold annotFiles
        rw [writeTable_ne fun h => hne (hd.annot a' ha' k a ha _ h).1,
          writeTable_ne fun h => hne (hd.annot a' ha' k a ha _ h).1, hmann a' ha' k]
      have hab1 : AnnotBetween ws j f st1.files := by
        intro a' ha' k
        by_cases he : a' = a
        · subst he
          exact .inr (hdone k)
        · rw [hother a' ha' he k]
          exact hab a' ha' k
      have hb1 : Between j f st1.files := by
        intro a' ha' s' hs' k
        rw [hsubs a' ha' s' hs' k]
        exact b1 a' ha' s' hs' k
      obtain ⟨c1, c2, c3, c4, c5, c6, c7, c8⟩ := annots_loop hd l (fun x hx => hl x (by simp [hx])) hb1 hab1 h
      refine ⟨c1, c2, ?_, ?_, ?_, ?_, ?_, ?_⟩
      · intro a' ha' s hs' k
        rw [List.mem_cons] at ha'
        rcases ha' with rfl | ha'
        · refine c4 a' ha s hs' k ?_
          rw [hsubs a' ha s hs' k]
          exact b2 s hs' k
        · exact c3 a' ha' s hs' k
      · intro a' ha' s' hs' k hg
        refine c4 a' ha' s' hs' k ?_
        rw [hsubs a' ha' s' hs' k]
        exact b3 a' ha' s' hs' k hg
      · intro a' ha'
        rw [List.mem_cons] at ha'
        rcases ha' with rfl | ha'
        · exact c6 a' ha hdone
        · exact c5 a' ha'
      · intro a' ha' hdn
        refine c6 a' ha' ?_
        by_cases he : a' = a
        · subst he; exact hdone
        · intro k
          obtain ⟨t, ht, h'⟩ := hdn k
          exact ⟨t, ht, by rw [hother a' ha' he k, h']⟩
      · intro n hn
        rw [c7 n fun a' ha' => hn a' (by simp [ha'])]
        have := hn a (by simp)
        rw [hf]
        unfold annotFiles
        rw [writeTable_ne (this.2 .gb), writeTable_ne (this.2 .pgc), b4 n this.1]
      · intro k
        simp only [Py.forIn, htab k]
        obtain ⟨t, ht, he⟩ := hdone k
        rw [htab k] at ht
        injection ht with ht
        subst ht
        rw [← he, hr k]
        exact c8 k

/-- The table of the segment. -/
def segTable (ws : Char → Bool) (j : Job) (f : Files) (k : Kind) : Py Table :=
  Py.forIn j.annots (j.new k) fun a t => match annotTable ws j f a k with
    | .error e => .error e
    | .ok A => readText ws (annotContent j f a k A) t

/-- What a successful run leaves. -/
theorem run_ok {ws : Char → Bool} {j : Job} (hd : Distinct j) {f g : Files} (h : run ws j f = .ok g) :
    j.subs ≠ [] ∧
    (∀ a ∈ j.annots, ∀ s ∈ j.subs, ∀ k, g (j.subFile a s k) = subContent j f a s k) ∧
    (∀ a ∈ j.annots, AnnotDone ws j f g a) ∧
    (∀ k, ∃ t, segTable ws j f k = .ok t ∧ g (j.segFile k) = content (f (j.segFile k)) (j.summ k t)) ∧
    (∀ n, ¬ Report j n → g n = f n) := by
  unfold run at h
  by_cases hsub : j.subs = []
  · rw [if_pos hsub] at h; cases h
  rw [if_neg hsub] at h
  cases hl : Py.forIn j.annots ⟨f, j.new .pgc, j.new .gb⟩ (annotStep ws j) with
  | error e => rw [hl] at h; cases h
  | ok st =>
    rw [hl] at h
    injection h with h
    have hb0 : Between j f f := fun _ _ _ _ _ => .inl rfl
    have hab0 : AnnotBetween ws j f f := fun _ _ _ => .inl rfl
    obtain ⟨c1, c2, c3, c4, c5, c6, c7, c8⟩ := annots_loop hd j.annots (fun _ h => h) hb0 hab0 hl
    have hne : j.segFile .pgc ≠ j.segFile .gb := fun h => by
      have := hd.seg _ _ h
      cases this
    have hout : ∀ n, (∀ k, n ≠ j.segFile k) → g n = st.files n := by
      intro n hn
      rw [← h, writeTable_ne (hn .gb), writeTable_ne (hn .pgc)]
    refine ⟨hsub, ?_, ?_, ?_, ?_⟩
    · intro a ha s hs k
      rw [hout _ fun k' => hd.sub_seg a ha s hs k k']
      exact c3 a ha s hs k
    · intro a ha k
      obtain ⟨t, ht, he⟩ := c5 a ha k
      exact ⟨t, ht, by rw [hout _ fun k' => hd.annot_seg a ha k k', he]⟩
    · intro k
      refine ⟨st.tab k, ?_, ?_⟩
      · have := c8 k
        unfold segTable
        cases k <;> exact this
      · have hf : ∀ k, st.files (j.segFile k) = f (j.segFile k) := fun k =>
          c7 _ fun a ha => ⟨fun s hs k' h => hd.sub_seg a ha s hs k' k h.symm, fun k' h => hd.annot_seg a ha k' k h.symm⟩
        rw [← h]
        cases k
        · rw [writeTable_ne hne, writeTable_at, hf]; rfl
        · rw [writeTable_at, writeTable_ne hne.symm, hf]; rfl
    · intro n hn
      unfold Report at hn
      rw [hout n fun k he => hn (.inr (.inr ⟨k, he⟩))]
      exact c7 n fun a ha => ⟨fun s hs k he => hn (.inl ⟨a, ha, s, hs, k, he⟩),
        fun k he => hn (.inr (.inl ⟨a, ha, k, he⟩))⟩

end Verif.StatsCorpus

/-! ### Success -/
namespace Verif.StatsCorpus
open Verif Verif.Etree Verif.StatsTable Verif.Spec.StatsTable Verif.Spec.StatsCorpus

theorem subStep_succ {ws : Char → Bool} {j : Job} {a s : Text} {st : St}
    (h : ∀ k, ∃ t, readText ws (subFiles j a s st.files (j.subFile a s k)) (st.tab k) = .ok t) :
    ∃ st', subStep ws j a s st = .ok st' := by
  obtain ⟨p, hp⟩ := h .pgc
  obtain ⟨g, hg⟩ := h .gb
  refine ⟨⟨subFiles j a s st.files, p, g⟩, ?_⟩
  unfold subStep
  change (match readSub ws (subFiles j a s st.files) st.pgc (j.subFile a s .pgc) with
    | .error e => (Except.error e : Py St)
    | .ok p => match readSub ws (subFiles j a s st.files) st.gb (j.subFile a s .gb) with
      | .error e => (Except.error e : Py St)
      | .ok g => (Except.ok ⟨subFiles j a s st.files, p, g⟩ : Py St)) = _
  have hp' : readSub ws (subFiles j a s st.files) st.pgc (j.subFile a s .pgc) = .ok p := hp
  have hg' : readSub ws (subFiles j a s st.files) st.gb (j.subFile a s .gb) = .ok g := hg
  rw [hp']
  dsimp only
  rw [hg']

theorem subs_succ {ws : Char → Bool} {j : Job} (hd : Distinct j) {f : Files} {a : Text} (ha : a ∈ j.annots) :
    ∀ (l : List Text), (∀ s ∈ l, s ∈ j.subs) → ∀ {st : St}, Between j f st.files →
    (∀ k, ∃ t, Py.forIn l (st.tab k) (fun s t => readText ws (subContent j f a s k) t) = .ok t) →
    ∃ st', Py.forIn l st (subStep ws j a) = .ok st'
  | [], _, st, _, _ => ⟨st, rfl⟩
  | s :: l, hl, st, hb, h => by
    obtain ⟨b1, b2, b3, b4⟩ := sub_files hd hb ha (hl s (by simp))
    have hstep : ∀ k, ∃ t, readText ws (subFiles j a s st.files (j.subFile a s k)) (st.tab k) = .ok t := by
      intro k
      obtain ⟨t, ht⟩ := h k
      rw [b2 k]
      simp only [Py.forIn] at ht
      cases hr : readText ws (subContent j f a s k) (st.tab k) with
      | error e => rw [hr] at ht; cases ht
      | ok t' => exact ⟨t', rfl⟩
    obtain ⟨st1, hs⟩ := subStep_succ hstep
    obtain ⟨hf, hr⟩ := subStep_ok hs
    have := subs_succ hd ha l (fun x hx => hl x (by simp [hx])) (st := st1) (by rw [hf]; exact b1) (by
      intro k
      obtain ⟨t, ht⟩ := h k
      simp only [Py.forIn] at ht
      have hr' := hr k
      rw [hf, b2 k] at hr'
      rw [hr'] at ht
      exact ⟨t, ht⟩)
    obtain ⟨st', h'⟩ := this
    exact ⟨st', by simp only [Py.forIn, hs]; exact h'⟩

theorem annotStep_succ {ws : Char → Bool} {j : Job} (hd : Distinct j) {a : Text} (ha : a ∈ j.annots) {st m : St}
    (hm : Py.forIn j.subs ⟨st.files, j.new .pgc, j.new .gb⟩ (subStep ws j a) = .ok m)
    (h : ∀ k, ∃ t, readText ws (annotFiles j a m.pgc m.gb m.files (j.annotFile a k)) (st.tab k) = .ok t) :
    ∃ st', annotStep ws j a st = .ok st' := by
  obtain ⟨p, hp⟩ := h .pgc
  obtain ⟨g, hg⟩ := h .gb
  have hne : j.annotFile a .pgc ≠ j.annotFile a .gb := fun h => by
    have := (hd.annot a ha .pgc a ha .gb h).2
    cases this
  unfold annotFiles at hp hg
  rw [writeTable_ne hne] at hp
  have hp' : readSub ws (writeTable (j.summ .pgc m.pgc) (j.annotFile a .pgc) m.files) st.pgc (j.annotFile a .pgc) = .ok p := hp
  have hg' : readSub ws (writeTable (j.summ .gb m.gb) (j.annotFile a .gb)
          (writeTable (j.summ .pgc m.pgc) (j.annotFile a .pgc) m.files)) st.gb (j.annotFile a .gb) = .ok g := hg
  unfold annotStep
  rw [hm]
  dsimp only
  rw [hp']
  dsimp only
  rw [hg']
  exact ⟨_, rfl⟩

theorem annots_succ {ws : Char → Bool} {j : Job} (hd : Distinct j) {f : Files} : ∀ (l : List Text), (∀ a ∈ l, a ∈ j.annots) →
    ∀ {st : St}, Between j f st.files → AnnotBetween ws j f st.files →
    (∀ k, ∃ t, Py.forIn l (st.tab k) (fun a t => match annotTable ws j f a k with
      | .error e => .error e
      | .ok A => readText ws (annotContent j f a k A) t) = .ok t) →
    ∃ st', Py.forIn l st (annotStep ws j) = .ok st'
  | [], _, st, _, _, _ => ⟨st, rfl⟩
  | a :: l, hl, st, hb, hab, h => by
    have ha : a ∈ j.annots := hl a (by simp)
    have hat : ∀ k, ∃ A t, annotTable ws j f a k = .ok A ∧ readText ws (annotContent j f a k A) (st.tab k) = .ok t := by
      intro k
      obtain ⟨t, ht⟩ := h k
      simp only [Py.forIn] at ht
      cases hA : annotTable ws j f a k with
      | error e => rw [hA] at ht; cases ht
      | ok A =>
        rw [hA] at ht
        dsimp only at ht
        cases hr : readText ws (annotContent j f a k A) (st.tab k) with
        | error e => rw [hr] at ht; cases ht
        | ok t' => exact ⟨A, t', rfl, hr⟩
    obtain ⟨m, hm⟩ := subs_succ (ws := ws) hd ha j.subs (fun _ h => h) (f := f) (st := ⟨st.files, j.new .pgc, j.new .gb⟩) hb
      (by
        intro k
        obtain ⟨A, t, hA, _⟩ := hat k
        unfold annotTable at hA
        cases k <;> exact ⟨A, hA⟩)
    obtain ⟨b1, b2, b3, b4, b5⟩ := subs_loop (ws := ws) hd ha j.subs (fun _ h => h) (f := f)
      (st := ⟨st.files, j.new .pgc, j.new .gb⟩) hb hm
    have htab : ∀ k, annotTable ws j f a k = .ok (m.tab k) := by
      intro k
      have := b5 k
      unfold annotTable
      cases k <;> exact this
    have hfile : ∀ k, annotFiles j a m.pgc m.gb m.files (j.annotFile a k) = annotContent j f a k (m.tab k) := by
      intro k
      have hmann : m.files (j.annotFile a k) = st.files (j.annotFile a k) :=
        b4 _ fun s hs' k' h => hd.sub_annot a ha s hs' k' a ha k h.symm
      have hold : content (m.files (j.annotFile a k)) (j.summ k (m.tab k)) = annotContent j f a k (m.tab k) := by
        rw [hmann]
        refine content_between hd ?_
        rcases hab a ha k with h | ⟨t, ht, h⟩
        · exact .inl h
        · rw [htab k] at ht
          injection ht with ht
          subst ht
          exact .inr h
      have hne : j.annotFile a .pgc ≠ j.annotFile a .gb := fun h => by
        have := (hd.annot a ha .pgc a ha .gb h).2
        cases this
      unfold annotFiles
      cases k
      · rw [writeTable_ne hne, writeTable_at]; exact hold
      · rw [writeTable_at, writeTable_ne hne.symm]; exact hold
    obtain ⟨st1, hs⟩ := annotStep_succ hd ha hm (by
      intro k
      obtain ⟨A, t, hA, ht⟩ := hat k
      rw [htab k] at hA
      injection hA with hA
      subst hA
      exact ⟨t, by rw [hfile k]; exact ht⟩)
    have hone : Py.forIn [a] st (annotStep ws j) = .ok st1 := by simp only [Py.forIn, hs]
    obtain ⟨c1, c2, -, -, -, -, -, c8⟩ := annots_loop hd [a] (by intro x hx; simp at hx; subst hx; exact ha) hb hab hone
    obtain ⟨st', h'⟩ := annots_succ hd l (fun x hx => hl x (by simp [hx])) c1 c2 (by
      intro k
      obtain ⟨t, ht⟩ := h k
      have h8 := c8 k
      simp only [Py.forIn] at ht h8
      cases hr : (match annotTable ws j f a k with
        | .error e => (Except.error e : Py Table)
        | .ok A => readText ws (annotContent j f a k A) (st.tab k)) with
      | error e => rw [hr] at h8; cases h8
      | ok t1 =>
        rw [hr] at h8 ht
        injection h8 with h8
        subst h8
        exact ⟨t, ht⟩)
    exact ⟨st', by simp only [Py.forIn, hs]; exact h'⟩

theorem run_succ {ws : Char → Bool} {j : Job} (hd : Distinct j) {f : Files} (hs : j.subs ≠ [])
    (h : ∀ k, ∃ t, segTable ws j f k = .ok t) : ∃ g, run ws j f = .ok g := by
  obtain ⟨st, hst⟩ := annots_succ (ws := ws) hd j.annots (fun _ h => h) (f := f) (st := ⟨f, j.new .pgc, j.new .gb⟩)
    (fun _ _ _ _ _ => .inl rfl) (fun _ _ _ => .inl rfl) (by
      intro k
      obtain ⟨t, ht⟩ := h k
      unfold segTable at ht
      cases k <;> exact ⟨t, ht⟩)
  unfold run
  rw [if_neg hs, hst]
  exact ⟨_, rfl⟩

end Verif.StatsCorpus
