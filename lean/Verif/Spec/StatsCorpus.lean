import Verif.Model.StatsCorpus
import Verif.Spec.StatsTable

/-! What the reports over a corpus should contain. -/
namespace Verif.Spec.StatsCorpus
open Verif Verif.Etree Verif.StatsTable Verif.StatsCorpus Verif.Spec.StatsTable

/-- The values of several tables added to a table, one after the other. -/
inductive JoinedAll : Table → List Table → Table → Prop
  | nil (t : Table) : JoinedAll t [] t
  | cons {t p t1 t2 : Table} {ps : List Table} : Joined t p t1 → JoinedAll t1 ps t2 → JoinedAll t (p :: ps) t2

/-- A table without values. -/
def NoValues (t : Table) : Prop := ∀ c ∈ t, c.cells.len = 0

/-- All files of a job have different names. -/
structure Distinct (j : Job) : Prop where
  sub : ∀ a ∈ j.annots, ∀ s ∈ j.subs, ∀ k, ∀ a' ∈ j.annots, ∀ s' ∈ j.subs, ∀ k',
    j.subFile a s k = j.subFile a' s' k' → a = a' ∧ s = s' ∧ k = k'
  annot : ∀ a ∈ j.annots, ∀ k, ∀ a' ∈ j.annots, ∀ k', j.annotFile a k = j.annotFile a' k' → a = a' ∧ k = k'
  seg : ∀ k k', j.segFile k = j.segFile k' → k = k'
  sub_annot : ∀ a ∈ j.annots, ∀ s ∈ j.subs, ∀ k, ∀ a' ∈ j.annots, ∀ k', j.subFile a s k ≠ j.annotFile a' k'
  sub_seg : ∀ a ∈ j.annots, ∀ s ∈ j.subs, ∀ k k', j.subFile a s k ≠ j.segFile k'
  annot_seg : ∀ a ∈ j.annots, ∀ k k', j.annotFile a k ≠ j.segFile k'

/-- The name of one of the report files of a job. -/
def Report (j : Job) (n : Text) : Prop :=
  (∃ a ∈ j.annots, ∃ s ∈ j.subs, ∃ k, n = j.subFile a s k) ∨ (∃ a ∈ j.annots, ∃ k, n = j.annotFile a k) ∨
    ∃ k, n = j.segFile k

/-- Tables for the parts of a corpus: annotation, subsegment, kind. -/
abbrev Parts := Text → Text → Kind → Table

/-- A file reports a table: there is no file for a table without values. -/
def Reports (file : Option Text) (t : Table) : Prop :=
  (NoValues t → file = none) ∧ (¬ NoValues t → file = some (write true t))

/-- The report files are those of the given parts: each part has its file, the file of an annotation has the values of all
its subsegments, and the file of the segment the values of all parts. -/
structure Holds (j : Job) (b : Parts) (f : Files) : Prop where
  sub : ∀ a ∈ j.annots, ∀ s ∈ j.subs, ∀ k, Reports (f (j.subFile a s k)) (b a s k)
  annot : ∀ a ∈ j.annots, ∀ k, ∃ t, JoinedAll (j.new k) (j.subs.map fun s => b a s k) t ∧
    Reports (f (j.annotFile a k)) (j.summ k t)
  seg : ∀ k, ∃ t, JoinedAll (j.new k) (j.annots.flatMap fun a => j.subs.map fun s => b a s k) t ∧
    Reports (f (j.segFile k)) (j.summ k t)

/-- The parts that are asked for. -/
def Wanted (targets : List Text) (annot sub : Text) : Prop :=
  targets = [] ∨ "all".toList ∈ targets ∨ annot ∈ targets ∨ sub ∈ targets ∨ annot ++ '.' :: sub ∈ targets

/-- What is known of the parts after a run: the new tables of the parts asked for, unless they have no values. -/
def Renewed (j : Job) (b b' : Parts) : Prop := ∀ a ∈ j.annots, ∀ s ∈ j.subs, ∀ k,
  (Wanted j.targets a s ∧ ¬ NoValues (j.stats a s k) → b' a s k = j.stats a s k) ∧
  (¬ (Wanted j.targets a s ∧ ¬ NoValues (j.stats a s k)) → b' a s k = b a s k)

/-- `summarize` sets the overall values only. -/
def OnlyOverall (summ : Table → Table) : Prop := ∀ t, List.Forall₂ (fun c d =>
  d.label = c.label ∧ d.descr = c.descr ∧ d.cells = c.cells) t (summ t)

/-- Tables that can be read, with the columns of the empty tables. -/
def SoundParts (ws : Char → Bool) (j : Job) (b : Parts) : Prop := ∀ a ∈ j.annots, ∀ s ∈ j.subs, ∀ k,
  Readable ws (b a s k) ∧ List.Forall₂ SameType (j.new k) (b a s k)

/-- A job whose tables can be read. -/
structure Sound (ws : Char → Bool) (j : Job) : Prop where
  new : ∀ k, Readable ws (j.new k) ∧ NoValues (j.new k)
  stats : SoundParts ws j j.stats
  summ : ∀ k, OnlyOverall (j.summ k)

/-- One run of several: the targets, and the tables at that time. -/
abbrev Event := List Text × Parts

/-- The table of a part that was found last, in a history of runs. -/
def Latest (h : List Event) (a s : Text) (k : Kind) (new t : Table) : Prop :=
  (∃ h1 e h2, h = h1 ++ e :: h2 ∧ Wanted e.1 a s ∧ ¬ NoValues (e.2 a s k) ∧ t = e.2 a s k ∧
    ∀ e' ∈ h2, Wanted e'.1 a s → NoValues (e'.2 a s k)) ∨
  ((∀ e ∈ h, Wanted e.1 a s → NoValues (e.2 a s k)) ∧ t = new)

/-- Files that were cut off. -/
def Cut (c c' : Option Text) : Prop := c' = c ∨ ∃ x p, c = some x ∧ c' = some p ∧ p <+: x

end Verif.Spec.StatsCorpus
