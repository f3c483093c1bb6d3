import Verif.Spec.PgcCp
import Verif.Lemmas.Base

set_option linter.unusedSectionVars false

/-! Lemmas on copying corpora. -/
namespace Verif.PgcCp
open Verif Verif.Etree Verif.Spec.PgcCp

variable {β κ : Type} {ps : Paths} {cd : Codec β κ} {o : Bool} {target : Text}

theorem readSource_iff {disk : Disk β} {p : Text} {x : κ} : readSource ps cd disk p = .ok x ↔ Holds ps cd disk p x := by
  unfold readSource Holds
  cases ps.isDir p with
  | true => simp
  | false =>
    cases h : disk (ps.place p) with
    | none => simp
    | some c => simp

theorem holds_exists {disk : Disk β} {p : Text} {x : κ} (h : Holds ps cd disk p x) : pathExists ps disk p = true := by
  obtain ⟨_, c, h2, _⟩ := h
  unfold pathExists
  rw [h2]
  simp

/-- What writing may change: the place of the target. -/
theorem writeTarget_other {disk : Disk β} {x : κ} {t : Text} {n : Nat} (h : (writeTarget ps cd disk x t).1 n ≠ disk n) :
    n = ps.place t := by
  unfold writeTarget at h
  split at h
  · exact absurd rfl h
  · split at h
    · exact absurd rfl h
    · by_contra hn
      exact h (if_neg hn)

theorem writeTarget_ok {disk : Disk β} {x : κ} {t : Text} {c : β} (h : Open ps t) (hw : cd.write x t = .ok (c, none)) :
    writeTarget ps cd disk x t = ((fun n => if n = ps.place t then some c else disk n), none) := by
  unfold writeTarget
  rw [hw, h.1, h.2]
  rfl

/-- If something is copied, there is a corpus, and the target is not the source. -/
theorem copyOne_change {disk : Disk β} {s : Text} {n : Nat} (h : (copyOne ps cd o target disk s).1 n ≠ disk n) :
    n = ps.place (targetOf ps target s) ∧ ps.place s ≠ n ∧ (∃ x, Holds ps cd disk s x) ∧
      (o = false → disk n = none) := by
  unfold copyOne at h
  split at h
  · exact absurd rfl h
  · cases hr : readSource ps cd disk s with
    | error e => rw [hr] at h; exact absurd rfl h
    | ok x =>
      rw [hr] at h
      dsimp only at h
      split at h
      · exact absurd rfl h
      · rename_i h2
        split at h
        · exact absurd rfl h
        · rename_i h3
          have hn := writeTarget_other h
          have hh := readSource_iff.1 hr
          have hdir : ps.isDir (targetOf ps target s) = false := by
            cases hd : ps.isDir (targetOf ps target s) with
            | false => rfl
            | true =>
              dsimp only at h
              unfold writeTarget at h
              split at h
              · exact absurd rfl h
              · rw [hd] at h
                exact absurd rfl h
          refine ⟨hn, ?_, ⟨x, hh⟩, ?_⟩
          · intro he
            apply h2
            unfold pathExists sameFile
            obtain ⟨d1, c, d2, -⟩ := hh
            rw [← hn, ← he, d2, d1, hdir]
            simp
          · intro ho
            subst ho
            rw [hn]
            cases hd : disk (ps.place (targetOf ps target s)) with
            | none => rfl
            | some c =>
              exact absurd (by unfold pathExists; rw [hd]; simp) h3

theorem copyAll_cons (disk : Disk β) (s : Text) (a : List Text) :
    copyAll ps cd o target disk (s :: a) = match copyOne ps cd o target disk s with
      | (d, w, some e) => (d, [w], some e)
      | (d, w, none) => ((copyAll ps cd o target d a).1, w :: (copyAll ps cd o target d a).2.1,
          (copyAll ps cd o target d a).2.2) := by
  rcases h : copyOne ps cd o target disk s with ⟨d, w, _ | e⟩ <;> simp only [copyAll, h]

theorem copyAll_append (disk : Disk β) (a b : List Text) :
    copyAll ps cd o target disk (a ++ b) = match copyAll ps cd o target disk a with
      | (d, ws, some e) => (d, ws, some e)
      | (d, ws, none) => ((copyAll ps cd o target d b).1, ws ++ (copyAll ps cd o target d b).2.1,
          (copyAll ps cd o target d b).2.2) := by
  induction a generalizing disk with
  | nil => rfl
  | cons s a ih =>
    rw [List.cons_append, copyAll_cons, copyAll_cons]
    rcases hc : copyOne ps cd o target disk s with ⟨d, w, _ | e⟩
    · dsimp only
      rw [ih]
      rcases copyAll ps cd o target d a with ⟨d', ws, _ | e'⟩ <;> rfl
    · rfl

/-- What changed was changed by one of the sources. -/
theorem copyAll_change {disk : Disk β} {ss : List Text} {n : Nat} (h : (copyAll ps cd o target disk ss).1 n ≠ disk n) :
    ∃ a s b, ss = a ++ s :: b ∧ n = ps.place (targetOf ps target s) ∧ ps.place s ≠ n ∧
      (∃ x, Holds ps cd (copyAll ps cd o target disk a).1 s x) ∧ (o = false → disk n = none) := by
  induction ss generalizing disk with
  | nil => exact absurd rfl h
  | cons s ss ih =>
    by_cases h1 : (copyOne ps cd o target disk s).1 n = disk n
    · unfold copyAll at h
      rcases hc : copyOne ps cd o target disk s with ⟨d, w, _ | e⟩
      · rw [hc] at h h1
        dsimp only at h h1
        obtain ⟨a, s', b, e1, e2, e3, e4, e5⟩ := ih (disk := d) (by rwa [h1])
        refine ⟨s :: a, s', b, by rw [e1]; rfl, e2, e3, ?_, fun ho => by rw [← h1]; exact e5 ho⟩
        have : (copyAll ps cd o target disk (s :: a)).1 = (copyAll ps cd o target d a).1 := by
          conv_lhs => unfold copyAll
          rw [hc]
        rwa [this]
      · rw [hc] at h h1
        exact absurd h1 h
    · obtain ⟨e1, e2, e3, e4⟩ := copyOne_change h1
      exact ⟨[], s, ss, rfl, e1, e2, e3, e4⟩

end Verif.PgcCp
