import Verif.Model.PosixPath
import Verif.Lemmas.Base

/-! Lemmas about paths. -/
namespace Verif.PosixPath
open Verif Verif.Etree

theorem mem_noSlash {n : Text} (h : '/' ∉ n) : ∀ c ∈ n.reverse, decide (c ≠ '/') = true := by
  intro c hc
  have : c ≠ '/' := by rintro rfl; exact h (List.mem_reverse.1 hc)
  simpa using this

/-- The part of a path before its last slash, and including it. -/
def DirPart (d : Text) : Prop := d = [] ∨ ∃ x, d = x ++ ['/']

theorem basename_append {d n : Text} (hn : '/' ∉ n) (hd : DirPart d) : basename (d ++ n) = n := by
  unfold basename
  rw [List.reverse_append]
  rcases hd with rfl | ⟨x, rfl⟩
  · have := List.takeWhile_append_of_pos (l₂ := []) (mem_noSlash hn)
    rw [List.append_nil, List.takeWhile_nil, List.append_nil] at this
    rw [List.reverse_nil, List.append_nil, this, List.reverse_reverse]
  · rw [List.reverse_append, List.takeWhile_append_of_pos (mem_noSlash hn)]
    simp

theorem head_append {d n : Text} (hn : '/' ∉ n) (hd : DirPart d) : head (d ++ n) = d := by
  unfold head
  rw [List.reverse_append]
  rw [List.dropWhile_append_of_pos (mem_noSlash hn)]
  rcases hd with rfl | ⟨x, rfl⟩
  · rfl
  · simp

theorem basename_noSlash (p : Text) : '/' ∉ basename p := by
  intro h
  unfold basename at h
  rw [List.mem_reverse] at h
  have := List.all_takeWhile (p := fun x => decide (x ≠ '/')) (l := p.reverse)
  rw [List.all_eq_true] at this
  have := this _ h
  simp at this

theorem split (p : Text) : head p ++ basename p = p := by
  unfold head basename
  rw [← List.reverse_append, List.takeWhile_append_dropWhile, List.reverse_reverse]

theorem dirPart_head (p : Text) : DirPart (head p) := by
  unfold head
  cases h : p.reverse.dropWhile (fun c => decide (c ≠ '/')) with
  | nil => exact .inl rfl
  | cons c l =>
    have := List.head?_dropWhile_not (p := fun c => decide (c ≠ '/')) (l := p.reverse)
    rw [h] at this
    have hc : c = '/' := by simpa using this
    exact .inr ⟨l.reverse, by rw [hc]; simp⟩

theorem rstripSlash_append {n : Text} (h : n.getLast? ≠ some '/') (k : Nat) :
    rstripSlash (n ++ List.replicate k '/') = n := by
  unfold rstripSlash
  rw [List.reverse_append, List.reverse_replicate, List.dropWhile_append_of_pos (by simp)]
  have : n.reverse.dropWhile (fun c => decide (c = '/')) = n.reverse := by
    cases hr : n.reverse with
    | nil => rfl
    | cons c l =>
      have : n.getLast? = some c := by
        rw [List.getLast?_eq_head?_reverse, hr]; rfl
      rw [this] at h
      have : c ≠ '/' := by rintro rfl; exact h rfl
      simp [this]
  rw [this, List.reverse_reverse]

theorem noSlash_last {n : Text} (h : '/' ∉ n) : n.getLast? ≠ some '/' := fun h' =>
  h (List.mem_of_getLast? h')

theorem noSlash_head {n : Text} (h : '/' ∉ n) : n.head? ≠ some '/' := fun h' =>
  h (List.mem_of_head? h')

/-- A name in a directory: the directory as a part of the path, then the name. -/
theorem join_name (d : Text) : ∃ x, DirPart x ∧ (∀ m, '/' ∉ m → join d m = x ++ m) ∧
    (x = [] ↔ d = []) ∧ (x = d ∨ x = d ++ ['/']) := by
  by_cases h1 : d = []
  · refine ⟨[], .inl rfl, fun m hm => ?_, by simp [h1], .inl h1.symm⟩
    unfold join
    rw [if_neg (noSlash_head hm), if_pos (.inl h1), h1]
  · by_cases h2 : d.getLast? = some '/'
    · refine ⟨d, .inr ⟨d.dropLast, ?_⟩, fun m hm => ?_, by simp, .inl rfl⟩
      · have := List.dropLast_append_getLast? (l := d) '/' (by rw [h2]; rfl)
        exact this.symm
      · unfold join
        rw [if_neg (noSlash_head hm), if_pos (.inr h2)]
    · refine ⟨d ++ ['/'], .inr ⟨d, rfl⟩, fun m hm => ?_, by simp [h1], .inr rfl⟩
      unfold join
      rw [if_neg (noSlash_head hm), if_neg (by simp [h1, h2])]
      simp

theorem basename_join (d : Text) {n : Text} (hn : '/' ∉ n) : basename (join d n) = n := by
  obtain ⟨x, h1, h2, -⟩ := join_name d
  rw [h2 n hn, basename_append hn h1]

theorem join_assoc (d : Text) {a n : Text} (ha : '/' ∉ a) (ha' : a ≠ []) (hn : '/' ∉ n) :
    join (join d a) n = join d (join a n) := by
  obtain ⟨x, hx, h1, -⟩ := join_name d
  have e1 : join a n = a ++ '/' :: n := by
    unfold join
    rw [if_neg (noSlash_head hn), if_neg]
    rintro (h | h)
    · exact ha' h
    · exact noSlash_last ha h
  have e2 : ∀ m : Text, m.head? ≠ some '/' → join d m = x ++ m := by
    intro m hm
    have := h1 [] (by simp)
    unfold join at this ⊢
    rw [if_neg hm]
    rw [if_neg (by simp)] at this
    split at this
    · rename_i h
      rw [if_pos h]
      rw [List.append_nil, List.append_nil] at this
      rw [this]
    · rename_i h
      rw [if_neg h]
      rw [List.append_nil] at this
      rw [← this]
      simp
  have e3 : (a ++ '/' :: n).head? ≠ some '/' := by
    cases a with
    | nil => exact absurd rfl ha'
    | cons c a => have := noSlash_head ha; simpa using this
  rw [e1, e2 _ e3, h1 a ha]
  unfold join
  rw [if_neg (noSlash_head hn), if_neg]
  · simp
  · rintro (h | h)
    · simp [ha'] at h
    · rw [List.getLast?_append] at h
      cases hl : a.getLast? with
      | none => simp [List.getLast?_eq_none_iff] at hl; exact ha' hl
      | some c =>
        rw [hl] at h
        simp at h
        exact noSlash_last ha (by rw [hl, h])

/-- The directory of a file in a directory. -/
theorem dirname_join (d : Text) {a n : Text} (ha : '/' ∉ a) (ha' : a ≠ []) (hn : '/' ∉ n) :
    dirname (join d (join a n)) = join d a := by
  rw [← join_assoc d ha ha' hn]
  obtain ⟨x, hx, h1, -⟩ := join_name d
  have e : join (join d a) n = (join d a ++ ['/']) ++ n := by
    obtain ⟨y, hy, h2, h3, h4⟩ := join_name (join d a)
    rw [h2 n hn]
    rcases h4 with h4 | h4
    · rcases hy with hy | ⟨z, hz⟩
      · have := h3.1 hy
        rw [h1 a ha] at this
        simp [ha'] at this
      · exfalso
        have : (join d a).getLast? = some '/' := by rw [← h4, hz]; simp
        rw [h1 a ha, List.getLast?_append] at this
        cases hl : a.getLast? with
        | none => simp [List.getLast?_eq_none_iff] at hl; exact ha' hl
        | some c =>
          rw [hl] at this
          simp at this
          exact noSlash_last ha (by rw [hl, this])
    · rw [h4]
  unfold dirname
  rw [e, head_append hn (.inr ⟨_, rfl⟩), h1 a ha]
  have hlast : (x ++ a).getLast? ≠ some '/' := by
    rw [List.getLast?_append]
    cases hl : a.getLast? with
    | none => simp [List.getLast?_eq_none_iff] at hl; exact absurd hl ha'
    | some c =>
      simp only [Option.some_or]
      intro h
      rw [Option.some.injEq] at h
      exact noSlash_last ha (by rw [hl, h])
  rw [if_neg]
  · exact rstripSlash_append hlast 1
  · intro h
    rw [List.all_eq_true] at h
    cases a with
    | nil => exact ha' rfl
    | cons c a =>
      have := h c (by simp)
      simp at this
      exact ha (by simp [this])

end Verif.PosixPath
