import Verif.Model.NGram
import Verif.Spec.Windows
import Verif.Lemmas.Base
import Mathlib.Data.List.Nodup

namespace Verif.NGram
open Verif Verif.Spec

theorem dict_foldl_spec {κ ν β : Type} [DecidableEq κ] (kf : β → κ) (f : β → ν) :
    ∀ (l : List β) (d : Py.Dict κ ν),
    (∀ b ∈ l, ∀ c ∈ l, kf b = kf c → f b = f c) →
    (∀ b ∈ l, (l.foldl (fun d x => d.set (kf x) (f x)) d) (kf b) = some (f b)) ∧
    (∀ k, (∀ b ∈ l, kf b ≠ k) → (l.foldl (fun d x => d.set (kf x) (f x)) d) k = d k) := by
  intro l
  induction l with
  | nil => intro d _; simp
  | cons x xs ih =>
    intro d h
    have h' := fun b hb c hc => h b (List.mem_cons_of_mem _ hb) c (List.mem_cons_of_mem _ hc)
    obtain ⟨h1, h2⟩ := ih (d.set (kf x) (f x)) h'
    constructor
    · intro b hb
      simp only [List.foldl_cons]
      by_cases hex : ∃ c ∈ xs, kf c = kf b
      · obtain ⟨c, hc, e⟩ := hex
        rw [← e, h1 c hc, h c (List.mem_cons_of_mem _ hc) b hb e]
      · push Not at hex
        rw [h2 _ hex]
        rcases List.mem_cons.1 hb with rfl | hb
        · simp
        · exact absurd rfl (hex b hb)
    · intro k hk
      simp only [List.foldl_cons]
      rw [h2 k (fun b hb => hk b (List.mem_cons_of_mem _ hb))]
      exact Py.Dict.set_ne _ _ (Ne.symm (hk x (List.mem_cons_self)))

theorem skipPositions_succ (n limit : Nat) : skipPositions (n + 1) limit =
    (((List.range n).filter fun j => decide (j ≤ limit)).map fun j => (0, j + 1)) ++
      (skipPositions n limit).map (fun ij => (ij.1 + 1, ij.2 + 1)) := by
  unfold skipPositions
  rw [List.range_succ_eq_map, List.flatMap_cons, List.flatMap_map, List.map_flatMap]
  congr 1
  · simp [List.filter_map, Function.comp_def]
  · congr 1
    funext i
    simp only [List.filter_cons, List.filter_map, Function.comp_def, List.map_map]
    simp [Nat.add_sub_add_right]

theorem filter_range_le (n limit : Nat) :
    (List.range n).filter (fun j => decide (j ≤ limit)) = List.range (min n (limit + 1)) := by
  induction n with
  | zero => simp
  | succ n ih =>
    rw [List.range_succ, List.filter_append, ih]
    by_cases h : n ≤ limit
    · have : min (n + 1) (limit + 1) = n + 1 := by omega
      have h2 : min n (limit + 1) = n := by omega
      rw [this, List.range_succ, h2]; simp [h]
    · have : min (n + 1) (limit + 1) = min n (limit + 1) := by omega
      rw [this]; simp [h]

end Verif.NGram
