import Verif.Model.ODict
import Verif.Spec.OrderedMap
import Verif.Lemmas.Base

namespace Verif.ODict
open Verif Verif.Spec
variable {κ ν : Type} [DecidableEq κ]

/-- Refinement relation. -/
structure Rep (o : OD κ ν) (m : List (κ × ν)) : Prop where
  nodup : (m.map Prod.fst).Nodup
  keys : o.keys = m.map Prod.fst
  look : ∀ k, o.d k = OMap.lookup m k

theorem lookup_isSome (m : List (κ × ν)) (k : κ) : (OMap.lookup m k).isSome ↔ k ∈ m.map Prod.fst := by
  unfold OMap.lookup
  rw [Option.isSome_map, List.find?_isSome]
  simp

theorem lookup_none (m : List (κ × ν)) (k : κ) : OMap.lookup m k = none ↔ k ∉ m.map Prod.fst := by
  rw [← lookup_isSome]; simp

theorem lookup_append (m : List (κ × ν)) (k k' : κ) (v : ν) (h : k ∉ m.map Prod.fst) :
    OMap.lookup (m ++ [(k, v)]) k' = if k' = k then some v else OMap.lookup m k' := by
  unfold OMap.lookup
  rw [List.find?_append]
  by_cases hk : k' = k
  · subst hk
    have : m.find? (fun e => decide (e.1 = k')) = none := by
      rw [List.find?_eq_none]
      intro e he hc
      simp at hc
      exact h (List.mem_map.2 ⟨e, he, hc⟩)
    simp [this]
  · have : ¬ k = k' := fun h => hk h.symm
    simp [hk, this]

theorem lookup_map (m : List (κ × ν)) (k k' : κ) (v : ν) (h : k ∈ m.map Prod.fst) :
    OMap.lookup (m.map (fun e => if e.1 = k then (k, v) else e)) k' =
      if k' = k then some v else OMap.lookup m k' := by
  unfold OMap.lookup
  induction m with
  | nil => simp at h
  | cons e m ih =>
    by_cases he : e.1 = k
    · by_cases hk : k' = k
      · subst hk; simp [he]
      · have : ¬ k = k' := fun h => hk h.symm
        simp only [List.map_cons, he, if_true, List.find?_cons, this, decide_false, hk, if_false]
        by_cases hm : k ∈ m.map Prod.fst
        · rw [ih hm]; simp [hk]
        · have : m.map (fun e => if e.1 = k then (k, v) else e) = m := by
            have : ∀ e ∈ m, (if e.1 = k then (k, v) else e) = e := by
              intro x hx
              rw [if_neg]
              intro hc
              exact hm (List.mem_map.2 ⟨x, hx, hc⟩)
            conv_rhs => rw [← List.map_id m]
            exact List.map_congr_left this
          rw [this]
    · have hm : k ∈ m.map Prod.fst := by
        rw [List.map_cons, List.mem_cons] at h
        exact h.resolve_left fun h => he h.symm
      simp only [List.map_cons, he, if_false, List.find?_cons]
      by_cases hk : e.1 = k'
      · have : ¬ k' = k := by rintro rfl; exact he hk
        simp [hk, this]
      · simp only [hk, decide_false]
        exact ih hm

theorem map_fst_map (m : List (κ × ν)) (k : κ) (v : ν) :
    (m.map (fun e => if e.1 = k then (k, v) else e)).map Prod.fst = m.map Prod.fst := by
  rw [List.map_map]
  apply List.map_congr_left
  intro e _
  simp only [Function.comp]
  split <;> simp_all

theorem Rep.set {o : OD κ ν} {m : List (κ × ν)} (h : Rep o m) (k : κ) (v : ν) :
    Rep (setItem o k v) (OMap.insert m k v) := by
  obtain ⟨h1, h2, h3⟩ := h
  unfold setItem OMap.insert
  rw [h3 k]
  by_cases hk : k ∈ m.map Prod.fst
  · have hs := (lookup_isSome m k).2 hk
    simp only [hs, if_true, hk]
    refine ⟨by rw [map_fst_map]; exact h1, by simp only; rw [map_fst_map, h2], ?_⟩
    intro k'
    rw [lookup_map m k k' v hk]
    simp only [Py.Dict.set, h3]
  · have hs : (OMap.lookup m k).isSome = false := by
      have := (lookup_none m k).2 hk; simp [this]
    simp only [hs, if_false, hk, Bool.false_eq_true]
    refine ⟨?_, by simp [h2], ?_⟩
    · rw [List.map_append, List.nodup_append]
      refine ⟨h1, by simp, ?_⟩
      intro a ha b hb
      simp at hb; subst hb
      rintro rfl; exact hk ha
    · intro k'
      rw [lookup_append m k k' v hk]
      simp only [Py.Dict.set, h3]

theorem lookup_erase (m : List (κ × ν)) (k k' : κ) :
    OMap.lookup (OMap.erase m k) k' = if k' = k then none else OMap.lookup m k' := AD.get?_del m k k'

theorem map_fst_erase (m : List (κ × ν)) (k : κ) (h : (m.map Prod.fst).Nodup) :
    (OMap.erase m k).map Prod.fst = (m.map Prod.fst).erase k := by
  rw [List.Nodup.erase_eq_filter h]
  have := AD.keys_del m k
  unfold AD.keys AD.del at this
  unfold OMap.erase
  rw [this]
  apply List.filter_congr
  intro x _
  simp [bne]
  rfl

theorem Rep.erase {o : OD κ ν} {m : List (κ × ν)} (h : Rep o m) (k : κ) :
    Rep ⟨o.keys.erase k, fun k' => if k' = k then none else o.d k'⟩ (OMap.erase m k) := by
  obtain ⟨h1, h2, h3⟩ := h
  refine ⟨?_, ?_, ?_⟩
  · rw [map_fst_erase m k h1]; exact h1.erase k
  · simp only; rw [map_fst_erase m k h1, h2]
  · intro k'
    rw [lookup_erase]; simp only [h3]

theorem Rep.del {o : OD κ ν} {m : List (κ × ν)} (h : Rep o m) (k : κ) :
    (k ∈ m.map Prod.fst → ∃ o', delItem o k = .ok o' ∧ Rep o' (OMap.erase m k)) ∧
    (k ∉ m.map Prod.fst → delItem o k = .error .keyError) := by
  unfold delItem
  rw [h.look k]
  constructor
  · intro hk
    have hs := (lookup_isSome m k).2 hk
    obtain ⟨v, hv⟩ := Option.isSome_iff_exists.1 hs
    have hk' : k ∈ o.keys := by rw [h.keys]; exact hk
    simp only [hv, hk', if_true]
    exact ⟨_, rfl, h.erase k⟩
  · intro hk
    rw [(lookup_none m k).2 hk]

theorem Rep.items {o : OD κ ν} {m : List (κ × ν)} (h : Rep o m) : items o = .ok m := by
  unfold ODict.items
  rw [h.keys]
  have : ∀ (l : List (κ × ν)), (∀ e ∈ l, e ∈ m) →
      (l.map Prod.fst).mapM (fun k => (getItem o k).map fun v => (k, v)) = .ok l := by
    intro l
    induction l with
    | nil => intro _; rfl
    | cons e l ih =>
      intro hl
      have he : o.d e.1 = some e.2 := by
        rw [h.look]; exact AD.get?_of_mem h.nodup (hl e (by simp))
      simp only [List.map_cons, List.mapM_cons, getItem, Py.Dict.get_eq he, Except.map, bind, Except.bind]
      have := ih fun x hx => hl x (by simp [hx])
      simp only [getItem, Except.map] at this
      rw [this]; rfl
  exact this m fun _ h => h

theorem Rep.empty : Rep (ODict.empty : OD κ ν) [] := ⟨by simp, rfl, fun _ => rfl⟩

end Verif.ODict
