import Verif.Lemmas.LRUStock

/-! Property C57 (lib/daeso/thirdparty/GenericCache/LRUStock.py). -/
namespace Verif.Props.LRUStock
open Verif Verif.LRUStock

variable {κ : Type} [DecidableEq κ]

/-- The operations that change an LRUStock. -/
inductive Op (κ : Type)
  | add (k : κ)
  | update (k : κ)
  | discard (k : κ)
  | clear

/-- What an operation does to the list of items, oldest first. -/
def listStep (ks : List κ) : Op κ → List κ
  | .add k => ks ++ [k]
  | .update k => ks.filter (fun x => x ≠ k) ++ [k]
  | .discard k => ks.filter (fun x => x ≠ k)
  | .clear => []

/-- `add` is used for new items only. -/
def NewAdds (ks : List κ) : List (Op κ) → Prop
  | [] => True
  | op :: ops => (match op with
    | .add k => k ∉ ks
    | _ => True) ∧ NewAdds (listStep ks op) ops

/-- The operations of the code (LRUStock.py:36-63, 107-113). -/
def step (s : Stock κ) : Op κ → Stock κ
  | .add k => add s k
  | .update k => update s k
  | .discard k => discard s k
  | .clear => clear s

/-- C57.  After any history of operations the linked list, walked forward, gives the items oldest first; walked
backward it gives the reverse; `pop` shows the oldest item and `size` counts them. -/
theorem lru_list_integrity (ops : List (Op κ)) (hn : NewAdds [] ops) (fuel : Nat)
    (hf : (ops.foldl listStep []).length < fuel) :
    let s := ops.foldl step empty
    let ks := ops.foldl listStep []
    toList fuel s = .ok (ks.map some) ∧ backFrom s fuel (s.prev 0) = .ok (ks.reverse.map some) ∧
      pop s = ks.head? ∧ size s = ks.length ∧ ks.Nodup := by
  have key : ∀ (ops : List (Op κ)) (s : Stock κ) (ks : List κ), Rep s ks → s.keys.WF → NewAdds ks ops →
      Rep (ops.foldl step s) (ops.foldl listStep ks) ∧ (ops.foldl step s).keys.WF := by
    intro ops
    induction ops with
    | nil => intro s ks h hw _; exact ⟨h, hw⟩
    | cons op ops ih =>
      intro s ks h hw hn
      have hd : ∀ k, (discard s k).keys.WF := by
        intro k; unfold LRUStock.discard; split
        · exact hw
        · exact hw.del k
      cases op with
      | add k => exact ih _ _ (h.add k hn.1) (hw.set k _) hn.2
      | update k => exact ih _ _ (h.update k) ((hd k).set k _) hn.2
      | discard k => exact ih _ _ (h.discard k) (hd k) hn.2
      | clear => exact ih _ _ h.clear AD.WF.nil hn.2
  obtain ⟨hr, hw⟩ := key ops empty [] Rep.empty AD.WF.nil hn
  intro s ks
  refine ⟨?_, ?_, hr.pop, hr.size hw, hr.nodup⟩ <;>
  · obtain ⟨ids, h1, h2, h3, h4, h5⟩ := hr.ids
    have h6 := congrArg List.length h4
    simp only [List.length_map] at h6
    have h0 : ∀ a ∈ ids, a ≠ 0 := fun a ha => by have := (h3 a ha).1; omega
    first
    | (unfold toList; rw [toListFrom_ok fuel ids 0 (by omega) h1 h0, h4])
    | (rw [backFrom_ok fuel ids 0 (by omega) h1 h0, List.map_reverse, h4, ← List.map_reverse])

example : NewAdds [] [Op.add "a", .add "b", .update "a", .discard "b", .add "b"] ∧
    [Op.add "a", .add "b", .update "a", .discard "b", .add "b"].foldl listStep [] = ["a", "b"] := by
  simp only [NewAdds]
  decide +kernel

/-- Adding an item twice leaves it in the list twice, and `discard` removes it only once: the list and `size`
disagree. -/
theorem lru_double_add (k : κ) :
    toList 3 (discard (add (add empty k) k) k) = .ok [some k] ∧ size (discard (add (add empty k) k) k) = 0 := by
  constructor
  · simp [toList, toListFrom, LRUStock.discard, add, empty, upd, AD.get?, AD.set, AD.del]
  · simp [size, LRUStock.discard, add, empty, upd, AD.get?, AD.set, AD.del]

end Verif.Props.LRUStock
