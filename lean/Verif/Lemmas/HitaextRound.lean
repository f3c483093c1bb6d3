import Verif.Lemmas.HitaextNth

/-! Injecting links and extracting them, with elements of either kind. -/
namespace Verif.HitaextDoc
open Verif Verif.Etree Verif.Spec Verif.IElemTree Verif.Props.IElemTree

private theorem getD_some {α : Type} {x : Option α} {a d : α} (h : x = some a) : x.getD d = a := by rw [h]; rfl

theorem core {ι : Type} (tF tT : Tree) (hF : Distinct tF) (F0 T0 : St)
    (h0F : ∀ e ∈ elems tF, F0.aligns e.addr = []) (h0T : ∀ e ∈ elems tT, T0.aligns e.addr = [])
    (src tgt : ι → Option Nat) (link out : ι → Link) (items : List ι)
    (hi : ∀ l ∈ items, (∃ e ∈ elems tF, src l = some e.addr) ∧ ∃ e ∈ elems tT, tgt l = some e.addr)
    (resolve : St → St → Link → Py (Nat × Nat))
    (hres : ∀ F F' T T' l, SameBut F F' → SameBut T T' → resolve F T l = resolve F' T' l)
    (hok : ∀ l ∈ items, ∀ a b, src l = some a → tgt l = some b → resolve F0 T0 (link l) = .ok (a, b))
    (step : St → St → Tree → Nat → Hitaext → Py Hitaext)
    (hstep : ∀ l ∈ items, ∀ e ∈ elems tF, ∀ e' ∈ elems tT, src l = some e.addr → tgt l = some e'.addr →
      ∀ F T d, SameBut F F0 → SameBut T T0 → step F T e e'.addr d = .ok { d with links := d.links ++ [out l] })
    (d : Hitaext) :
    ∃ F T, Py.forIn (items.map link) (F0, T0) (fun l s => match resolve s.1 s.2 l with
        | .ok p => .ok (join p s)
        | .error e => .error e) = .ok (F, T) ∧
      (∀ e ∈ elems tF, F.aligns e.addr = (items.filter fun l => src l = some e.addr).filterMap tgt) ∧
      (∀ e ∈ elems tT, T.aligns e.addr = (items.filter fun l => tgt l = some e.addr).filterMap src) ∧
      Py.forIn (iter tF) (clear d) (fun e d => Py.forIn (F.aligns e.addr) d (step F T e)) =
        .ok ⟨(inOrder tF src items).map out, d.method⟩ := by
  let fa : ι → Nat := fun l => (src l).getD 0
  let ta : ι → Nat := fun l => (tgt l).getD 0
  have hsrc : ∀ l ∈ items, ∃ e ∈ elems tF, src l = some e.addr ∧ fa l = e.addr := by
    intro l hm
    obtain ⟨⟨e, h1, h2⟩, -⟩ := hi l hm
    exact ⟨e, h1, h2, getD_some h2⟩
  have htgt : ∀ l ∈ items, ∃ e ∈ elems tT, tgt l = some e.addr ∧ ta l = e.addr := by
    intro l hm
    obtain ⟨-, e, h1, h2⟩ := hi l hm
    exact ⟨e, h1, h2, getD_some h2⟩
  have hps : List.Forall₂ (fun l p => resolve F0 T0 l = .ok p) (items.map link) (items.map fun l => (fa l, ta l)) := by
    rw [List.forall₂_map_left_iff, List.forall₂_map_right_iff, List.forall₂_same]
    intro l hm
    obtain ⟨e, -, h1, h2⟩ := hsrc l hm
    obtain ⟨e', -, h3, h4⟩ := htgt l hm
    rw [hok l hm _ _ h1 h3, h2, h4]
  have hinj := inject_loop resolve hres _ _ (F0, T0) hps
  obtain ⟨sameF, sameT⟩ := joinAll_same (items.map fun l => (fa l, ta l)) (F0, T0)
  have hal := joinAll_aligns (items.map fun l => (fa l, ta l)) (F0, T0)
  revert hinj sameF sameT hal
  generalize joinAll (items.map fun l => (fa l, ta l)) (F0, T0) = R
  intro hinj sameF sameT hal
  have hkey : ∀ x, (items.filter fun l => fa l = x) = items.filter fun l => src l = some x := by
    intro x
    refine List.filter_congr fun l hm => ?_
    obtain ⟨e, -, h1, h2⟩ := hsrc l hm
    rw [h1, h2]; simp
  have hkey' : ∀ x, (items.filter fun l => ta l = x) = items.filter fun l => tgt l = some x := by
    intro x
    refine List.filter_congr fun l hm => ?_
    obtain ⟨e, -, h1, h2⟩ := htgt l hm
    rw [h1, h2]; simp
  have hal1 : ∀ e ∈ elems tF, R.1.aligns e.addr = (items.filter fun l => fa l = e.addr).map ta := by
    intro e he
    rw [(hal e.addr).1, h0F e he]
    simp [List.filter_map, Function.comp_def]
  have hal2 : ∀ e ∈ elems tT, R.2.aligns e.addr = (items.filter fun l => ta l = e.addr).map fa := by
    intro e he
    rw [(hal e.addr).2, h0T e he]
    simp [List.filter_map, Function.comp_def]
  have hext := roundtrip tF R.1 items fa ta out hal1 (step R.1 R.2) (by
    intro l hm e he hfe d
    obtain ⟨e1, -, h1, h2⟩ := hsrc l hm
    obtain ⟨e2, m2, h3, h4⟩ := htgt l hm
    rw [h4]
    exact hstep l hm e he e2 m2 (by rw [h1, ← h2, hfe]) h3 _ _ d sameF sameT) d
  refine ⟨R.1, R.2, hinj, ?_, ?_, ?_⟩
  · intro e he
    rw [hal1 e he, hkey, List.filterMap_eq_map_iff_forall_eq_some.2]
    intro l hm
    obtain ⟨e', -, h1, h2⟩ := htgt l (List.mem_of_mem_filter hm)
    rw [h1, h2]
  · intro e he
    rw [hal2 e he, hkey', List.filterMap_eq_map_iff_forall_eq_some.2]
    intro l hm
    obtain ⟨e', -, h1, h2⟩ := hsrc l (List.mem_of_mem_filter hm)
    rw [h1, h2]
  · rw [hext]
    congr 2
    unfold inOrder
    rw [List.map_flatMap]
    exact List.flatMap_congr fun e _ => by rw [hkey]

end Verif.HitaextDoc
