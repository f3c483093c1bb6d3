import Verif.Lemmas.HitaextDoc
import Verif.Props.IElemTree

/-! The n-th element of a tag, in the tables of the indexer. -/
namespace Verif.HitaextDoc
open Verif Verif.Etree Verif.Spec Verif.IElemTree Verif.Props.IElemTree

theorem nth_ok {t : Tree} {tag : String} {n : Int} {e : Tree} (o : Opts) (s : St) (hd : Distinct t)
    (h : nth t tag n = some e) :
    e ∈ elems t ∧ e.tag = tag ∧ (update o t s).st.n e.addr = some n.toNat ∧ 1 ≤ n ∧
      ∃ l, (update o t s).st.count.get? tag = some l ∧ Py.getI l (n - 1) = .ok e.addr := by
  unfold nth at h
  split at h
  · rename_i hn
    have hm := List.mem_of_getElem? h
    rw [List.mem_filter] at hm
    have ht : e.tag = tag := by simpa using hm.2
    obtain ⟨n1, n2, n3⟩ := numbering o t s hd
    obtain ⟨l, k, h1, h2, h3⟩ := n3 e hm.1
    have hl : l = ((elems t).filter fun x => x.tag = tag).map Tree.addr := by
      rw [n1, if_pos (List.any_eq_true.2 ⟨e, hm.1, by simp⟩), ht] at h1
      simpa using h1.symm
    have h4 : l[(n - 1).toNat]? = some e.addr := by rw [hl, List.getElem?_map, h]; rfl
    have hnd : l.Nodup := by
      rw [hl]; exact List.Nodup.sublist ((List.filter_sublist).map _) hd
    have hk : k = (n - 1).toNat := by
      have hlt : k < l.length := (List.getElem?_eq_some_iff.1 h3).1
      exact (List.getElem?_inj hlt hnd).1 (by rw [h3, h4])
    refine ⟨hm.1, ht, ?_, hn, l, by rw [← ht]; exact h1, ?_⟩
    · rw [h2, hk]; congr 1; omega
    · unfold Py.getI Py.get
      rw [if_pos (by omega), h4]
  · simp at h

/-- Every element is the n-th of its tag for some n. -/
theorem nth_self (t : Tree) (o : Opts) (s : St) (hd : Distinct t) (e : Tree) (he : e ∈ elems t) :
    ∃ n, (update o t s).st.n e.addr = some n ∧ nth t e.tag n = some e := by
  obtain ⟨n1, n2, n3⟩ := numbering o t s hd
  obtain ⟨l, k, h1, h2, h3⟩ := n3 e he
  have hl : l = ((elems t).filter fun x => x.tag = e.tag).map Tree.addr := by
    rw [n1, if_pos (List.any_eq_true.2 ⟨e, he, by simp⟩)] at h1
    simpa using h1.symm
  refine ⟨k + 1, h2, ?_⟩
  unfold nth
  rw [if_pos (by omega)]
  rw [hl, List.getElem?_map] at h3
  obtain ⟨x, h4, h5⟩ := Option.map_eq_some_iff.1 h3
  have hx : x ∈ elems t := List.mem_of_mem_filter (List.mem_of_getElem? h4)
  have : x = e := List.inj_on_of_nodup_map hd hx he h5
  subst this
  have : (((k + 1 : Nat) : Int) - 1).toNat = k := by omega
  rw [this, h4]

end Verif.HitaextDoc
