import Verif.Lemmas.ODict

/-! Property C21 (lib/daeso/thirdparty/odict.py). -/
namespace Verif.Props.ODict
open Verif Verif.Spec Verif.ODict

variable {κ ν : Type} [DecidableEq κ]

/-- The operations of a history. -/
inductive Op (κ ν : Type)
  | set (k : κ) (v : ν)
  | del (k : κ)
  | popitem
  | clear
  | setdefault (k : κ) (v : ν)
  | pop (k : κ)
  | popDefault (k : κ) (v : ν)
  | update (l : List (κ × ν))

/-- What a caller observes. -/
inductive Obs (κ ν : Type)
  | done
  | value (v : ν)
  | entry (k : κ) (v : ν)
  | raised (e : Err)

/-- Run an operation of the code; a raised exception leaves the object as it was (in every operation the
exception comes before the first change). -/
def run (o : OD κ ν) : Op κ ν → OD κ ν × Obs κ ν
  | .set k v => (setItem o k v, .done)
  | .del k => match delItem o k with
    | .ok o' => (o', .done)
    | .error e => (o, .raised e)
  | .popitem => match popItem o with
    | .ok (o', e) => (o', .entry e.1 e.2)
    | .error e => (o, .raised e)
  | .clear => (clear o, .done)
  | .setdefault k v => let r := setDefault o k v; (r.1, .value r.2)
  | .pop k => match pop o k none with
    | .ok (o', v) => (o', .value v)
    | .error e => (o, .raised e)
  | .popDefault k v => match pop o k (some v) with
    | .ok (o', w) => (o', .value w)
    | .error e => (o, .raised e)
  | .update l => (update o l, .done)

/-- Specification of the same operations on the list of entries. -/
def spec (m : List (κ × ν)) : Op κ ν → List (κ × ν) × Obs κ ν
  | .set k v => (OMap.insert m k v, .done)
  | .del k => if k ∈ m.map Prod.fst then (OMap.erase m k, .done) else (m, .raised .keyError)
  | .popitem => match m.getLast? with
    | some e => (m.dropLast, .entry e.1 e.2)
    | none => (m, .raised .keyError)
  | .clear => ([], .done)
  | .setdefault k v => match OMap.lookup m k with
    | some w => (m, .value w)
    | none => (m ++ [(k, v)], .value v)
  | .pop k => match OMap.lookup m k with
    | some w => (OMap.erase m k, .value w)
    | none => (m, .raised .keyError)
  | .popDefault k v => match OMap.lookup m k with
    | some w => (OMap.erase m k, .value w)
    | none => (m, .value v)
  | .update l => (l.foldl (fun m e => OMap.insert m e.1 e.2) m, .done)

/-- State and observations after a history. -/
def history {σ ω : Type} (step : σ → ω → σ × Obs κ ν) (s : σ) : List ω → σ × List (Obs κ ν)
  | [] => (s, [])
  | op :: ops => let r := step s op; let rest := history step r.1 ops; (rest.1, r.2 :: rest.2)

private theorem step_ok (o : OD κ ν) (m : List (κ × ν)) (h : Rep o m) (op : Op κ ν) :
    (run o op).2 = (spec m op).2 ∧ Rep (run o op).1 (spec m op).1 := by
  cases op with
  | set k v => exact ⟨rfl, h.set k v⟩
  | del k =>
    by_cases hk : k ∈ m.map Prod.fst
    · obtain ⟨o', e1, e2⟩ := (h.del k).1 hk
      simp only [run, spec, e1, hk, if_true]
      exact ⟨trivial, e2⟩
    · simp only [run, spec, (h.del k).2 hk, hk, if_false]
      exact ⟨trivial, h⟩
  | popitem =>
    rcases List.eq_nil_or_concat m with rfl | ⟨m', e, rfl⟩
    · have : o.keys = [] := by simpa using h.keys
      simp only [run, spec, popItem, this, List.getLast?_nil]
      exact ⟨trivial, h⟩
    · have hk : o.keys = m'.map Prod.fst ++ [e.1] := by simpa using h.keys
      have hlook : o.d e.1 = some e.2 := by
        rw [h.look]; exact AD.get?_of_mem h.nodup (by simp)
      simp only [List.concat_eq_append] at *
      simp only [run, spec, popItem, hk, List.getLast?_concat, hlook, List.dropLast_concat]
      refine ⟨trivial, ?_⟩
      have := h.erase e.1
      have hnd := h.nodup
      rw [List.map_append, List.nodup_append] at hnd
      have hni : e.1 ∉ m'.map Prod.fst := by
        intro hc; exact hnd.2.2 e.1 hc e.1 (by simp) rfl
      have e1 : o.keys.erase e.1 = m'.map Prod.fst := by
        rw [hk, List.erase_append_right _ hni]; simp
      have e2 : OMap.erase (m' ++ [e]) e.1 = m' := by
        unfold OMap.erase
        rw [List.filter_append]
        have : m'.filter (fun x => decide (x.1 ≠ e.1)) = m' := by
          rw [List.filter_eq_self]
          intro x hx
          simp only [decide_eq_true_eq]
          intro hc; exact hni (List.mem_map.2 ⟨x, hx, hc⟩)
        rw [this]; simp
      rw [e1, e2] at this
      exact this
  | clear => exact ⟨rfl, Rep.empty⟩
  | setdefault k v =>
    simp only [run, spec, setDefault, h.look k]
    cases hl : OMap.lookup m k with
    | some w => exact ⟨rfl, h⟩
    | none =>
      refine ⟨rfl, ?_⟩
      have := h.set k v
      unfold OMap.insert at this
      rwa [if_neg ((lookup_none m k).1 hl)] at this
  | pop k =>
    simp only [run, spec, pop, h.look k]
    cases hl : OMap.lookup m k with
    | some w =>
      obtain ⟨o', e1, e2⟩ := (h.del k).1 ((lookup_isSome m k).1 (by simp [hl]))
      simp only [e1, Except.map]
      exact ⟨trivial, e2⟩
    | none => exact ⟨rfl, h⟩
  | popDefault k v =>
    simp only [run, spec, pop, h.look k]
    cases hl : OMap.lookup m k with
    | some w =>
      obtain ⟨o', e1, e2⟩ := (h.del k).1 ((lookup_isSome m k).1 (by simp [hl]))
      simp only [e1, Except.map]
      exact ⟨trivial, e2⟩
    | none => exact ⟨rfl, h⟩
  | update l =>
    refine ⟨rfl, ?_⟩
    simp only [run, spec, update]
    induction l generalizing o m with
    | nil => exact h
    | cons e l ih => exact ih _ _ (h.set e.1 e.2)

/-- C21: over every history starting from an empty OrderedDict, each operation returns or raises what it
does on an insertion-ordered list of entries, and afterwards `items()` is that list, `d[k]` its lookup,
and no key occurs twice. -/
theorem ordered_dict_refines (ops : List (Op κ ν)) :
    (history run (ODict.empty : OD κ ν) ops).2 = (history spec [] ops).2 ∧
    items (history run (ODict.empty : OD κ ν) ops).1 = .ok (history spec [] ops).1 ∧
    (∀ k, getItem (history run (ODict.empty : OD κ ν) ops).1 k =
      match OMap.lookup (history spec [] ops).1 k with
      | some v => .ok v
      | none => .error .keyError) ∧
    ((history spec [] ops).1.map Prod.fst).Nodup := by
  suffices H : ∀ (o : OD κ ν) (m : List (κ × ν)), Rep o m →
      (history run o ops).2 = (history spec m ops).2 ∧
      Rep (history run o ops).1 (history spec m ops).1 by
    obtain ⟨h1, h2⟩ := H _ _ Rep.empty
    refine ⟨h1, h2.items, ?_, h2.nodup⟩
    intro k
    simp only [getItem, Py.Dict.get, h2.look k]
    cases OMap.lookup (history spec [] ops).1 k <;> rfl
  induction ops with
  | nil => intro o m h; exact ⟨rfl, h⟩
  | cons op ops ih =>
    intro o m h
    obtain ⟨h1, h2⟩ := step_ok o m h op
    obtain ⟨h3, h4⟩ := ih _ _ h2
    exact ⟨by simp only [history, h1, h3], h4⟩

/-- C21: `fromkeys` gives each distinct key once, in order of first occurrence. -/
theorem fromkeys_order (l : List κ) (v : ν) :
    items (fromKeys l v) = .ok ((l.foldl (fun m k => OMap.insert m k v) [])) := by
  suffices H : ∀ (o : OD κ ν) (m : List (κ × ν)), Rep o m →
      Rep (l.foldl (fun o k => setItem o k v) o) (l.foldl (fun m k => OMap.insert m k v) m) from
    (H _ _ Rep.empty).items
  induction l with
  | nil => intro o m h; exact h
  | cons k l ih => intro o m h; exact ih _ _ (h.set k v)

/-- Non-vacuity: re-setting keeps the place, deleting and setting again moves to the end, popping is
LIFO, deleting an absent key raises. -/
example : (history run (ODict.empty : OD Nat Nat)
      [.set 1 10, .set 2 20, .set 1 11, .del 2, .set 3 30, .set 2 21, .del 7, .popitem]).1.keys = [1, 3] ∧
    (history spec ([] : List (Nat × Nat))
      [.set 1 10, .set 2 20, .set 1 11, .del 2, .set 3 30, .set 2 21, .del 7, .popitem]).1 =
      [(1, 11), (3, 30)] := by
  constructor <;> decide

end Verif.Props.ODict
