import Verif.Py

/-! Python dicts that the code also iterates over: association lists with unique keys. The order of the
list is insertion order; CPython 2 does not specify an order, so no property relies on it. -/
namespace Verif

/-- A Python dict as an association list. -/
abbrev AD (κ ν : Type _) := List (κ × ν)

namespace AD
variable {κ ν : Type _} [DecidableEq κ]

/-- `d.get(k)`. -/
def get? (d : AD κ ν) (k : κ) : Option ν := (d.find? fun e => e.1 = k).map Prod.snd

/-- `d[k] = v`: overwrite in place, or add at the end. -/
def set : AD κ ν → κ → ν → AD κ ν
  | [], k, v => [(k, v)]
  | e :: d, k, v => if e.1 = k then (k, v) :: d else e :: set d k v

/-- `del d[k]` (no error if absent; callers test first). -/
def del (d : AD κ ν) (k : κ) : AD κ ν := d.filter fun e => e.1 ≠ k

/-- `d.keys()`. -/
def keys (d : AD κ ν) : List κ := d.map Prod.fst

/-- `k in d`. -/
def has (d : AD κ ν) (k : κ) : Bool := (d.get? k).isSome

/-- `d[k]`. -/
def get (d : AD κ ν) (k : κ) : Py ν :=
  match d.get? k with
  | some v => .ok v
  | none => .error .keyError

/-- The representation invariant of a dict. -/
def WF (d : AD κ ν) : Prop := d.keys.Nodup

@[simp] theorem get?_nil (k : κ) : get? ([] : AD κ ν) k = none := rfl

theorem get?_cons (e : κ × ν) (d : AD κ ν) (k : κ) :
    get? (e :: d) k = if e.1 = k then some e.2 else get? d k := by
  unfold get?
  by_cases h : e.1 = k <;> simp [h]

theorem get?_set (d : AD κ ν) (k k' : κ) (v : ν) :
    (d.set k v).get? k' = if k' = k then some v else d.get? k' := by
  induction d with
  | nil => simp [set, get?_cons, eq_comm]
  | cons e d ih =>
    unfold set
    split
    · rename_i h
      rw [get?_cons, get?_cons]
      by_cases hk : k' = k
      · subst hk; simp
      · have : ¬ k = k' := fun h => hk h.symm
        simp [hk, this, h]
    · rename_i h
      rw [get?_cons, get?_cons, ih]
      by_cases hk : k' = k
      · subst hk; simp [h]
      · simp [hk]

@[simp] theorem get?_set_self (d : AD κ ν) (k : κ) (v : ν) : (d.set k v).get? k = some v := by
  simp [get?_set]

theorem get?_set_ne (d : AD κ ν) {k k' : κ} (v : ν) (h : k' ≠ k) : (d.set k v).get? k' = d.get? k' := by
  simp [get?_set, h]

theorem mem_keys_iff (d : AD κ ν) (k : κ) : k ∈ d.keys ↔ (d.get? k).isSome := by
  induction d with
  | nil => simp [keys]
  | cons e d ih =>
    rw [get?_cons]
    unfold keys at *
    by_cases h : e.1 = k
    · simp [h]
    · have : ¬ k = e.1 := fun h' => h h'.symm
      simp only [List.map_cons, List.mem_cons, this, false_or, h, if_false]
      exact ih

theorem not_mem_keys_iff (d : AD κ ν) (k : κ) : k ∉ d.keys ↔ d.get? k = none := by
  rw [mem_keys_iff]; simp

theorem keys_set (d : AD κ ν) (k : κ) (v : ν) :
    (d.set k v).keys = if k ∈ d.keys then d.keys else d.keys ++ [k] := by
  induction d with
  | nil => simp [set, keys]
  | cons e d ih =>
    unfold set
    by_cases h : e.1 = k
    · subst h; simp [keys]
    · have hk : ¬ k = e.1 := fun h' => h h'.symm
      simp only [h, if_false]
      unfold keys at *
      simp only [List.map_cons, List.mem_cons, hk, false_or, ih]
      split <;> simp

theorem WF.set {d : AD κ ν} (h : d.WF) (k : κ) (v : ν) : (d.set k v).WF := by
  unfold WF at *
  rw [keys_set]
  split
  · exact h
  · rename_i hk
    rw [List.nodup_append]
    refine ⟨h, by simp, ?_⟩
    intro a ha b hb
    simp at hb; subst hb
    rintro rfl; exact hk ha

@[simp] theorem WF.nil : WF ([] : AD κ ν) := by simp [WF, keys]

theorem keys_del (d : AD κ ν) (k : κ) : (d.del k).keys = d.keys.filter (fun x => x ≠ k) := by
  unfold del keys
  rw [List.filter_map]
  rfl

theorem WF.del {d : AD κ ν} (h : d.WF) (k : κ) : (d.del k).WF := by
  unfold WF at *
  rw [keys_del]
  exact h.sublist List.filter_sublist

theorem get?_del (d : AD κ ν) (k k' : κ) : (d.del k).get? k' = if k' = k then none else d.get? k' := by
  induction d with
  | nil => simp [del]
  | cons e d ih =>
    unfold del at *
    rw [List.filter_cons]
    by_cases h : e.1 = k
    · simp only [h, ne_eq, not_true_eq_false, decide_false, Bool.false_eq_true, if_false, get?_cons]
      rw [ih]
      by_cases hk : k' = k
      · simp [hk]
      · have : ¬ k = k' := fun h' => hk h'.symm
        simp [hk, this]
    · simp only [h, ne_eq, not_false_eq_true, decide_true, if_true, get?_cons]
      rw [ih]
      by_cases hk : k' = k
      · subst hk; simp [h]
      · simp [hk]

theorem mem_of_get? {d : AD κ ν} {k : κ} {v : ν} (h : d.get? k = some v) : (k, v) ∈ d := by
  induction d with
  | nil => simp at h
  | cons e d ih =>
    rw [get?_cons] at h
    by_cases hk : e.1 = k
    · simp [hk] at h; subst hk; subst h; simp
    · simp [hk] at h; exact List.mem_cons_of_mem _ (ih h)

theorem get?_of_mem {d : AD κ ν} (hw : d.WF) {k : κ} {v : ν} (h : (k, v) ∈ d) : d.get? k = some v := by
  induction d with
  | nil => simp at h
  | cons e d ih =>
    unfold WF keys at hw
    rw [List.map_cons, List.nodup_cons] at hw
    rw [get?_cons]
    rcases List.mem_cons.1 h with rfl | h
    · simp
    · have : e.1 ≠ k := by
        rintro rfl
        exact hw.1 (List.mem_map.2 ⟨_, h, rfl⟩)
      simp [this]
      exact ih hw.2 h

theorem mem_iff_get? {d : AD κ ν} (hw : d.WF) {k : κ} {v : ν} : (k, v) ∈ d ↔ d.get? k = some v :=
  ⟨get?_of_mem hw, mem_of_get?⟩

theorem get_eq {d : AD κ ν} {k : κ} {v : ν} (h : d.get? k = some v) : d.get k = .ok v := by
  simp [get, h]

end AD
end Verif
