import Verif.Model.HitaextDoc
import Verif.Spec.HitaextDoc
import Verif.Lemmas.IElemTree

/-! Lemmas about alignments in parallel text. -/
set_option linter.unusedSectionVars false
namespace Verif.HitaextDoc
open Verif Verif.IElemTree Verif.Spec

/-- Grouping by key is a permutation. -/
theorem group_perm {α κ : Type} [DecidableEq κ] (ks : List κ) (hk : ks.Nodup) (key : α → κ) (l : List α)
    (h : ∀ x ∈ l, key x ∈ ks) : (ks.flatMap fun k => l.filter fun x => key x = k).Perm l := by
  induction ks generalizing l with
  | nil =>
    cases l with
    | nil => simp
    | cons x l => exact absurd (h x (by simp)) (by simp)
  | cons k ks ih =>
    rw [List.nodup_cons] at hk
    rw [List.flatMap_cons]
    have h1 : (ks.flatMap fun k' => l.filter fun x => key x = k') =
        ks.flatMap fun k' => (l.filter fun x => ¬ key x = k).filter fun x => key x = k' := by
      refine List.flatMap_congr fun k' hk' => ?_
      rw [List.filter_filter]
      refine List.filter_congr fun x _ => ?_
      by_cases hx : key x = k'
      · have : ¬ k' = k := by rintro rfl; exact hk.1 hk'
        simp [hx, this]
      · simp [hx]
    rw [h1]
    have h2 := ih hk.2 (l.filter fun x => ¬ key x = k) (by
      intro x hx
      rw [List.mem_filter] at hx
      rcases List.mem_cons.1 (h x hx.1) with h3 | h3
      · simp [h3] at hx
      · exact h3)
    refine (h2.append_left _).trans ?_
    have := List.filter_append_perm (fun x => decide (key x = k)) l
    simpa using this

/-- Grouping again changes nothing. -/
theorem group_again {α κ : Type} [DecidableEq κ] (ks : List κ) (hk : ks.Nodup) (key : α → κ) (l : List α) :
    (ks.flatMap fun k => (ks.flatMap fun k => l.filter fun x => key x = k).filter fun x => key x = k) =
      ks.flatMap fun k => l.filter fun x => key x = k := by
  refine List.flatMap_congr fun k hkm => ?_
  induction ks with
  | nil => simp at hkm
  | cons k' ks ih =>
    rw [List.nodup_cons] at hk
    rw [List.flatMap_cons, List.filter_append]
    by_cases hkk : k = k'
    · subst hkk
      have : (ks.flatMap fun k' => l.filter fun x => key x = k').filter (fun x => decide (key x = k)) = [] := by
        rw [List.filter_eq_nil_iff]
        intro x hx
        obtain ⟨k2, h1, h2⟩ := List.mem_flatMap.1 hx
        rw [List.mem_filter] at h2
        have h3 : key x = k2 := by simpa using h2.2
        intro hc
        have h4 : key x = k := by simpa using hc
        exact hk.1 (by rw [← h4, h3]; exact h1)
      rw [this, List.append_nil, List.filter_filter]
      simp
    · have : (l.filter fun x => key x = k').filter (fun x => decide (key x = k)) = [] := by
        rw [List.filter_eq_nil_iff]
        intro x hx hc
        rw [List.mem_filter] at hx
        have h3 : key x = k' := by simpa using hx.2
        have h4 : key x = k := by simpa using hc
        exact hkk (by rw [← h4, h3])
      rw [this, List.nil_append]
      exact ih hk.2 (by simpa [hkk] using hkm)

/-- States that differ in alignments only. -/
structure SameBut (s s' : St) : Prop where
  count : s.count = s'.count
  ids : s.ids = s'.ids
  n : s.n = s'.n
  ignored : s.ignored = s'.ignored
  start : s.start = s'.start
  stop : s.stop = s'.stop

theorem SameBut.refl (s : St) : SameBut s s := ⟨rfl, rfl, rfl, rfl, rfl, rfl⟩
theorem SameBut.trans {a b c : St} (h : SameBut a b) (h' : SameBut b c) : SameBut a c :=
  ⟨h.1.trans h'.1, h.2.trans h'.2, h.3.trans h'.3, h.4.trans h'.4, h.5.trans h'.5, h.6.trans h'.6⟩
theorem SameBut.symm {a b : St} (h : SameBut a b) : SameBut b a :=
  ⟨h.1.symm, h.2.symm, h.3.symm, h.4.symm, h.5.symm, h.6.symm⟩

/-- All links joined. -/
def joinAll (ps : List (Nat × Nat)) (s : St × St) : St × St := ps.foldl (fun s p => join p s) s

theorem joinAll_same (ps : List (Nat × Nat)) (s : St × St) :
    SameBut (joinAll ps s).1 s.1 ∧ SameBut (joinAll ps s).2 s.2 := by
  induction ps generalizing s with
  | nil => exact ⟨.refl _, .refl _⟩
  | cons p ps ih =>
    have := ih (join p s)
    exact ⟨this.1.trans ⟨rfl, rfl, rfl, rfl, rfl, rfl⟩, this.2.trans ⟨rfl, rfl, rfl, rfl, rfl, rfl⟩⟩

theorem joinAll_aligns (ps : List (Nat × Nat)) (s : St × St) (x : Nat) :
    (joinAll ps s).1.aligns x = s.1.aligns x ++ (ps.filter fun p => p.1 = x).map Prod.snd ∧
    (joinAll ps s).2.aligns x = s.2.aligns x ++ (ps.filter fun p => p.2 = x).map Prod.fst := by
  induction ps generalizing s with
  | nil => simp [joinAll]
  | cons p ps ih =>
    have h := ih (join p s)
    have hc : joinAll (p :: ps) s = joinAll ps (join p s) := rfl
    rw [hc, h.1, h.2]
    unfold join put
    constructor
    · by_cases hx : p.1 = x
      · simp [hx]
      · have : ¬ x = p.1 := fun hc => hx hc.symm
        simp [hx, this]
    · by_cases hx : p.2 = x
      · simp [hx]
      · have : ¬ x = p.2 := fun hc => hx hc.symm
        simp [hx, this]

theorem inject_loop (resolve : St → St → Link → Py (Nat × Nat))
    (hres : ∀ F F' T T' l, SameBut F F' → SameBut T T' → resolve F T l = resolve F' T' l)
    (links : List Link) (ps : List (Nat × Nat)) (s : St × St)
    (h : List.Forall₂ (fun l p => resolve s.1 s.2 l = .ok p) links ps) :
    Py.forIn links s (fun l s => match resolve s.1 s.2 l with
      | .ok p => .ok (join p s)
      | .error e => .error e) = .ok (joinAll ps s) := by
  induction links generalizing ps s with
  | nil => cases h; rfl
  | cons l links ih =>
    cases h with
    | cons h1 h2 =>
      rename_i p ps
      unfold Py.forIn
      dsimp only
      rw [h1]
      refine ih ps (join p s) (h2.imp fun l p hl => ?_)
      rw [← hl]
      exact hres _ _ _ _ _ ⟨rfl, rfl, rfl, rfl, rfl, rfl⟩ ⟨rfl, rfl, rfl, rfl, rfl, rfl⟩

theorem inject_error (resolve : St → St → Link → Py (Nat × Nat))
    (hres : ∀ F F' T T' l, SameBut F F' → SameBut T T' → resolve F T l = resolve F' T' l)
    (links : List Link) (l : Link) (rest : List Link) (ps : List (Nat × Nat)) (s : St × St) (e : Err)
    (h : List.Forall₂ (fun l p => resolve s.1 s.2 l = .ok p) links ps) (he : resolve s.1 s.2 l = .error e) :
    Py.forIn (links ++ l :: rest) s (fun l s => match resolve s.1 s.2 l with
      | .ok p => .ok (join p s)
      | .error e => .error e) = .error e := by
  induction links generalizing ps s with
  | nil => simp [Py.forIn, he]
  | cons l' links ih =>
    cases h with
    | cons h1 h2 =>
      rename_i p ps
      rw [List.cons_append]
      unfold Py.forIn
      dsimp only
      rw [h1]
      have hs : ∀ l, resolve (join p s).1 (join p s).2 l = resolve s.1 s.2 l := fun l =>
        hres _ _ _ _ _ ⟨rfl, rfl, rfl, rfl, rfl, rfl⟩ ⟨rfl, rfl, rfl, rfl, rfl, rfl⟩
      exact ih ps (join p s) (h2.imp fun l p hl => by rw [← hl]; exact hs l) (by rw [← he]; exact hs l)

theorem resolveN_same (F F' T T' : St) (l : Link) (h : SameBut F F') (h' : SameBut T T') :
    resolveN F T l = resolveN F' T' l := by unfold resolveN; rw [h.count, h'.count]

theorem resolveId_same (F F' T T' : St) (l : Link) (h : SameBut F F') (h' : SameBut T T') :
    resolveId F T l = resolveId F' T' l := by unfold resolveId; rw [h.ids, h'.ids]

theorem extract_loop {α : Type} (f : α → Link) (step : α → Hitaext → Py Hitaext) (as : List α) (d : Hitaext)
    (h : ∀ a ∈ as, ∀ d, step a d = .ok { d with links := d.links ++ [f a] }) :
    Py.forIn as d step = .ok { d with links := d.links ++ as.map f } := by
  induction as generalizing d with
  | nil => simp [Py.forIn]
  | cons a as ih =>
    unfold Py.forIn
    rw [h a (by simp) d]
    dsimp only
    rw [ih _ (fun x hx => h x (by simp [hx]))]
    simp

theorem extract_outer {α : Type} (f : α → List Link) (step : α → Hitaext → Py Hitaext) (as : List α) (d : Hitaext)
    (h : ∀ a ∈ as, ∀ d, step a d = .ok { d with links := d.links ++ f a }) :
    Py.forIn as d step = .ok { d with links := d.links ++ as.flatMap f } := by
  induction as generalizing d with
  | nil => simp [Py.forIn]
  | cons a as ih =>
    unfold Py.forIn
    rw [h a (by simp) d]
    dsimp only
    rw [ih _ (fun x hx => h x (by simp [hx]))]
    simp

theorem elemAt_of (t : Tree) (hd : Distinct t) (e : Tree) (he : e ∈ elems t) : elemAt t e.addr = .ok e := by
  unfold elemAt
  rw [iter_eq]
  cases h : (elems t).find? fun x => x.addr = e.addr with
  | none =>
    rw [List.find?_eq_none] at h
    have := h e he
    simp at this
  | some x =>
    have h1 : x.addr = e.addr := by simpa using List.find?_some h
    have : x = e := List.inj_on_of_nodup_map hd (List.mem_of_find?_eq_some h) he h1
    rw [this]

theorem forIn_map {α β σ : Type} (f : α → β) (l : List α) (s : σ) (g : β → σ → Py σ) :
    Py.forIn (l.map f) s g = Py.forIn l s (fun a => g (f a)) := by
  induction l generalizing s with
  | nil => rfl
  | cons a l ih =>
    simp only [List.map_cons, Py.forIn]
    cases g (f a) s with
    | error e => rfl
    | ok s' => exact ih s'

theorem roundtrip {ι : Type} (tF : Tree) (F : St) (items : List ι) (fa ta : ι → Nat) (mk : ι → Link)
    (haligns : ∀ e ∈ elems tF, F.aligns e.addr = (items.filter fun i => fa i = e.addr).map ta)
    (step : Tree → Nat → Hitaext → Py Hitaext)
    (hstep : ∀ i ∈ items, ∀ e ∈ elems tF, fa i = e.addr → ∀ d, step e (ta i) d = .ok { d with links := d.links ++ [mk i] })
    (d : Hitaext) :
    Py.forIn (iter tF) (clear d) (fun e d => Py.forIn (F.aligns e.addr) d (step e)) =
      .ok { d with links := (elems tF).flatMap fun e => (items.filter fun i => fa i = e.addr).map mk } := by
  rw [iter_eq, extract_outer (fun e => (items.filter fun i => fa i = e.addr).map mk)]
  · simp [clear]
  · intro e he d
    rw [haligns e he, forIn_map, extract_loop mk]
    intro i hi d
    rw [List.mem_filter] at hi
    exact hstep i hi.1 e he (by simpa using hi.2) d

end Verif.HitaextDoc
