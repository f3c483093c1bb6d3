import Verif.Lemmas.HitaextNth
import Verif.Lemmas.Base
import Verif.Spec.Creation

/-! Property C46 (lib/daeso/pgc/creation.py). -/
namespace Verif.Props.Creation
open Verif Verif.Etree Verif.IElemTree Verif.HitaextDoc Verif.Creation Verif.Spec

/-- C46.  The token difference counts the words on either side that do not occur on the other; it is symmetric, zero
exactly for the same words, and equals the total number of words exactly when no word is shared. -/
theorem token_diff (s t : List Token) :
    tokenDiff s t = wordDiff s t ∧ tokenDiff s t = tokenDiff t s ∧ (tokenDiff s t = 0 ↔ ∀ w, w ∈ s ↔ w ∈ t) ∧
    tokenDiff s t ≤ s.length + t.length ∧ (tokenDiff s t = s.length + t.length ↔ ∀ w, w ∈ s → w ∉ t) := by
  have h0 : tokenDiff s t = wordDiff s t := by simp [tokenDiff, wordDiff, List.countP_eq_length_filter]
  refine ⟨h0, by unfold tokenDiff; omega, ?_, ?_, ?_⟩
  · rw [h0]
    unfold wordDiff
    rw [Nat.add_eq_zero_iff, List.countP_eq_zero, List.countP_eq_zero]
    simp only [decide_eq_true_eq, not_not]
    exact ⟨fun h w => ⟨h.1 w, h.2 w⟩, fun h => ⟨fun w => (h w).1, fun w => (h w).2⟩⟩
  · have := List.length_filter_le (fun x => decide (x ∉ t)) s
    have := List.length_filter_le (fun x => decide (x ∉ s)) t
    unfold tokenDiff; omega
  · rw [h0]
    unfold wordDiff
    have h1 := List.countP_le_length (p := fun w => decide (w ∉ t)) (l := s)
    have h2 := List.countP_le_length (p := fun w => decide (w ∉ s)) (l := t)
    constructor
    · intro h
      have h3 : s.countP (fun w => decide (w ∉ t)) = s.length := by omega
      rw [List.countP_eq_length] at h3
      intro w hw
      simpa using h3 w hw
    · intro h
      have h3 : s.countP (fun w => decide (w ∉ t)) = s.length := by
        rw [List.countP_eq_length]; intro w hw; simpa using h w hw
      have h4 : t.countP (fun w => decide (w ∉ s)) = t.length := by
        rw [List.countP_eq_length]; intro w hw; simp only [decide_eq_true_eq]; exact fun hc => h w hc hw
      omega

mutual
private theorem visible_all (ws : Char → Bool) : ∀ (t : Tree), visible { ws := ws } t = elems t
  | .node a tag id text tail cs => by
    unfold visible elems
    simp [visibleOf_all ws cs]
private theorem visibleOf_all (ws : Char → Bool) : ∀ (cs : List Tree), visibleOf { ws := ws } cs = elemsOf cs
  | [] => by simp [visibleOf, elemsOf]
  | c :: cs => by rw [visibleOf, elemsOf, visible_all ws c, visibleOf_all ws cs]
end

private theorem byId_mem {t : Tree} {tag : String} {id : Option String} {e : Tree} (h : byId t tag id = some e) :
    e ∈ elems t := List.mem_of_mem_filter (List.mem_of_getLast? h)

private theorem tokens_ok (c : Settings) (t : Tree) (hd : Distinct t) (tag : String) (id : Option String) :
    (∀ e, byId t tag id = some e → elemTokens c (docTree c t) tag id = .ok (tokensOf c e)) ∧
    (byId t tag id = none → elemTokens c (docTree c t) tag id = .error .keyError) := by
  have hl := Props.IElemTree.id_lookup { ws := c.ws } t fresh tag id
  have he : ∀ e, byId t tag id = some e → getElemText (docTree c t) e.addr = content { ws := c.ws } e := by
    intro e h
    exact Props.IElemTree.element_text _ t fresh hd e (by rw [visible_all]; exact byId_mem h)
  unfold byId at *
  constructor
  · intro e h
    rw [h] at hl
    unfold elemTokens docTree
    cases hm : (update { ws := c.ws } t fresh).st.ids.get? tag with
    | none => rw [hm] at hl; simp at hl
    | some m =>
      rw [hm] at hl
      simp only [Option.bind_some, Option.map_some] at hl
      have h1 := he e h
      unfold docTree at h1
      simp only [AD.get_eq hm, AD.get_eq hl, bind, Except.bind, h1]
      rfl
  · intro h
    rw [h] at hl
    unfold elemTokens docTree
    cases hm : (update { ws := c.ws } t fresh).st.ids.get? tag with
    | none => simp only [AD.get, hm, bind, Except.bind]
    | some m =>
      rw [hm] at hl
      simp only [Option.bind_some, Option.map_none] at hl
      simp only [AD.get, hm, hl, bind, Except.bind]

variable {γ : Type}

/-- What a link asks for. -/
private theorem step_cases (c : Settings) (tF tT : Tree) (hF : Distinct tF) (hT : Distinct tT) (bS bT : AD String γ)
    (l : Link) (out : List (Creation.Pair γ)) :
    (¬ FocusLink c l → step c (docTree c tF) (docTree c tT) bS bT l out = .ok out) ∧
    (FocusLink c l → byId tF c.focusS l.fromId = none ∨ byId tT c.focusT l.toId = none →
      step c (docTree c tF) (docTree c tT) bS bT l out = .error .keyError) ∧
    (FocusLink c l → (byId tF c.focusS l.fromId).isSome → (byId tT c.focusT l.toId).isSome → ¬ Admissible c tF tT l →
      step c (docTree c tF) (docTree c tT) bS bT l out = .ok out) ∧
    (Admissible c tF tT l → (∀ p, Makes bS bT l p → step c (docTree c tF) (docTree c tT) bS bT l out = .ok (out ++ [p])) ∧
      ((¬ ∃ p, Makes bS bT l p) → step c (docTree c tF) (docTree c tT) bS bT l out = .error .keyError)) := by
  unfold step
  have hif : (l.fromTag ≠ some c.focusS ∨ l.toTag ≠ some c.focusT) ↔ ¬ FocusLink c l := by
    unfold FocusLink; tauto
  refine ⟨?_, ?_, ?_, ?_⟩
  · intro h; rw [if_pos (hif.2 h)]
  · intro h h'
    rw [if_neg (by rw [hif]; exact not_not.2 h)]
    cases hs : byId tF c.focusS l.fromId with
    | none => simp only [(tokens_ok c tF hF c.focusS l.fromId).2 hs, bind, Except.bind]
    | some e =>
      rw [hs] at h'
      simp only [reduceCtorEq, false_or] at h'
      simp only [(tokens_ok c tF hF c.focusS l.fromId).1 e hs, (tokens_ok c tT hT c.focusT l.toId).2 h', bind,
        Except.bind]
  · intro h h1 h2 h3
    rw [if_neg (by rw [hif]; exact not_not.2 h)]
    obtain ⟨e, he⟩ := Option.isSome_iff_exists.1 h1
    obtain ⟨e', he'⟩ := Option.isSome_iff_exists.1 h2
    simp only [(tokens_ok c tF hF c.focusS l.fromId).1 e he, (tokens_ok c tT hT c.focusT l.toId).1 e' he', bind,
      Except.bind]
    by_cases g1 : ((tokensOf c e).length : Int) > c.maxLen ∨ ((tokensOf c e').length : Int) > c.maxLen
    · rw [if_pos g1]
    · rw [if_neg g1, if_pos]
      have g2 : ¬ c.minDiff ≤ wordDiff (tokensOf c e) (tokensOf c e') := by
        intro hc
        exact h3 ⟨h, e, e', he, he', by omega, by omega, hc⟩
      rw [(token_diff _ _).1]
      constructor <;> omega
  · rintro ⟨h, e, e', he, he', h1, h2, h3⟩
    rw [if_neg (by rw [hif]; exact not_not.2 h)]
    simp only [(tokens_ok c tF hF c.focusS l.fromId).1 e he, (tokens_ok c tT hT c.focusT l.toId).1 e' he', bind,
      Except.bind]
    rw [if_neg (by omega), if_neg (by rw [(token_diff _ _).1]; omega)]
    constructor
    · rintro p ⟨m1, m2, m3, m4⟩
      rw [m1, m2]
      simp only [getGraph, AD.get_eq m3, AD.get_eq m4]
    · intro hno
      cases hf : l.fromId with
      | none => rfl
      | some i =>
        cases hg : bS.get? i with
        | none => simp only [getGraph, AD.get, hg]
        | some g =>
          simp only [getGraph, AD.get_eq hg]
          cases ht : l.toId with
          | none => rfl
          | some j =>
            cases hh : bT.get? j with
            | none => simp only [getGraph, AD.get, hh]
            | some g' => exact absurd ⟨⟨i, j, g, g'⟩, hf, ht, hg, hh⟩ hno

/-- The link cannot be handled: it is between focus elements that do not exist, or an admissible one without graphs. -/
def Broken (c : Settings) (tF tT : Tree) (bS bT : AD String γ) (l : Link) : Prop :=
  (FocusLink c l ∧ (byId tF c.focusS l.fromId = none ∨ byId tT c.focusT l.toId = none)) ∨
  (Admissible c tF tT l ∧ ¬ ∃ p, Makes bS bT l p)

open Classical in
/-- C46.  Without broken links the new corpus has a graph pair for each admissible link, in order, and no other. -/
theorem creation_exact (c : Settings) (tF tT : Tree) (hF : Distinct tF) (hT : Distinct tT) (bS bT : AD String γ)
    (links : List Link) (hb : ∀ l ∈ links, ¬ Broken c tF tT bS bT l) :
    ∃ pairs, pgcFromPtc c links tF tT bS bT = .ok pairs ∧
      List.Forall₂ (Makes bS bT) (links.filter fun l => decide (Admissible c tF tT l)) pairs := by
  unfold pgcFromPtc
  suffices H : ∀ (out : List (Creation.Pair γ)), ∃ pairs,
      Py.forIn links out (step c (docTree c tF) (docTree c tT) bS bT) = .ok (out ++ pairs) ∧
      List.Forall₂ (Makes bS bT) (links.filter fun l => decide (Admissible c tF tT l)) pairs by
    simpa using H []
  induction links with
  | nil => intro out; exact ⟨[], by simp [Py.forIn], by simp⟩
  | cons l links ih =>
    intro out
    have hbl := hb l (by simp)
    have ih := ih fun x hx => hb x (by simp [hx])
    obtain ⟨s1, s2, s3, s4⟩ := step_cases c tF tT hF hT bS bT l out
    unfold Py.forIn
    by_cases ha : Admissible c tF tT l
    · have hp : ∃ p, Makes bS bT l p := by
        by_contra hno; exact hbl (Or.inr ⟨ha, hno⟩)
      obtain ⟨p, hp⟩ := hp
      obtain ⟨ps, h1, h2⟩ := ih (out ++ [p])
      rw [(s4 ha).1 p hp]
      refine ⟨p :: ps, by dsimp only; rw [h1]; simp, ?_⟩
      rw [List.filter_cons_of_pos (by simpa using ha)]
      exact .cons hp h2
    · have hs : step c (docTree c tF) (docTree c tT) bS bT l out = .ok out := by
        by_cases hf : FocusLink c l
        · refine s3 hf ?_ ?_ ha
          · by_contra hc; exact hbl (Or.inl ⟨hf, Or.inl (by simpa using hc)⟩)
          · by_contra hc; exact hbl (Or.inl ⟨hf, Or.inr (by simpa using hc)⟩)
        · exact s1 hf
      obtain ⟨ps, h1, h2⟩ := ih out
      rw [hs]
      refine ⟨ps, h1, ?_⟩
      rw [List.filter_cons_of_neg (by simpa using ha)]
      exact h2

/-- C46.  A broken link raises KeyError. -/
theorem creation_broken (c : Settings) (tF tT : Tree) (hF : Distinct tF) (hT : Distinct tT) (bS bT : AD String γ)
    (links : List Link) (l : Link) (hl : l ∈ links) (hb : Broken c tF tT bS bT l) :
    pgcFromPtc c links tF tT bS bT = .error .keyError := by
  unfold pgcFromPtc
  generalize ([] : List (Creation.Pair γ)) = out
  induction links generalizing out with
  | nil => simp at hl
  | cons x links ih =>
    obtain ⟨s1, s2, s3, s4⟩ := step_cases c tF tT hF hT bS bT x out
    unfold Py.forIn
    by_cases hbx : Broken c tF tT bS bT x
    · have : step c (docTree c tF) (docTree c tT) bS bT x out = .error .keyError := by
        rcases hbx with ⟨h1, h2⟩ | ⟨h1, h2⟩
        · exact s2 h1 h2
        · exact (s4 h1).2 h2
      rw [this]
    · have hl' : l ∈ links := by
        rcases List.mem_cons.1 hl with rfl | h
        · exact absurd hb hbx
        · exact h
      have : ∃ out', step c (docTree c tF) (docTree c tT) bS bT x out = .ok out' := by
        by_cases ha : Admissible c tF tT x
        · have hp : ∃ p, Makes bS bT x p := by
            by_contra hno; exact hbx (Or.inr ⟨ha, hno⟩)
          obtain ⟨p, hp⟩ := hp
          exact ⟨_, (s4 ha).1 p hp⟩
        · by_cases hf : FocusLink c x
          · refine ⟨out, s3 hf ?_ ?_ ha⟩
            · by_contra hc; exact hbx (Or.inl ⟨hf, Or.inl (by simpa using hc)⟩)
            · by_contra hc; exact hbx (Or.inl ⟨hf, Or.inr (by simpa using hc)⟩)
          · exact ⟨out, s1 hf⟩
      obtain ⟨out', h⟩ := this
      rw [h]
      exact ih hl' out'

/-- C46.  Links by number cannot be used: a link without ids between focus elements gives no graph pair; it raises
KeyError, unless elements without id happen to exist and their texts are not admissible. -/
theorem numbered_links_fail (c : Settings) (tF tT : Tree) (hF : Distinct tF) (hT : Distinct tT) (bS bT : AD String γ)
    (links : List Link) (l : Link) (hl : l ∈ links) (hf : FocusLink c l) (hn : l.fromId = none) :
    ((∀ e ∈ elems tF, e.tag = c.focusS → e.id ≠ none) ∨ Admissible c tF tT l) →
      pgcFromPtc c links tF tT bS bT = .error .keyError := by
  intro h
  refine creation_broken c tF tT hF hT bS bT links l hl ?_
  rcases h with h | h
  · refine Or.inl ⟨hf, Or.inl ?_⟩
    unfold byId
    rw [hn, List.getLast?_eq_none_iff, List.filter_eq_nil_iff]
    intro e he hc
    simp only [decide_eq_true_eq] at hc
    exact h e he hc.1 hc.2
  · refine Or.inr ⟨h, ?_⟩
    rintro ⟨p, hp, -⟩
    rw [hn] at hp
    simp at hp

/-- A document with two sentences. -/
def sampleDoc (x y : String) : Tree := .node 0 "d" none [] []
  [.node 1 "s" (some "1") x.toList [] [], .node 2 "s" (some "2") y.toList [] []]

/-- Words are separated by blanks, and differ in at least one. -/
def sampleSettings : Settings :=
  { focusS := "s", focusT := "s", minDiff := 1, maxLen := 2, lower := id, ws := fun c => c = ' ' }

example : pgcFromPtc sampleSettings
    [{ fromTag := some "s", toTag := some "s", fromId := some "1", toId := some "2" },
     { fromTag := some "s", toTag := some "s", fromId := some "1", toId := some "1" },
     { fromTag := some "p", toTag := some "s" },
     { fromTag := some "s", toTag := some "s", fromId := some "2", toId := some "2" }]
    (sampleDoc "a b" "a b c") (sampleDoc "b a" "a d") [("1", 'x')] [("2", 'y')] = .ok [⟨"1", "2", 'x', 'y'⟩] := by
  decide +kernel

end Verif.Props.Creation
