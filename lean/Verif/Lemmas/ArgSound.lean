import Verif.Lemmas.ArgClass

/-! Every string of a command line that `argparse` accepts belongs to one part. -/
set_option linter.unusedSectionVars false
namespace Verif.Argparse
open Verif Verif.Spec.CommandLine

theorem matchArgument_ok {a : Arg} {k : List Kind} {n : Nat} (h : matchArgument a k = .ok n) : n ∈ seqLens (pattern a) k := by
  unfold matchArgument at h
  cases hs : seqLens (pattern a) k with
  | nil => rw [hs] at h; cases h
  | cons m l => rw [hs] at h; cases h; simp

/-- Strings that are arguments. -/
theorem args_text {p : Parser} {ws : List Text} {ts : List Tok} (h : List.Forall₂ (Denotes p) ws ts) (n : Nat)
    (hn : ∀ x ∈ (ts.map Tok.kind).take n, x ≠ .O) : (ts.take n).map Tok.text = ws.take n := by
  induction h generalizing n with
  | nil => simp
  | @cons w t ws ts h1 h2 ih =>
    cases n with
    | zero => simp
    | succ n =>
      simp only [List.take_succ_cons, List.map_cons, List.mem_cons, forall_eq_or_imp] at hn ⊢
      rw [ih n hn.2]
      congr 1
      cases t with
      | arg s => exact h1
      | dash => exact h1.symm
      | opt a m e => exact absurd rfl hn.1
      | unknown s => exact absurd rfl hn.1

theorem single_sound {p : Parser} {a : Arg} (ha : a ∈ p) (hne : a.names ≠ []) {ws : List Text} {rest : List Tok}
    (hw : List.Forall₂ (Denotes p) ws rest) {calls : List (Arg × List Text)} {rest' : List Tok}
    (h : single a rest = .ok (calls, rest')) :
    ∃ k, (k ≤ rest.length ∧ ∀ x ∈ (rest.map Tok.kind).take k, x = .A) ∧ rest' = rest.drop k ∧ calls = [(a, ws.take k)] ∧
      Fits a.nargs (ws.take k).length := by
  unfold single at h
  cases hm : matchArgument a (rest.map Tok.kind) with
  | error e => rw [hm] at h; cases h
  | ok n =>
    rw [hm] at h
    cases h
    have h1 := matchArgument_ok hm
    have h2 := pattern_option hne h1
    have h3 := pattern_count h1
    have h4 := (seqLens_spec h1).1
    rw [List.length_map] at h4
    refine ⟨n, ⟨h4, h2⟩, rfl, by rw [args_text hw n fun x hx => by rw [h2 x hx]; simp], ?_⟩
    have h5 : countA ((rest.map Tok.kind).take n) = n := by
      rw [countA, List.count_eq_length.mpr fun x hx => (h2 x hx).symm]; simp [h4]
    rw [h5] at h3
    rw [List.length_take, hw.length_eq, Nat.min_eq_left h4]
    exact h3

theorem cluster_sound {p : Parser} (hp : WF p) {ws : List Text} {rest : List Tok} (hw : List.Forall₂ (Denotes p) ws rest) (e : Text)
    (he : e ≠ []) {a : Arg} {c : Char} (ha : a ∈ p) (hn : ['-', c] ∈ a.names) (hc : c ≠ '-') {calls : List (Arg × List Text)}
    {rest' : List Tok} (h : cluster p a ['-', c] e rest = .ok (calls, rest')) :
    ∃ k, (k ≤ rest.length ∧ ∀ x ∈ (rest.map Tok.kind).take k, x = .A) ∧ rest' = rest.drop k ∧ Reads p ('-' :: c :: e) (ws.take k) calls := by
  induction e generalizing a c calls rest' with
  | nil => exact absurd rfl he
  | cons d e ih =>
    rw [cluster] at h
    cases hm : matchArgument a [.A] with
    | error x => rw [hm] at h; cases h
    | ok n =>
      have h1 := matchArgument_ok hm
      have hc1 := pattern_count h1
      have hn1 := (seqLens_spec h1).1
      rw [hm] at h
      dsimp only at h
      by_cases h0 : n = 0 ∧ (['-', c] : Text)[1]? ≠ some '-'
      · rw [if_pos h0] at h
        obtain ⟨rfl, -⟩ := h0
        cases hl : lookup p ['-', d] with
        | none => rw [hl] at h; cases h
        | some b =>
          rw [hl] at h
          dsimp only at h
          obtain ⟨hb, hbn⟩ := lookup_some hl
          have hd : d ≠ '-' := by
            rintro rfl
            rcases hp.names b hb _ hbn with ⟨c', h1, h2⟩ | ⟨r, h1, c', h2, h3⟩
            · simp only [List.cons.injEq, and_true, true_and] at h1; exact h2 h1.symm
            · simp only [List.cons.injEq, true_and] at h1; rw [← h1] at h2; simp at h2
          by_cases hee : e = []
          · subst hee
            rw [if_pos rfl] at h
            cases hs : single b rest with
            | error x => rw [hs] at h; cases h
            | ok r =>
              rw [hs] at h
              cases h
              obtain ⟨k, k1, k2, k3, k4⟩ := single_sound hb (List.ne_nil_of_mem hbn) hw (calls := r.1) (rest' := r.2) hs
              refine ⟨k, k1, k2, .cluster a c [d] _ _ ha hn hc ?_ (by simpa using hd) ?_⟩
              · simpa [countA] using hc1
              · rw [k3]; exact .name b ['-', d] _ _ hb hbn List.prefix_rfl k4
          · rw [if_neg hee] at h
            cases hs : cluster p b ['-', d] e rest with
            | error x => rw [hs] at h; cases h
            | ok r =>
              rw [hs] at h
              cases h
              obtain ⟨k, k1, k2, k3⟩ := ih hee hb hbn hd hs
              exact ⟨k, k1, k2, .cluster a c (d :: e) _ _ ha hn hc (by simpa [countA] using hc1) (by simpa using hd) k3⟩
      · rw [if_neg h0] at h
        by_cases h2 : n = 1
        · rw [if_pos h2] at h
          cases h
          subst h2
          refine ⟨0, ⟨Nat.zero_le _, by simp⟩, rfl, ?_⟩
          rw [List.take_zero]
          exact .joined a c (d :: e) ha hn hc (by simp) (by simpa [countA] using hc1)
        · rw [if_neg h2] at h; cases h

/-- How a string with options is read. -/
theorem readOption_sound {p : Parser} (hp : WF p) {w : Text} {a : Arg} {n : Text} {e : Option Text} (hd : Denotes p w (.opt a n e))
    {ws : List Text} {rest : List Tok} (hw : List.Forall₂ (Denotes p) ws rest) {calls : List (Arg × List Text)} {rest' : List Tok}
    (h : readOption p a n e rest = .ok (calls, rest')) :
    ∃ k, (k ≤ rest.length ∧ ∀ x ∈ (rest.map Tok.kind).take k, x = .A) ∧ rest' = rest.drop k ∧ Reads p w (ws.take k) calls := by
  obtain ⟨h1, h2, h3, h4⟩ := hd
  unfold readOption at h
  rcases h4 with ⟨rfl, hpre⟩ | ⟨u, v, rfl, rfl, hu, hpre⟩ | ⟨c, v, rfl, hv, hc, rfl, rfl⟩
  · obtain ⟨k, k1, k2, k3, k4⟩ := single_sound h2 (List.ne_nil_of_mem h3) hw h
    exact ⟨k, k1, k2, by rw [k3]; exact .name a n w _ h2 h3 hpre k4⟩
  · dsimp only at h
    unfold cluster at h
    cases hm : matchArgument a [.A] with
    | error x => rw [hm] at h; cases h
    | ok m =>
      have i1 := matchArgument_ok hm
      have hc1 := pattern_count i1
      rw [hm] at h
      dsimp only at h
      have hn1 : n[1]? = some '-' := by
        obtain ⟨t, rfl⟩ := hu.trans hpre
        rfl
      rw [if_neg (by simp [hn1])] at h
      by_cases h2' : m = 1
      · rw [if_pos h2'] at h
        cases h
        subst h2'
        refine ⟨0, ⟨Nat.zero_le _, by simp⟩, rfl, ?_⟩
        rw [List.take_zero]
        exact .equals a n u v h2 h3 hu hpre (by simpa [countA] using hc1)
      · rw [if_neg h2'] at h; cases h
  · exact cluster_sound hp hw v hv h2 h3 hc h

/-! ### Positional arguments -/

theorem count_split {k : List Kind} (h : k.count .D ≤ 1) (ho : ∀ x ∈ k, x ≠ .O) :
    countA k = k.length ∨ ∃ i, i < k.length ∧ k[i]? = some .D ∧ countA k + 1 = k.length := by
  induction k with
  | nil => left; rfl
  | cons x k ih =>
    rcases x with _ | _ | _
    · rw [List.count_cons_of_ne (by simp)] at h
      rcases ih h fun x hx => ho x (List.mem_cons_of_mem _ hx) with h1 | ⟨i, h1, h2, h3⟩
      · left; rw [countA, List.count_cons_self]; rw [countA] at h1; simp [h1]
      · right
        refine ⟨i + 1, by simpa using h1, by simpa using h2, ?_⟩
        rw [countA, List.count_cons_self]; rw [countA] at h3; simp; omega
    · right
      rw [List.count_cons_self] at h
      have h0 : k.count .D = 0 := by omega
      refine ⟨0, by simp, rfl, ?_⟩
      rw [countA, List.count_cons_of_ne (by simp), List.count_eq_length.mpr]
      · rfl
      · intro x hx
        rcases x with _ | _ | _
        · rfl
        · exact absurd hx (List.count_eq_zero.mp h0)
        · exact absurd rfl (ho _ (List.mem_cons_of_mem _ hx))
    · exact absurd rfl (ho _ List.mem_cons_self)

theorem forall₂_get {α β : Type} {R : α → β → Prop} {l : List α} {m : List β} (h : List.Forall₂ R l m) {i : Nat} {b : β}
    (hb : m[i]? = some b) : ∃ a, l[i]? = some a ∧ R a b := by
  induction h generalizing i with
  | nil => simp at hb
  | cons h1 h2 ih =>
    cases i with
    | zero => simp only [List.getElem?_cons_zero, Option.some.injEq] at hb; subst hb; exact ⟨_, rfl, h1⟩
    | succ i => exact ih hb

theorem forall₂_take {α β : Type} {R : α → β → Prop} {l : List α} {m : List β} (h : List.Forall₂ R l m) (n : Nat) :
    List.Forall₂ R (l.take n) (m.take n) := by
  induction h generalizing n with
  | nil => simp
  | cons h1 h2 ih =>
    cases n with
    | zero => simp
    | succ n => exact .cons h1 (ih n)

theorem forall₂_drop {α β : Type} {R : α → β → Prop} {l : List α} {m : List β} (h : List.Forall₂ R l m) (n : Nat) :
    List.Forall₂ R (l.drop n) (m.drop n) := by
  induction h generalizing n with
  | nil => simp
  | cons h1 h2 ih =>
    cases n with
    | zero => exact .cons h1 h2
    | succ n => exact ih n

theorem split_word {ws : List Text} {i : Nat} (h : ws[i]? = some dashes) : ∃ l r, ws = l ++ dashes :: r ∧ (l ++ r).length + 1 = ws.length := by
  induction ws generalizing i with
  | nil => simp at h
  | cons w ws ih =>
    cases i with
    | zero => simp only [List.getElem?_cons_zero, Option.some.injEq] at h; exact ⟨[], ws, by rw [h]; rfl, rfl⟩
    | succ i =>
      obtain ⟨l, r, h1, h2⟩ := ih (by simpa using h)
      refine ⟨w :: l, r, by rw [h1]; rfl, ?_⟩
      simp only [List.cons_append, List.length_cons]; omega

theorem grouped_parts {p : Parser} {l : List Arg} (hl : ∀ a ∈ l, a ∈ p) {ws : List Text} {ts : List Tok}
    (hw : List.Forall₂ (Denotes p) ws ts) (hd : (ts.map Tok.kind).count .D ≤ 1) {ns : List Nat} (h : Grouped l (ts.map Tok.kind) ns) :
    ∃ parts : List Part, parts.flatMap Part.words = ws.take ns.sum ∧ parts.flatMap Part.positional = l ∧
      parts.flatMap Part.calls = l.zip (slices ns ts) ∧ ∀ q ∈ parts, q.Sound p := by
  generalize hk : ts.map Tok.kind = k at h
  induction h generalizing ws ts with
  | nil => exact ⟨[], by simp, rfl, rfl, by simp⟩
  | cons a l k n ns h1 h2 ih =>
    subst hk
    obtain ⟨parts, q1, q2, q3, q4⟩ := ih (fun a ha => hl a (List.mem_cons_of_mem _ ha)) (forall₂_drop hw n)
      (by rw [List.map_drop]; exact (List.Sublist.count_le _ (List.drop_sublist n _)).trans hd) (by rw [List.map_drop])
    obtain ⟨s1, s2⟩ := seqLens_spec h1
    rw [List.length_map] at s1
    have hwl : (ws.take n).length = n := by rw [List.length_take, hw.length_eq]; omega
    refine ⟨.files a (ws.take n) :: parts, ?_, ?_, ?_, ?_⟩
    · rw [List.flatMap_cons, q1, Part.words, List.sum_cons, List.take_add]
    · rw [List.flatMap_cons, q2]; rfl
    · rw [List.flatMap_cons, q3, Part.calls, slices, args_text hw n s2]; rfl
    · intro q hq
      rcases List.mem_cons.mp hq with rfl | hq
      · refine ⟨hl a List.mem_cons_self, ?_⟩
        have hc := pattern_count h1
        rcases count_split ((List.Sublist.count_le _ (List.take_sublist n _)).trans hd) s2 with h3 | ⟨i, h3, h4, h5⟩
        · left
          rw [hwl]
          rw [h3, List.length_take, List.length_map, Nat.min_eq_left s1] at hc
          exact hc
        · right
          have h4' : ((ts.take n).map Tok.kind)[i]? = some .D := by rw [List.map_take]; exact h4
          rw [List.getElem?_map, Option.map_eq_some_iff] at h4'
          obtain ⟨t, ht, hkd⟩ := h4'
          obtain ⟨w, hw', hden⟩ := forall₂_get (forall₂_take hw n) ht
          have ht' : t = .dash := by cases t <;> simp_all [Tok.kind]
          subst ht'
          rw [show w = dashes from hden] at hw'
          obtain ⟨x, y, e1, e2⟩ := split_word hw'
          refine ⟨x, y, e1, ?_⟩
          rw [List.length_take, List.length_map, Nat.min_eq_left s1] at h5
          rw [hwl] at e2
          rw [show (x ++ y).length = countA ((ts.map Tok.kind).take n) by omega]
          exact hc
      · exact q4 q hq

theorem zip_take {α β : Type} (l : List α) (m : List β) : l.zip m = (l.take m.length).zip m := by
  induction l generalizing m with
  | nil => simp
  | cons x l ih =>
    cases m with
    | nil => simp
    | cons y m => simp [← ih]

theorem slices_length (ns : List Nat) (ts : List Tok) : (slices ns ts).length = ns.length := by
  induction ns generalizing ts with
  | nil => rfl
  | cons n ns ih => simp [slices, ih]

theorem consume_sound {p : Parser} {pos : List Arg} (hpos : ∀ a ∈ pos, a ∈ p) {ws : List Text} {ts : List Tok}
    (hw : List.Forall₂ (Denotes p) ws ts) (hd : (ts.map Tok.kind).count .D ≤ 1) {st st' : St} {pos' : List Arg} {n : Nat}
    (h : consumePositionals ts pos st = .ok (st', pos', n)) :
    n ≤ ts.length ∧ (∀ x ∈ (ts.map Tok.kind).take n, x ≠ .O) ∧ ∃ parts : List Part, parts.flatMap Part.words = ws.take n ∧
      parts.flatMap Part.positional ++ pos' = pos ∧ takeAll (parts.flatMap Part.calls) st = .ok st' ∧ ∀ q ∈ parts, q.Sound p := by
  unfold consumePositionals at h
  dsimp only at h
  obtain ⟨i, hi, hg⟩ := matchPartial_sound pos (ts.map Tok.kind)
  generalize matchPartial pos (ts.map Tok.kind) = ns at h hg
  cases ht : takeAll (pos.zip (slices ns ts)) st with
  | error e => rw [ht] at h; cases h
  | ok s =>
    rw [ht] at h
    cases h
    have hlen : ns.length = i := by rw [hg.length, List.length_take]; omega
    obtain ⟨parts, q1, q2, q3, q4⟩ := grouped_parts (fun a ha => hpos a (List.mem_of_mem_take ha)) hw hd hg
    have hs := hg.sum
    rw [List.length_map] at hs
    refine ⟨hs.1, hs.2, parts, q1, ?_, ?_, q4⟩
    · rw [q2, hlen, List.take_append_drop]
    · rw [q3, ← ht]
      congr 1
      rw [zip_take pos, slices_length, hlen]

/-! ### The loop -/

/-- The strings of a part, or a string that nothing uses. -/
def wordsOf : Part ⊕ Text → List Text
  | .inl q => q.words
  | .inr w => [w]

def extraOf : Part ⊕ Text → List Text
  | .inl _ => []
  | .inr w => [w]

def callsOf : Part ⊕ Text → List (Arg × List Text)
  | .inl q => q.calls
  | .inr _ => []

def positionalOf : Part ⊕ Text → List Arg
  | .inl q => q.positional
  | .inr _ => []

def SoundOf (p : Parser) : Part ⊕ Text → Prop
  | .inl q => q.Sound p
  | .inr _ => True

theorem takeAll_append (c d : List (Arg × List Text)) (st : St) :
    takeAll (c ++ d) st = match takeAll c st with
      | .error e => .error e
      | .ok st => takeAll d st := by
  induction c generalizing st with
  | nil => rfl
  | cons x c ih =>
    rw [List.cons_append, takeAll, takeAll]
    cases takeAction x.1 x.2 st with
    | error e => rfl
    | ok s => exact ih s

theorem kind_plain (t : Tok) : t.plain = true ↔ t.kind ≠ .O := by simp [Tok.plain]

theorem take_while_kind (ts : List Tok) : ∀ x ∈ (ts.map Tok.kind).take (ts.takeWhile Tok.plain).length, x ≠ .O := by
  intro x hx
  rw [← List.map_take, List.mem_map] at hx
  obtain ⟨t, ht, rfl⟩ := hx
  rw [← (List.prefix_iff_eq_take.mp (List.takeWhile_prefix Tok.plain))] at ht
  exact (kind_plain t).mp (List.all_eq_true.mp List.all_takeWhile t ht)

theorem dropWhile_drop (ts : List Tok) : ts.dropWhile Tok.plain = ts.drop (ts.takeWhile Tok.plain).length := by
  induction ts with
  | nil => rfl
  | cons t ts ih =>
    rw [List.dropWhile_cons, List.takeWhile_cons]
    by_cases h : t.plain = true
    · rw [if_pos h, if_pos h, ih]; simp
    · rw [if_neg h, if_neg h]; simp

/-- Tokens as they are classified: a token `--` that is not the first comes after it, and so do no options. -/
def Layout (ts : List Tok) : Prop :=
  ∃ X Y, ts = X ++ Y ∧ (∀ t ∈ X, t ≠ .dash ∧ t ≠ .arg dashes) ∧ (∀ t ∈ Y, t.plain = true) ∧ (X = [] ∨ ∀ t, Y.head? = some t → t = .dash)

theorem layout_drop {ts : List Tok} (h : Layout ts) (n : Nat) : Layout (ts.drop n) := by
  obtain ⟨X, Y, rfl, h1, h2, h3⟩ := h
  by_cases hn : n ≤ X.length
  · rw [List.drop_append_of_le_length hn]
    refine ⟨X.drop n, Y, rfl, fun t ht => h1 t (List.mem_of_mem_drop ht), h2, ?_⟩
    rcases h3 with rfl | h3
    · left; simp
    · right; exact h3
  · refine ⟨[], Y.drop (n - X.length), ?_, by simp, fun t ht => h2 t (List.mem_of_mem_drop ht), .inl rfl⟩
    rw [List.drop_append, List.drop_of_length_le (by omega)]

theorem classify_layout {p : Parser} {ws : List Text} {ts : List Tok} (h : classify p ws = .ok ts) : Layout ts := by
  induction ws generalizing ts with
  | nil => cases h; exact ⟨[], [], rfl, by simp, by simp, .inl rfl⟩
  | cons w ws ih =>
    rw [classify] at h
    by_cases hw : w = ['-', '-']
    · rw [if_pos hw] at h
      cases h
      refine ⟨[], _, rfl, by simp, ?_, .inl rfl⟩
      intro t ht
      rcases List.mem_cons.mp ht with rfl | ht
      · simp [Tok.plain, Tok.kind]
      · obtain ⟨f, -, rfl⟩ := List.mem_map.mp ht
        simp [Tok.plain, Tok.kind]
    · rw [if_neg hw] at h
      cases hp : parseOptional p w with
      | error e => rw [hp] at h; cases h
      | ok t =>
        rw [hp] at h
        dsimp only at h
        cases hc : classify p ws with
        | error e => rw [hc] at h; cases h
        | ok us =>
          rw [hc] at h
          cases h
          obtain ⟨X, Y, h1, h2, h3, h4⟩ := ih hc
          obtain ⟨hd, hne⟩ := parseOptional_sound hp
          have hcl : t ≠ .dash ∧ t ≠ .arg dashes := by
            refine ⟨hne, ?_⟩
            rintro rfl
            exact hw (show w = ['-', '-'] from (show dashes = w from hd).symm)
          by_cases hX : X = []
          · subst hX
            rw [List.nil_append] at h1
            -- the first token of `Y` may be any; take those up to the `--`
            cases ws with
            | nil => cases hc; refine ⟨[t], [], rfl, by simpa using hcl, by simp, .inr (by simp)⟩
            | cons w' ws' =>
              rw [classify] at hc
              by_cases hw' : w' = ['-', '-']
              · rw [if_pos hw'] at hc
                cases hc
                refine ⟨[t], _, rfl, by simpa using hcl, ?_, .inr (by simp)⟩
                rw [← h1] at h3; exact h3
              · rw [if_neg hw'] at hc
                have all : ∀ (vs : List Text) (us : List Tok), classify p vs = .ok us → ∃ X Y, us = X ++ Y ∧
                    (∀ t ∈ X, t ≠ .dash ∧ t ≠ .arg dashes) ∧ (∀ t ∈ Y, t.plain = true) ∧ ∀ t, Y.head? = some t → t = .dash := by
                  intro vs
                  induction vs with
                  | nil => intro us hu; cases hu; exact ⟨[], [], rfl, by simp, by simp, by simp⟩
                  | cons v vs ihv =>
                    intro us hu
                    rw [classify] at hu
                    by_cases hv : v = ['-', '-']
                    · rw [if_pos hv] at hu
                      cases hu
                      refine ⟨[], _, rfl, by simp, ?_, by simp⟩
                      intro t ht
                      rcases List.mem_cons.mp ht with rfl | ht
                      · simp [Tok.plain, Tok.kind]
                      · obtain ⟨f, -, rfl⟩ := List.mem_map.mp ht
                        simp [Tok.plain, Tok.kind]
                    · rw [if_neg hv] at hu
                      cases hpv : parseOptional p v with
                      | error e => rw [hpv] at hu; cases hu
                      | ok tv =>
                        rw [hpv] at hu
                        dsimp only at hu
                        cases hcv : classify p vs with
                        | error e => rw [hcv] at hu; cases hu
                        | ok uv =>
                          rw [hcv] at hu
                          cases hu
                          obtain ⟨X, Y, rfl, x2, x3, x4⟩ := ihv uv hcv
                          obtain ⟨hd, hne⟩ := parseOptional_sound hpv
                          refine ⟨tv :: X, Y, rfl, ?_, x3, x4⟩
                          intro t ht
                          rcases List.mem_cons.mp ht with rfl | ht
                          · refine ⟨hne, ?_⟩
                            rintro rfl
                            exact hv (show v = ['-', '-'] from (show dashes = v from hd).symm)
                          · exact x2 t ht
                obtain ⟨X, Y, x1, x2, x3, x4⟩ := all (w' :: ws') us (by rw [classify, if_neg hw']; exact hc)
                refine ⟨t :: X, Y, by rw [x1]; rfl, ?_, x3, .inr x4⟩
                intro u hu
                rcases List.mem_cons.mp hu with rfl | hu
                · exact hcl
                · exact x2 u hu
          · refine ⟨t :: X, Y, by rw [h1]; rfl, ?_, h3, .inr (h4.resolve_left hX)⟩
            intro u hu
            rcases List.mem_cons.mp hu with rfl | hu
            · exact hcl
            · exact h2 u hu

/-- An option does not take `--` as a value. -/
theorem layout_values {p : Parser} {t : Tok} {rest : List Tok} (h : Layout (t :: rest)) (ht : t.plain = false) {k : Nat}
    (hk : ∀ x ∈ (rest.map Tok.kind).take k, x = .A) {ws : List Text} (hw : List.Forall₂ (Denotes p) ws rest) : dashes ∉ ws.take k := by
  obtain ⟨X, Y, h1, h2, h3, h4⟩ := h
  have hX : ∃ X', X = t :: X' ∧ rest = X' ++ Y := by
    cases X with
    | nil =>
      rw [List.nil_append] at h1
      have := h3 t (by rw [← h1]; exact List.mem_cons_self)
      rw [ht] at this; cases this
    | cons x X => rw [List.cons_append, List.cons.injEq] at h1; exact ⟨X, by rw [h1.1], h1.2⟩
  obtain ⟨X', rfl, rfl⟩ := hX
  have h4 := h4.resolve_left (by simp)
  have hno : ∀ u ∈ (X' ++ Y).take k, u.kind = .A ∧ u ≠ .arg dashes := by
    have hA : ∀ u ∈ (X' ++ Y).take k, u.kind = .A := fun u hu => hk _ (by rw [← List.map_take]; exact List.mem_map_of_mem hu)
    intro u hu
    refine ⟨hA u hu, ?_⟩
    by_cases hle : k ≤ X'.length
    · rw [List.take_append_of_le_length hle] at hu
      exact (h2 u (List.mem_cons_of_mem _ (List.mem_of_mem_take hu))).2
    · rw [List.take_append] at hu
      rcases List.mem_append.mp hu with hu | hu
      · exact (h2 u (List.mem_cons_of_mem _ (List.mem_of_mem_take hu))).2
      · exfalso
        cases Y with
        | nil => simp at hu
        | cons y Y =>
          have hy := h4 y rfl
          subst hy
          have := hA .dash (by
            rw [List.take_append]
            apply List.mem_append_right
            obtain ⟨j, hj⟩ : ∃ j, k - X'.length = j + 1 := ⟨k - X'.length - 1, by omega⟩
            rw [hj, List.take_succ_cons]
            exact List.mem_cons_self)
          simp [Tok.kind] at this
  intro hd
  have hf := forall₂_take hw k
  generalize ws.take k = us at hd hf
  generalize (X' ++ Y).take k = ts at hno hf
  induction hf with
  | nil => simp at hd
  | @cons w t us ts g1 g2 ih =>
    rcases List.mem_cons.mp hd with rfl | hd
    · obtain ⟨n1, n2⟩ := hno t List.mem_cons_self
      cases t with
      | arg s => exact n2 (by rw [show s = dashes from g1])
      | dash => simp [Tok.kind] at n1
      | opt a n e => simp [Tok.kind] at n1
      | unknown s => simp [Tok.kind] at n1
    · exact ih hd (fun u hu => hno u (List.mem_cons_of_mem _ hu))

/-- What the loop does with the strings. -/
theorem loop_sound {p : Parser} (hp : WF p) (fuel : Nat) {ws : List Text} {ts : List Tok} (hw : List.Forall₂ (Denotes p) ws ts)
    (hd : (ts.map Tok.kind).count .D ≤ 1) (hlay : Layout ts) {pos : List Arg} (hpos : ∀ a ∈ pos, a ∈ p) {st : St} {ex : List Text} {st' : St}
    {pos' : List Arg} {ex' : List Text} (h : loop p fuel ts pos st ex = .ok (st', pos', ex')) :
    ∃ parts : List (Part ⊕ Text), parts.flatMap wordsOf = ws ∧ parts.flatMap positionalOf ++ pos' = pos ∧
      ex' = ex ++ parts.flatMap extraOf ∧ takeAll (parts.flatMap callsOf) st = .ok st' ∧ ∀ q ∈ parts, SoundOf p q := by
  induction fuel generalizing ws ts pos st ex with
  | zero => cases h
  | succ fuel ih =>
    rw [loop] at h
    have lift : ∀ qs : List Part, (qs.map Sum.inl).flatMap wordsOf = qs.flatMap Part.words ∧
        (qs.map Sum.inl).flatMap positionalOf = qs.flatMap Part.positional ∧ (qs.map Sum.inl).flatMap extraOf = [] ∧
        (qs.map Sum.inl).flatMap callsOf = qs.flatMap Part.calls := by
      intro qs
      induction qs with
      | nil => simp
      | cons q qs ih' =>
        obtain ⟨i1, i2, i3, i4⟩ := ih'
        simp only [List.map_cons, List.flatMap_cons, i1, i2, i3, i4]
        exact ⟨rfl, rfl, rfl, rfl⟩
    have extra : ∀ l : List Text, (l.map (Sum.inr (α := Part))).flatMap wordsOf = l ∧
        (l.map (Sum.inr (α := Part))).flatMap positionalOf = [] ∧ (l.map (Sum.inr (α := Part))).flatMap extraOf = l ∧
        (l.map (Sum.inr (α := Part))).flatMap callsOf = [] := by
      intro l
      induction l with
      | nil => simp
      | cons q l ih' =>
        obtain ⟨i1, i2, i3, i4⟩ := ih'
        simp only [List.map_cons, List.flatMap_cons, i1, i2, i3, i4]
        exact ⟨rfl, rfl, rfl, rfl⟩
    by_cases hall : ts.all Tok.plain = true
    · rw [if_pos hall] at h
      cases hc : consumePositionals ts pos st with
      | error e => rw [hc] at h; cases h
      | ok r =>
        obtain ⟨s, ps, n⟩ := r
        rw [hc] at h
        cases h
        obtain ⟨c1, c2, parts, c3, c4, c5, c6⟩ := consume_sound hpos hw hd hc
        obtain ⟨l1, l2, l3, l4⟩ := lift parts
        have htx : (ts.drop n).map Tok.text = ws.drop n := by
          have := args_text (forall₂_drop hw n) (ts.drop n).length (by
            intro x hx
            have hx' := List.mem_of_mem_take hx
            rw [List.mem_map] at hx'
            obtain ⟨t, ht, rfl⟩ := hx'
            exact (kind_plain t).mp (List.all_eq_true.mp hall t (List.mem_of_mem_drop ht)))
          rw [List.take_length] at this
          rw [this, List.take_of_length_le]
          rw [(forall₂_drop hw n).length_eq]
        obtain ⟨e1, e2, e3, e4⟩ := extra (ws.drop n)
        refine ⟨parts.map .inl ++ (ws.drop n).map .inr, ?_, ?_, ?_, ?_, ?_⟩
        · rw [List.flatMap_append, l1, e1, c3, List.take_append_drop]
        · rw [List.flatMap_append, l2, e2, List.append_nil, c4]
        · rw [List.flatMap_append, l3, e3, htx, List.nil_append]
        · rw [List.flatMap_append, l4, e4, List.append_nil, c5]
        · intro q hq
          rcases List.mem_append.mp hq with hq | hq <;> obtain ⟨x, hx, rfl⟩ := List.mem_map.mp hq
          · exact c6 x hx
          · trivial
    · rw [if_neg hall] at h
      -- what the positionals take
      have hcons : ∃ s ps n, (if ts.takeWhile Tok.plain = [] then .ok (st, pos, 0) else consumePositionals ts pos st) =
          Except.ok (ε := Stop) (s, ps, n) ∧ n ≤ ts.length ∧ ∃ parts : List Part, parts.flatMap Part.words = ws.take n ∧
          parts.flatMap Part.positional ++ ps = pos ∧ takeAll (parts.flatMap Part.calls) st = .ok s ∧ ∀ q ∈ parts, q.Sound p := by
        by_cases hpre : ts.takeWhile Tok.plain = []
        · exact ⟨st, pos, 0, by rw [if_pos hpre], Nat.zero_le _, [], by simp, rfl, rfl, by simp⟩
        · rw [if_neg hpre] at h ⊢
          cases hc : consumePositionals ts pos st with
          | error e => rw [hc] at h; cases h
          | ok r =>
            obtain ⟨s, ps, n⟩ := r
            obtain ⟨c1, -, c3⟩ := consume_sound hpos hw hd hc
            exact ⟨s, ps, n, rfl, c1, c3⟩
      obtain ⟨s, ps, n, hc, c1, parts, c3, c4, c5, c6⟩ := hcons
      obtain ⟨l1, l2, l3, l4⟩ := lift parts
      have hps : ∀ a ∈ ps, a ∈ p := fun a ha => hpos a (by rw [← c4]; exact List.mem_append_right _ ha)
      rw [hc] at h
      dsimp only at h
      have drop_ok : ∀ m, ((ts.drop m).map Tok.kind).count .D ≤ 1 := fun m => by
        rw [List.map_drop]; exact (List.Sublist.count_le _ (List.drop_sublist m _)).trans hd
      by_cases hn : n > 0
      · rw [if_pos hn] at h
        obtain ⟨ps2, d1, d2, d3, d4, d5⟩ := ih (forall₂_drop hw n) (drop_ok n) (layout_drop hlay n) hps h
        refine ⟨parts.map .inl ++ ps2, ?_, ?_, ?_, ?_, ?_⟩
        · rw [List.flatMap_append, l1, d1, c3, List.take_append_drop]
        · rw [List.flatMap_append, l2, List.append_assoc, d2, c4]
        · rw [List.flatMap_append, l3, d3, List.nil_append]
        · rw [List.flatMap_append, l4, takeAll_append, c5]; exact d4
        · intro q hq
          rcases List.mem_append.mp hq with hq | hq
          · obtain ⟨x, hx, rfl⟩ := List.mem_map.mp hq
            exact c6 x hx
          · exact d5 q hq
      · rw [if_neg hn] at h
        obtain rfl : n = 0 := by omega
        have hparts0 : parts.flatMap Part.words = [] := by rw [c3]; simp
        generalize hm : (ts.takeWhile Tok.plain).length = m
        have hpretext : (ts.takeWhile Tok.plain).map Tok.text = ws.take m := by
          rw [← hm, ← args_text hw _ (take_while_kind ts), ← (List.prefix_iff_eq_take.mp (List.takeWhile_prefix Tok.plain))]
        rw [hpretext] at h
        obtain ⟨e1, e2, e3, e4⟩ := extra (ws.take m)
        have hrest := forall₂_drop hw m
        have hdr : ts.dropWhile Tok.plain = ts.drop m := by rw [← hm, dropWhile_drop]
        rw [hdr] at h
        cases hts : ts.drop m with
        | nil => rw [hts] at h; cases h
        | cons t rest =>
          rw [hts] at h hrest
          cases hwd : ws.drop m with
          | nil => rw [hwd] at hrest; cases hrest
          | cons w wr =>
            rw [hwd] at hrest
            cases hrest with
            | cons hden hwr =>
              have hrd : (rest.map Tok.kind).count .D ≤ 1 := by
                have := drop_ok m
                rw [hts, List.map_cons] at this
                exact (List.Sublist.count_le _ (List.sublist_cons_self _ _)).trans this
              have hlr : Layout rest := by
                have := layout_drop hlay (m + 1)
                rw [← List.drop_drop, hts] at this
                exact this
              have hlt : Layout (t :: rest) := by rw [← hts]; exact layout_drop hlay m
              have hws : ws = ws.take m ++ w :: wr := by rw [← hwd, List.take_append_drop]
              have unknown_case : ∀ (_ : loop p fuel rest ps s (ex ++ ws.take m ++ [w]) = .ok (st', pos', ex')),
                  ∃ parts : List (Part ⊕ Text), parts.flatMap wordsOf = ws ∧ parts.flatMap positionalOf ++ pos' = pos ∧
                    ex' = ex ++ parts.flatMap extraOf ∧ takeAll (parts.flatMap callsOf) st = .ok st' ∧ ∀ q ∈ parts, SoundOf p q := by
                intro h
                obtain ⟨ps2, d1, d2, d3, d4, d5⟩ := ih hwr hrd hlr hps h
                refine ⟨parts.map .inl ++ ((ws.take m).map .inr ++ (.inr w :: ps2)), ?_, ?_, ?_, ?_, ?_⟩
                · rw [List.flatMap_append, l1, hparts0, List.flatMap_append, e1, List.flatMap_cons, d1]; exact hws.symm
                · rw [List.flatMap_append, l2, List.flatMap_append, e2, List.flatMap_cons, List.append_assoc]
                  simp only [positionalOf, List.nil_append, d2, c4]
                · rw [List.flatMap_append, l3, List.flatMap_append, e3, List.flatMap_cons, d3]
                  simp [extraOf]
                · rw [List.flatMap_append, l4, List.flatMap_append, e4, List.flatMap_cons, takeAll_append, c5]
                  exact d4
                · intro q hq
                  simp only [List.mem_append, List.mem_cons, List.mem_map] at hq
                  rcases hq with ⟨x, hx, rfl⟩ | ⟨x, hx, rfl⟩ | rfl | hq
                  · exact c6 x hx
                  · trivial
                  · trivial
                  · exact d5 q hq
              cases t with
              | unknown u =>
                dsimp only [Tok.text] at h
                rw [show u = w from hden] at h
                exact unknown_case h
              | arg u =>
                dsimp only [Tok.text] at h
                rw [show u = w from hden] at h
                exact unknown_case h
              | dash =>
                dsimp only [Tok.text] at h
                rw [show w = ['-', '-'] from hden] at unknown_case
                exact unknown_case h
              | opt a name e =>
                dsimp only at h
                cases hr : readOption p a name e rest with
                | error x => rw [hr] at h; cases h
                | ok r =>
                  obtain ⟨calls, rest'⟩ := r
                  rw [hr] at h
                  dsimp only at h
                  cases hta : takeAll calls s with
                  | error x => rw [hta] at h; cases h
                  | ok s2 =>
                    rw [hta] at h
                    dsimp only at h
                    obtain ⟨k, k1, rfl, k3⟩ := readOption_sound hp hden hwr hr
                    have hrd' : ((rest.drop k).map Tok.kind).count .D ≤ 1 := by
                      rw [List.map_drop]; exact (List.Sublist.count_le _ (List.drop_sublist k _)).trans hrd
                    obtain ⟨ps2, d1, d2, d3, d4, d5⟩ := ih (forall₂_drop hwr k) hrd' (layout_drop hlr k) hps h
                    refine ⟨parts.map .inl ++ ((ws.take m).map .inr ++ (.inl (.options w (wr.take k) calls) :: ps2)), ?_, ?_, ?_, ?_, ?_⟩
                    · rw [List.flatMap_append, l1, hparts0, List.flatMap_append, e1, List.flatMap_cons, d1]
                      simp only [wordsOf, Part.words, List.nil_append, List.cons_append, List.take_append_drop]
                      exact hws.symm
                    · rw [List.flatMap_append, l2, List.flatMap_append, e2, List.flatMap_cons, List.append_assoc]
                      simp only [positionalOf, Part.positional, List.nil_append, d2, c4]
                    · rw [List.flatMap_append, l3, List.flatMap_append, e3, List.flatMap_cons, d3]
                      simp [extraOf]
                    · rw [List.flatMap_append, l4, List.flatMap_append, e4, List.flatMap_cons, takeAll_append, c5]
                      simp only [callsOf, Part.calls, List.nil_append]
                      rw [takeAll_append, hta]
                      exact d4
                    · intro q hq
                      simp only [List.mem_append, List.mem_cons, List.mem_map] at hq
                      rcases hq with ⟨x, hx, rfl⟩ | ⟨x, hx, rfl⟩ | rfl | hq
                      · exact c6 x hx
                      · trivial
                      · exact ⟨hden.1, k3, layout_values hlt (by simp [Tok.plain, Tok.kind]) k1.2 hwr⟩
                      · exact d5 q hq

end Verif.Argparse
