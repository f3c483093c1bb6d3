import Verif.Lemmas.ArgWhy

/-! Why `argparse` refuses whole command lines. -/
set_option linter.unusedSectionVars false
namespace Verif.Argparse
open Verif Verif.Spec.CommandLine Verif.Spec.CommandErrors

/-! ### Positional arguments take what they can -/

theorem matchGroups_snoc {l : List Arg} {k : List Kind} {ns : List Nat} {a : Arg} (h : matchGroups l k = some ns)
    (ha : seqLens (pattern a) (k.drop ns.sum) ≠ []) : matchGroups (l ++ [a]) k ≠ none := by
  induction l generalizing k ns with
  | nil =>
    rw [matchGroups, Option.some.injEq] at h
    subst h
    rw [List.nil_append, matchGroups, Ne, List.findSome?_eq_none_iff]
    intro hn
    cases hs : seqLens (pattern a) k with
    | nil => rw [List.sum_nil, List.drop_zero] at ha; exact ha hs
    | cons n r =>
      have := hn n (by rw [hs]; exact List.mem_cons_self)
      simp [matchGroups] at this
  | cons b l ih =>
    rw [matchGroups] at h
    obtain ⟨n, hn, h2⟩ := List.exists_of_findSome?_eq_some h
    rw [Option.map_eq_some_iff] at h2
    obtain ⟨ms, h3, rfl⟩ := h2
    rw [List.sum_cons, ← List.drop_drop] at ha
    rw [List.cons_append, matchGroups, Ne, List.findSome?_eq_none_iff]
    intro hno
    have := hno n hn
    rw [Option.map_eq_none_iff] at this
    exact ih h3 ha this

theorem matchGroups_length {l : List Arg} {k : List Kind} {ns : List Nat} (h : matchGroups l k = some ns) : ns.length = l.length :=
  (matchGroups_sound h).length

theorem matchSlices_max (l : List Arg) (k : List Kind) (i : Nat) (hi : i ≤ l.length) :
    matchGroups (l.take (matchSlices l k i).length) k = some (matchSlices l k i) ∧
      ((matchSlices l k i).length = i ∨ matchGroups (l.take ((matchSlices l k i).length + 1)) k = none) := by
  induction i with
  | zero => simp [matchSlices, matchGroups]
  | succ i ih =>
    rw [matchSlices]
    cases h : matchGroups (l.take (i + 1)) k with
    | some r =>
      dsimp only
      have hlen : r.length = i + 1 := by rw [matchGroups_length h, List.length_take]; omega
      rw [hlen]
      exact ⟨h, .inl rfl⟩
    | none =>
      dsimp only
      obtain ⟨h1, h2⟩ := ih (by omega)
      refine ⟨h1, .inr ?_⟩
      rcases h2 with h2 | h2
      · rw [h2]; exact h
      · exact h2

/-- The first positional argument that is left takes nothing of what is left. -/
theorem matchPartial_max {l : List Arg} {k : List Kind} {a : Arg} {more : List Arg}
    (h : l.drop (matchPartial l k).length = a :: more) : seqLens (pattern a) (k.drop (matchPartial l k).sum) = [] := by
  obtain ⟨h1, h2⟩ := matchSlices_max l k l.length le_rfl
  change matchGroups (l.take (matchPartial l k).length) k = some (matchPartial l k) at h1
  change (matchPartial l k).length = _ ∨ matchGroups (l.take ((matchPartial l k).length + 1)) k = none at h2
  by_contra hcon
  rcases h2 with h2 | h2
  · rw [h2, List.drop_length] at h; cases h
  · have htake : l.take ((matchPartial l k).length + 1) = l.take (matchPartial l k).length ++ [a] := by
      rw [List.take_add, h]; simp
    rw [htake] at h2
    exact matchGroups_snoc h1 hcon h2

/-- An argument that needs one string takes one, after `--`. -/
theorem takes_one {a : Arg} (hn : a.names = []) (hk : a.nargs = .one ∨ a.nargs = .plus) (j : Nat) (r : List Kind) :
    seqLens (pattern a) (List.replicate j .D ++ .A :: r) ≠ [] := by
  have hd : j ∈ Piece.lens .dashes (List.replicate j .D ++ .A :: r) := by
    rw [Piece.lens, mem_down, run]
    induction j with
    | zero => omega
    | succ j ih => rw [List.replicate_succ, List.cons_append, List.takeWhile_cons]; simpa using ih
  have hdrop : (List.replicate j Kind.D ++ .A :: r).drop j = .A :: r := by
    rw [List.drop_left' (by simp)]
  have zero : ∀ q : Piece, q = .dashes ∨ q = .any → ∀ k, 0 ∈ seqLens [q] k := by
    rintro q (rfl | rfl) k <;> rw [mem_seqLens] <;> exact ⟨0, by rw [Piece.lens, mem_down]; omega, 0, by simp [seqLens], rfl⟩
  have key : ∀ q : Piece, q = .dashes ∨ q = .any → seqLens [.dashes, .one, q] (List.replicate j .D ++ .A :: r) ≠ [] := by
    intro q hq
    refine List.ne_nil_of_mem (a := j + (1 + 0)) ?_
    rw [mem_seqLens]
    refine ⟨j, hd, 1 + 0, ?_, rfl⟩
    rw [hdrop, mem_seqLens]
    exact ⟨1, by simp [Piece.lens], 0, zero q hq _, rfl⟩
  unfold pattern
  rw [if_pos hn]
  rcases hk with hk | hk <;> rw [hk]
  · exact key _ (.inl rfl)
  · exact key _ (.inr rfl)

/-- What is left up to the next option is no argument. -/
theorem none_left {a : Arg} (hn : a.names = []) (hk : a.nargs = .one ∨ a.nargs = .plus) {k : List Kind} (h : seqLens (pattern a) k = [])
    {m : Nat} (hm : ∀ x ∈ k.take m, x ≠ .O) : ∀ x ∈ k.take m, x = .D := by
  have split : ∀ k : List Kind, ∃ j r, k = List.replicate j .D ++ r ∧ r.head? ≠ some .D := by
    intro k
    induction k with
    | nil => exact ⟨0, [], rfl, by simp⟩
    | cons x k ih =>
      cases x with
      | D =>
        obtain ⟨n, r, rfl, h⟩ := ih
        exact ⟨n + 1, r, by rw [List.replicate_succ, List.cons_append], h⟩
      | A => exact ⟨0, _, rfl, by simp⟩
      | O => exact ⟨0, _, rfl, by simp⟩
  obtain ⟨j, r, rfl, hr⟩ := split k
  by_cases hj : m ≤ j
  · intro x hx
    rw [List.take_append_of_le_length (by simpa using hj)] at hx
    exact (List.mem_replicate.mp (List.mem_of_mem_take hx)).2
  · rcases r with _ | ⟨c, r⟩
    · intro x hx
      rw [List.append_nil] at hx
      exact (List.mem_replicate.mp (List.mem_of_mem_take hx)).2
    · exfalso
      cases c with
      | D => exact hr rfl
      | A => exact takes_one hn hk j r h
      | O =>
        refine hm .O ?_ rfl
        obtain ⟨i, rfl⟩ : ∃ i, m = j + (i + 1) := ⟨m - j - 1, by omega⟩
        rw [List.take_append]
        simp

/-! ### What is left over -/

/-- The positional arguments need one string each. -/
def SinglesOf (l : List Arg) : Prop := ∀ a ∈ l, a.names = [] ∧ (a.nargs = .one ∨ a.nargs = .plus)

/-- Why a string is left over, when `rem` are the positional arguments that are left. -/
def LeftOver (p : Parser) (rem : List Arg) (x : Text) : Prop := Unknown p x ∨ x = dashes ∨ rem = []

/-- Of parts, where `rem` are the positional arguments of these parts and of what follows. -/
def LeftOk (p : Parser) : List Arg → List (Part ⊕ Text) → Prop
  | _, [] => True
  | rem, .inl q :: l => ∃ rem', rem = q.positional ++ rem' ∧ LeftOk p rem' l
  | rem, .inr x :: l => LeftOver p rem x ∧ LeftOk p rem l

theorem leftOk_inl {p : Parser} (qs : List Part) {rem : List Arg} {B : List (Part ⊕ Text)} (h : LeftOk p rem B) :
    LeftOk p (qs.flatMap Part.positional ++ rem) (qs.map Sum.inl ++ B) := by
  induction qs with
  | nil => exact h
  | cons q qs ih => exact ⟨qs.flatMap Part.positional ++ rem, by rw [List.flatMap_cons, List.append_assoc], ih⟩

theorem leftOk_inr {p : Parser} {l : List Text} {rem : List Arg} {B : List (Part ⊕ Text)} (hl : ∀ x ∈ l, LeftOver p rem x)
    (h : LeftOk p rem B) : LeftOk p rem (l.map Sum.inr ++ B) := by
  induction l with
  | nil => exact h
  | cons x l ih => exact ⟨hl x List.mem_cons_self, ih fun y hy => hl y (List.mem_cons_of_mem _ hy)⟩

theorem leftOk_split {p : Parser} {rem : List Arg} {parts : List (Part ⊕ Text)} (h : LeftOk p rem parts) {P Q : List (Part ⊕ Text)} {x : Text}
    (hs : parts = P ++ .inr x :: Q) : Unknown p x ∨ x = dashes ∨ P.flatMap positionalOf = rem := by
  induction P generalizing parts rem with
  | nil =>
    rw [hs, List.nil_append] at h
    obtain ⟨h1 | h1 | h1, -⟩ := h
    · exact .inl h1
    · exact .inr (.inl h1)
    · exact .inr (.inr h1.symm)
  | cons y P ih =>
    subst hs
    cases y with
    | inl q =>
      obtain ⟨rem', rfl, h⟩ := h
      rcases ih h rfl with h1 | h1 | h1
      · exact .inl h1
      · exact .inr (.inl h1)
      · exact .inr (.inr (by rw [List.flatMap_cons, h1]; rfl))
    | inr y =>
      rcases ih h.2 rfl with h1 | h1 | h1
      · exact .inl h1
      · exact .inr (.inl h1)
      · exact .inr (.inr (by rw [List.flatMap_cons, h1]; rfl))

theorem consume_left {pos : List Arg} (hpos : SinglesOf pos) {ts : List Tok} {st st' : St} {ps : List Arg} {n : Nat}
    (h : consumePositionals ts pos st = .ok (st', ps, n)) {m : Nat} (hm : ∀ x ∈ ((ts.map Tok.kind).drop n).take m, x ≠ .O) :
    ps = [] ∨ ∀ x ∈ ((ts.map Tok.kind).drop n).take m, x = .D := by
  unfold consumePositionals at h
  dsimp only at h
  cases ht : takeAll (pos.zip (slices (matchPartial pos (ts.map Tok.kind)) ts)) st with
  | error e => rw [ht] at h; cases h
  | ok s =>
    rw [ht] at h
    cases h
    cases hd : pos.drop (matchPartial pos (ts.map Tok.kind)).length with
    | nil => exact .inl rfl
    | cons a more =>
      right
      have ha := hpos a (List.mem_of_mem_drop (by rw [hd]; exact List.mem_cons_self))
      exact none_left ha.1 ha.2 (matchPartial_max hd) hm

/-- Strings whose letter is `-`. -/
theorem dash_words {p : Parser} {ws : List Text} {ts : List Tok} (h : List.Forall₂ (Denotes p) ws ts) {m : Nat}
    (hm : ∀ x ∈ (ts.map Tok.kind).take m, x = .D) : ∀ w ∈ ws.take m, w = dashes := by
  induction h generalizing m with
  | nil => simp
  | @cons w t ws ts h1 h2 ih =>
    cases m with
    | zero => simp
    | succ m =>
      rw [List.map_cons, List.take_succ_cons, List.forall_mem_cons] at hm
      rw [List.take_succ_cons, List.forall_mem_cons]
      refine ⟨?_, ih hm.2⟩
      cases t with
      | dash => exact h1
      | arg s => simp [Tok.kind] at hm
      | opt a n e => simp [Tok.kind] at hm
      | unknown s => simp [Tok.kind] at hm

/-- What the loop does with the strings, and why some are left over. -/
theorem loop_left {p : Parser} (hp : WF p) (fuel : Nat) {ws : List Text} {ts : List Tok} (hw : List.Forall₂ (Denotes p) ws ts)
    (hv : List.Forall₂ (Seen p) ws ts) (hd : (ts.map Tok.kind).count .D ≤ 1) (hlay : Layout ts) {pos : List Arg} (hpos : ∀ a ∈ pos, a ∈ p) {st : St} {ex : List Text} {st' : St}
    {pos' : List Arg} {ex' : List Text} (h : loop p fuel ts pos st ex = .ok (st', pos', ex')) :
    ∃ parts : List (Part ⊕ Text), parts.flatMap wordsOf = ws ∧ parts.flatMap positionalOf ++ pos' = pos ∧
      ex' = ex ++ parts.flatMap extraOf ∧ takeAll (parts.flatMap callsOf) st = .ok st' ∧ (∀ q ∈ parts, SoundOf p q) ∧ (SinglesOf pos → LeftOk p pos parts) := by
  induction fuel generalizing ws ts pos st ex with
  | zero => cases h
  | succ fuel ih =>
    rw [loop] at h
    have lift : ∀ qs : List Part, (qs.map Sum.inl).flatMap wordsOf = qs.flatMap Part.words ∧
        (qs.map Sum.inl).flatMap positionalOf = qs.flatMap Part.positional ∧ (qs.map Sum.inl).flatMap extraOf = [] ∧
        (qs.map Sum.inl).flatMap callsOf = qs.flatMap Part.calls := by
      intro qs
      induction qs with
      | nil => simp
      | cons q qs ih' =>
        obtain ⟨i1, i2, i3, i4⟩ := ih'
        simp only [List.map_cons, List.flatMap_cons, i1, i2, i3, i4]
        exact ⟨rfl, rfl, rfl, rfl⟩
    have extra : ∀ l : List Text, (l.map (Sum.inr (α := Part))).flatMap wordsOf = l ∧
        (l.map (Sum.inr (α := Part))).flatMap positionalOf = [] ∧ (l.map (Sum.inr (α := Part))).flatMap extraOf = l ∧
        (l.map (Sum.inr (α := Part))).flatMap callsOf = [] := by
      intro l
      induction l with
      | nil => simp
      | cons q l ih' =>
        obtain ⟨i1, i2, i3, i4⟩ := ih'
        simp only [List.map_cons, List.flatMap_cons, i1, i2, i3, i4]
        exact ⟨rfl, rfl, rfl, rfl⟩
    by_cases hall : ts.all Tok.plain = true
    · rw [if_pos hall] at h
      cases hc : consumePositionals ts pos st with
      | error e => rw [hc] at h; cases h
      | ok r =>
        obtain ⟨s, ps, n⟩ := r
        rw [hc] at h
        cases h
        obtain ⟨c1, c2, parts, c3, c4, c5, c6⟩ := consume_sound hpos hw hd hc
        obtain ⟨l1, l2, l3, l4⟩ := lift parts
        have htx : (ts.drop n).map Tok.text = ws.drop n := by
          have := args_text (forall₂_drop hw n) (ts.drop n).length (by
            intro x hx
            have hx' := List.mem_of_mem_take hx
            rw [List.mem_map] at hx'
            obtain ⟨t, ht, rfl⟩ := hx'
            exact (kind_plain t).mp (List.all_eq_true.mp hall t (List.mem_of_mem_drop ht)))
          rw [List.take_length] at this
          rw [this, List.take_of_length_le]
          rw [(forall₂_drop hw n).length_eq]
        obtain ⟨e1, e2, e3, e4⟩ := extra (ws.drop n)
        refine ⟨parts.map .inl ++ (ws.drop n).map .inr, ?_, ?_, ?_, ?_, ?_, ?_⟩
        · rw [List.flatMap_append, l1, e1, c3, List.take_append_drop]
        · rw [List.flatMap_append, l2, e2, List.append_nil, c4]
        · rw [List.flatMap_append, l3, e3, htx, List.nil_append]
        · rw [List.flatMap_append, l4, e4, List.append_nil, c5]
        · intro q hq
          rcases List.mem_append.mp hq with hq | hq <;> obtain ⟨x, hx, rfl⟩ := List.mem_map.mp hq
          · exact c6 x hx
          · trivial
        · intro hsg
          rw [← c4, ← List.append_nil ((ws.drop n).map _)]
          refine leftOk_inl parts (leftOk_inr (fun x hx => ?_) trivial)
          have hno : ∀ y ∈ ((ts.map Tok.kind).drop n).take (ts.drop n).length, y ≠ .O := by
            intro y hy
            have hy' := List.mem_of_mem_drop (List.mem_of_mem_take hy)
            rw [List.mem_map] at hy'
            obtain ⟨t, ht, rfl⟩ := hy'
            exact (kind_plain t).mp (List.all_eq_true.mp hall t ht)
          rcases consume_left hsg hc hno with h0 | h0
          · exact .inr (.inr h0)
          · right; left
            rw [← List.map_drop] at h0
            have := dash_words (forall₂_drop hw n) h0
            rw [List.take_of_length_le (by rw [(forall₂_drop hw n).length_eq])] at this
            exact this x hx
    · rw [if_neg hall] at h
      -- what the positionals take
      have hcons : ∃ s ps n, (if ts.takeWhile Tok.plain = [] then .ok (st, pos, 0) else consumePositionals ts pos st) =
          Except.ok (ε := Stop) (s, ps, n) ∧ n ≤ ts.length ∧ ∃ parts : List Part, parts.flatMap Part.words = ws.take n ∧
          parts.flatMap Part.positional ++ ps = pos ∧ takeAll (parts.flatMap Part.calls) st = .ok s ∧ (∀ q ∈ parts, q.Sound p) ∧
          (SinglesOf pos → n = 0 → ps = [] ∨ ∀ x ∈ (ts.map Tok.kind).take (ts.takeWhile Tok.plain).length, x = .D) := by
        by_cases hpre : ts.takeWhile Tok.plain = []
        · exact ⟨st, pos, 0, by rw [if_pos hpre], Nat.zero_le _, [], by simp, rfl, rfl, by simp, fun _ _ => .inr (by rw [hpre]; simp)⟩
        · rw [if_neg hpre] at h ⊢
          cases hc : consumePositionals ts pos st with
          | error e => rw [hc] at h; cases h
          | ok r =>
            obtain ⟨s, ps, n⟩ := r
            obtain ⟨c1, -, parts, c3, c4, c5, c6⟩ := consume_sound hpos hw hd hc
            refine ⟨s, ps, n, rfl, c1, parts, c3, c4, c5, c6, fun hsg hn => ?_⟩
            subst hn
            have := consume_left hsg hc (m := (ts.takeWhile Tok.plain).length) (by rw [List.drop_zero]; exact take_while_kind ts)
            rwa [List.drop_zero] at this
      obtain ⟨s, ps, n, hc, c1, parts, c3, c4, c5, c6, c7⟩ := hcons
      have hsub : SinglesOf pos → SinglesOf ps := fun h a ha => h a (by rw [← c4]; exact List.mem_append_right _ ha)
      obtain ⟨l1, l2, l3, l4⟩ := lift parts
      have hps : ∀ a ∈ ps, a ∈ p := fun a ha => hpos a (by rw [← c4]; exact List.mem_append_right _ ha)
      rw [hc] at h
      dsimp only at h
      have drop_ok : ∀ m, ((ts.drop m).map Tok.kind).count .D ≤ 1 := fun m => by
        rw [List.map_drop]; exact (List.Sublist.count_le _ (List.drop_sublist m _)).trans hd
      by_cases hn : n > 0
      · rw [if_pos hn] at h
        obtain ⟨ps2, d1, d2, d3, d4, d5, d6⟩ := ih (forall₂_drop hw n) (forall₂_drop hv n) (drop_ok n) (layout_drop hlay n) hps h
        refine ⟨parts.map .inl ++ ps2, ?_, ?_, ?_, ?_, ?_, fun hsg => by rw [← c4]; exact leftOk_inl parts (d6 (hsub hsg))⟩
        · rw [List.flatMap_append, l1, d1, c3, List.take_append_drop]
        · rw [List.flatMap_append, l2, List.append_assoc, d2, c4]
        · rw [List.flatMap_append, l3, d3, List.nil_append]
        · rw [List.flatMap_append, l4, takeAll_append, c5]; exact d4
        · intro q hq
          rcases List.mem_append.mp hq with hq | hq
          · obtain ⟨x, hx, rfl⟩ := List.mem_map.mp hq
            exact c6 x hx
          · exact d5 q hq
      · rw [if_neg hn] at h
        obtain rfl : n = 0 := by omega
        have hparts0 : parts.flatMap Part.words = [] := by rw [c3]; simp
        generalize hm : (ts.takeWhile Tok.plain).length = m
        have hpretext : (ts.takeWhile Tok.plain).map Tok.text = ws.take m := by
          rw [← hm, ← args_text hw _ (take_while_kind ts), ← (List.prefix_iff_eq_take.mp (List.takeWhile_prefix Tok.plain))]
        rw [hpretext] at h
        obtain ⟨e1, e2, e3, e4⟩ := extra (ws.take m)
        have hrest := forall₂_drop hw m
        have hvrest := forall₂_drop hv m
        have hnp : ∀ t r, ts.drop m = t :: r → t.plain = false := fun t r htr =>
          drop_not_plain ((show ts.dropWhile Tok.plain = ts.drop m by rw [← hm, dropWhile_drop]).trans htr)
        have hleft : SinglesOf pos → ∀ x ∈ ws.take m, LeftOver p ps x := by
          intro hsg x hx
          rcases c7 hsg rfl with h0 | h0
          · exact .inr (.inr h0)
          · rw [hm] at h0; exact .inr (.inl (dash_words hw h0 x hx))
        have hdr : ts.dropWhile Tok.plain = ts.drop m := by rw [← hm, dropWhile_drop]
        rw [hdr] at h
        cases hts : ts.drop m with
        | nil => rw [hts] at h; cases h
        | cons t rest =>
          rw [hts] at h hrest hvrest
          have hnp := hnp t rest hts
          cases hwd : ws.drop m with
          | nil => rw [hwd] at hrest; cases hrest
          | cons w wr =>
            rw [hwd] at hrest hvrest
            cases hvrest with
            | cons hseen hvr =>
            cases hrest with
            | cons hden hwr =>
              have hrd : (rest.map Tok.kind).count .D ≤ 1 := by
                have := drop_ok m
                rw [hts, List.map_cons] at this
                exact (List.Sublist.count_le _ (List.sublist_cons_self _ _)).trans this
              have hlr : Layout rest := by
                have := layout_drop hlay (m + 1)
                rw [← List.drop_drop, hts] at this
                exact this
              have hlt : Layout (t :: rest) := by rw [← hts]; exact layout_drop hlay m
              have hws : ws = ws.take m ++ w :: wr := by rw [← hwd, List.take_append_drop]
              have unknown_case : ∀ (_ : Unknown p w) (_ : loop p fuel rest ps s (ex ++ ws.take m ++ [w]) = .ok (st', pos', ex')),
                  ∃ parts : List (Part ⊕ Text), parts.flatMap wordsOf = ws ∧ parts.flatMap positionalOf ++ pos' = pos ∧
                    ex' = ex ++ parts.flatMap extraOf ∧ takeAll (parts.flatMap callsOf) st = .ok st' ∧ (∀ q ∈ parts, SoundOf p q) ∧ (SinglesOf pos → LeftOk p pos parts) := by
                intro hunk h
                obtain ⟨ps2, d1, d2, d3, d4, d5, d6⟩ := ih hwr hvr hrd hlr hps h
                refine ⟨parts.map .inl ++ ((ws.take m).map .inr ++ (.inr w :: ps2)), ?_, ?_, ?_, ?_, ?_,
                  fun hsg => by rw [← c4]; exact leftOk_inl parts (leftOk_inr (hleft hsg) ⟨.inl hunk, d6 (hsub hsg)⟩)⟩
                · rw [List.flatMap_append, l1, hparts0, List.flatMap_append, e1, List.flatMap_cons, d1]; exact hws.symm
                · rw [List.flatMap_append, l2, List.flatMap_append, e2, List.flatMap_cons, List.append_assoc]
                  simp only [positionalOf, List.nil_append, d2, c4]
                · rw [List.flatMap_append, l3, List.flatMap_append, e3, List.flatMap_cons, d3]
                  simp [extraOf]
                · rw [List.flatMap_append, l4, List.flatMap_append, e4, List.flatMap_cons, takeAll_append, c5]
                  exact d4
                · intro q hq
                  simp only [List.mem_append, List.mem_cons, List.mem_map] at hq
                  rcases hq with ⟨x, hx, rfl⟩ | ⟨x, hx, rfl⟩ | rfl | hq
                  · exact c6 x hx
                  · trivial
                  · trivial
                  · exact d5 q hq
              cases t with
              | unknown u =>
                dsimp only [Tok.text] at h
                rw [show u = w from hden] at h
                exact unknown_case (hseen.2.1 _ rfl) h
              | arg u => simp [Tok.plain, Tok.kind] at hnp
              | dash => simp [Tok.plain, Tok.kind] at hnp
              | opt a name e =>
                dsimp only at h
                cases hr : readOption p a name e rest with
                | error x => rw [hr] at h; cases h
                | ok r =>
                  obtain ⟨calls, rest'⟩ := r
                  rw [hr] at h
                  dsimp only at h
                  cases hta : takeAll calls s with
                  | error x => rw [hta] at h; cases h
                  | ok s2 =>
                    rw [hta] at h
                    dsimp only at h
                    obtain ⟨k, k1, rfl, k3⟩ := readOption_sound hp hden hwr hr
                    have hrd' : ((rest.drop k).map Tok.kind).count .D ≤ 1 := by
                      rw [List.map_drop]; exact (List.Sublist.count_le _ (List.drop_sublist k _)).trans hrd
                    obtain ⟨ps2, d1, d2, d3, d4, d5, d6⟩ := ih (forall₂_drop hwr k) (forall₂_drop hvr k) hrd' (layout_drop hlr k) hps h
                    refine ⟨parts.map .inl ++ ((ws.take m).map .inr ++ (.inl (.options w (wr.take k) calls) :: ps2)), ?_, ?_, ?_, ?_, ?_,
                      fun hsg => by rw [← c4]; exact leftOk_inl parts (leftOk_inr (hleft hsg) ⟨ps, rfl, d6 (hsub hsg)⟩)⟩
                    · rw [List.flatMap_append, l1, hparts0, List.flatMap_append, e1, List.flatMap_cons, d1]
                      simp only [wordsOf, Part.words, List.nil_append, List.cons_append, List.take_append_drop]
                      exact hws.symm
                    · rw [List.flatMap_append, l2, List.flatMap_append, e2, List.flatMap_cons, List.append_assoc]
                      simp only [positionalOf, Part.positional, List.nil_append, d2, c4]
                    · rw [List.flatMap_append, l3, List.flatMap_append, e3, List.flatMap_cons, d3]
                      simp [extraOf]
                    · rw [List.flatMap_append, l4, List.flatMap_append, e4, List.flatMap_cons, takeAll_append, c5]
                      simp only [callsOf, Part.calls, List.nil_append]
                      rw [takeAll_append, hta]
                      exact d4
                    · intro q hq
                      simp only [List.mem_append, List.mem_cons, List.mem_map] at hq
                      rcases hq with ⟨x, hx, rfl⟩ | ⟨x, hx, rfl⟩ | rfl | hq
                      · exact c6 x hx
                      · trivial
                      · exact ⟨hden.1, k3, layout_values hlt (by simp [Tok.plain, Tok.kind]) k1.2 hwr⟩
                      · exact d5 q hq

/-! ### Errors -/

theorem grouped_infix {p : Parser} {l : List Arg} {ws : List Text} {ts : List Tok} {ns : List Nat} (h : Grouped l (ts.map Tok.kind) ns)
    (hw : List.Forall₂ (Denotes p) ws ts) : ∀ c ∈ l.zip (slices ns ts), c.2 <:+: ws := by
  generalize hk : ts.map Tok.kind = k at h
  induction h generalizing ws ts with
  | nil => simp
  | cons a l k n ns h1 h2 ih =>
    subst hk
    intro c hc
    rw [slices, List.zip_cons_cons, args_text hw n (seqLens_spec h1).2] at hc
    rcases List.mem_cons.mp hc with rfl | hc
    · exact (List.take_prefix n ws).isInfix
    · exact (ih (forall₂_drop hw n) (by rw [List.map_drop]) c hc).trans (List.drop_suffix n ws).isInfix

/-- What the positional arguments are given. -/
theorem consume_gives {p : Parser} {args : List Text} {pos : List Arg} (hpos : ∀ a ∈ pos, a ∈ p) (hnn : ∀ a ∈ pos, a.names = [])
    {ws : List Text} {ts : List Tok} (hw : List.Forall₂ (Denotes p) ws ts) (hd : (ts.map Tok.kind).count .D ≤ 1) (hsuf : ws <:+ args) :
    ∀ c ∈ pos.zip (slices (matchPartial pos (ts.map Tok.kind)) ts), Gives p args c.1 c.2 := by
  intro c hc
  have hcp := hpos c.1 (List.of_mem_zip hc).1
  obtain ⟨i, hi, hg⟩ := matchPartial_sound pos (ts.map Tok.kind)
  generalize matchPartial pos (ts.map Tok.kind) = ns at hc hg
  have hlen : ns.length = i := by rw [hg.length, List.length_take]; omega
  rw [zip_take pos, slices_length, hlen] at hc
  exact ⟨hcp, .inl ⟨hnn c.1 (List.mem_of_mem_take (List.of_mem_zip hc).1), (grouped_infix hg hw c hc).trans hsuf.isInfix⟩⟩

theorem loop_why {p : Parser} (hp : WF p) {args : List Text} (fuel : Nat) {ws : List Text} {ts : List Tok} (hw : List.Forall₂ (Denotes p) ws ts)
    (hv : List.Forall₂ (Seen p) ws ts) (hsuf : ws <:+ args)
    (hd : (ts.map Tok.kind).count .D ≤ 1) (hf : ts.length < fuel) {pos : List Arg} (hpos : ∀ a ∈ pos, a ∈ p) (hnn : ∀ a ∈ pos, a.names = [])
    {done : List (Arg × List Text)} {st : St} (ho : Outcome p done st.ns) {ex : List Text} {x : Stop}
    (h : loop p fuel ts pos st ex = .error x) : Why p args x := by
  induction fuel generalizing ws ts pos st ex done with
  | zero => omega
  | succ fuel ih =>
    rw [loop] at h
    have consume_why : ∀ y, consumePositionals ts pos st = .error y → Why p args y := by
      intro y hy
      unfold consumePositionals at hy
      dsimp only at hy
      cases ht : takeAll (pos.zip (slices (matchPartial pos (ts.map Tok.kind)) ts)) st with
      | ok s => rw [ht] at hy; cases hy
      | error e =>
        rw [ht] at hy
        cases hy
        exact takeAll_why hp ho (consume_gives hpos hnn hw hd hsuf) ht
    by_cases hall : ts.all Tok.plain = true
    · rw [if_pos hall] at h
      cases hc : consumePositionals ts pos st with
      | error e => rw [hc] at h; cases h; exact consume_why _ hc
      | ok r => rw [hc] at h; cases h
    · rw [if_neg hall] at h
      have hcons : (∃ y, Why p args y ∧ (if ts.takeWhile Tok.plain = [] then .ok (st, pos, 0) else consumePositionals ts pos st) =
            Except.error y) ∨
          ∃ s ps n done', (if ts.takeWhile Tok.plain = [] then .ok (st, pos, 0) else consumePositionals ts pos st) =
          Except.ok (ε := Stop) (s, ps, n) ∧ n ≤ ts.length ∧ (∀ a ∈ ps, a ∈ p ∧ a.names = []) ∧ Outcome p done' s.ns := by
        by_cases hpre : ts.takeWhile Tok.plain = []
        · exact .inr ⟨st, pos, 0, done, by rw [if_pos hpre], by simp, fun a ha => ⟨hpos a ha, hnn a ha⟩, ho⟩
        · rw [if_neg hpre]
          cases hc : consumePositionals ts pos st with
          | error e => exact .inl ⟨e, consume_why _ hc, rfl⟩
          | ok r =>
            obtain ⟨s, ps, n⟩ := r
            obtain ⟨c1, -, parts, -, c4, c5, c6⟩ := consume_sound hpos hw hd hc
            refine .inr ⟨s, ps, n, _, rfl, c1, fun a ha => (fun hm => ⟨hpos a hm, hnn a hm⟩) (show a ∈ pos by rw [← c4]; exact List.mem_append_right _ ha),
              (outcome_all hp ho ?_ c5).1⟩
            intro c hc
            obtain ⟨q, hq, hcq⟩ := List.mem_flatMap.mp hc
            exact sound_mem (c6 q hq) c hcq
      rcases hcons with ⟨y, hy, hc⟩ | ⟨s, ps, n, done', hc, c2, hps, ho'⟩
      · rw [hc] at h; cases h; exact hy
      · rw [hc] at h
        dsimp only at h
        have drop_ok : ∀ m, ((ts.drop m).map Tok.kind).count .D ≤ 1 := fun m => by
          rw [List.map_drop]; exact (List.Sublist.count_le _ (List.drop_sublist m _)).trans hd
        by_cases hn : n > 0
        · rw [if_pos hn] at h
          exact ih (forall₂_drop hw n) (forall₂_drop hv n) ((List.drop_suffix n ws).trans hsuf) (drop_ok n) (by rw [List.length_drop]; omega)
            (fun a ha => (hps a ha).1) (fun a ha => (hps a ha).2) ho' h
        · rw [if_neg hn] at h
          generalize hm : (ts.takeWhile Tok.plain).length = m
          have hdr : ts.dropWhile Tok.plain = ts.drop m := by rw [← hm, dropWhile_drop]
          have hnp : ∀ t r, ts.drop m = t :: r → t.plain = false := fun t r htr => drop_not_plain (hdr.trans htr)
          rw [hdr] at h
          have hrest := forall₂_drop hw m
          have hvrest := forall₂_drop hv m
          have hrd := drop_ok m
          cases hts : ts.drop m with
          | nil =>
            exfalso
            apply hall
            rw [List.all_eq_true]
            intro t ht
            have := List.takeWhile_append_dropWhile (p := Tok.plain) (l := ts)
            rw [hdr, hts, List.append_nil] at this
            rw [← this] at ht
            exact List.all_eq_true.mp List.all_takeWhile t ht
          | cons t rest =>
            have hlen : rest.length < fuel := by
              have := congrArg List.length hts
              rw [List.length_drop, List.length_cons] at this
              omega
            have hnp := hnp t rest hts
            rw [hts] at h hrest hvrest hrd
            cases hwd : ws.drop m with
            | nil => rw [hwd] at hrest; cases hrest
            | cons w wr =>
              rw [hwd] at hrest hvrest
              cases hvrest with
              | cons hseen hvr =>
              have hs0 : w :: wr <:+ args := by rw [← hwd]; exact (List.drop_suffix m ws).trans hsuf
              have hs1 : wr <:+ args := (List.suffix_cons w wr).trans hs0
              cases hrest with
              | cons hden hwr =>
                have hrd' : (rest.map Tok.kind).count .D ≤ 1 := by
                  rw [List.map_cons] at hrd
                  exact (List.Sublist.count_le _ (List.sublist_cons_self _ _)).trans hrd
                cases t with
                | unknown u => exact ih hwr hvr hs1 hrd' hlen (fun a ha => (hps a ha).1) (fun a ha => (hps a ha).2) ho' h
                | arg u => exact ih hwr hvr hs1 hrd' hlen (fun a ha => (hps a ha).1) (fun a ha => (hps a ha).2) ho' h
                | dash => exact ih hwr hvr hs1 hrd' hlen (fun a ha => (hps a ha).1) (fun a ha => (hps a ha).2) ho' h
                | opt a name e =>
                  dsimp only at h
                  cases hr : readOption p a name e rest with
                  | error y => rw [hr] at h; cases h; exact Exists.elim hs0 fun pre hpre => readOption_why hp hpre.symm hden hseen hvr hr
                  | ok r =>
                    obtain ⟨calls, rest'⟩ := r
                    rw [hr] at h
                    dsimp only at h
                    obtain ⟨k, k1, rfl, k3⟩ := readOption_sound hp hden hwr hr
                    cases hta : takeAll calls s with
                    | error y =>
                      rw [hta] at h; cases h
                      refine takeAll_why hp ho' (fun c hc => ⟨reads_mem k3 c hc, .inr ?_⟩) hta
                      obtain ⟨pre, hpre⟩ := hs0
                      exact ⟨pre, w, wr.take k, wr.drop k, calls, by rw [← hpre]; simp, k3, hc⟩
                    | ok s2 =>
                      rw [hta] at h
                      dsimp only at h
                      have hrd2 : ((rest.drop k).map Tok.kind).count .D ≤ 1 := by
                        rw [List.map_drop]; exact (List.Sublist.count_le _ (List.drop_sublist k _)).trans hrd'
                      exact ih (forall₂_drop hwr k) (forall₂_drop hvr k) ((List.drop_suffix k wr).trans hs1) hrd2 (by rw [List.length_drop]; omega)
                        (fun a ha => (hps a ha).1) (fun a ha => (hps a ha).2)
                        (outcome_all hp ho' (reads_mem k3) hta).1 h

/-! ### Whole command lines -/

theorem falls {p : Parser} (hp : WF p) {args : List Text} {ts : List Tok} (hc : classify p args = .ok ts) {st st' : St} {pos : List Arg}
    {ex : List Text} (h : loop p (ts.length + 1) ts (positionals p) st [] = .ok (st', pos, ex)) :
    Falls p args pos ex ∧ (pos = [] → ∀ a ∈ positionals p, a ∈ st'.seen) := by
  obtain ⟨hw, hd⟩ := classify_sound hc
  obtain ⟨parts, q1, q2, q3, q4, q5, q6⟩ := loop_left hp _ hw (classify_seen hp hc) hd (classify_layout hc)
    (fun a ha => (List.mem_filter.mp ha).1) h
  rw [List.nil_append] at q3
  have e1 : words = wordsOf := by funext q; cases q <;> rfl
  have e2 : over = extraOf := by funext q; cases q <;> rfl
  have e3 : Spec.CommandErrors.positional = positionalOf := by funext q; cases q <;> rfl
  refine ⟨⟨parts, by rw [e1]; exact q1, by rw [e2]; exact q3.symm, by rw [e3]; exact q2, fun q hq => q5 _ hq, ?_⟩, ?_⟩
  · intro hsg P x Q hs
    rw [e3]
    refine leftOk_split (q6 fun a ha => ?_) hs
    have := List.mem_filter.mp ha
    exact ⟨by simpa using this.2, hsg a this.1 (by simpa using this.2)⟩
  · rintro rfl a ha
    rw [List.append_nil] at q2
    rw [show positionals p = _ from q2.symm] at ha
    refine takeAll_seen q4 a (.inr ?_)
    obtain ⟨q, hq, haq⟩ := List.mem_flatMap.mp ha
    cases q with
    | inr w => simp [positionalOf] at haq
    | inl q =>
      cases q with
      | options w vs cs => simp [positionalOf, Part.positional] at haq
      | files b l =>
        simp only [positionalOf, Part.positional, List.mem_singleton] at haq
        subst haq
        exact ⟨(a, l), List.mem_flatMap.mpr ⟨_, hq, by simp [callsOf, Part.calls]⟩, rfl⟩

/-- Why a command line is refused. -/
theorem parse_why {p : Parser} (hp : WF p) {args : List Text} {x : Stop} (h : parseArgs p args = .error x) : Why p args x := by
  obtain ⟨ns₀, hns⟩ := defaults_ok hp.converts []
  have ho := outcome_start hp hns
  unfold parseArgs parseKnownArgs at h
  rw [hns] at h
  dsimp only at h
  cases hc : classify p args with
  | error e =>
    rw [hc] at h
    cases h
    obtain ⟨A, s, B, l, h1, rfl, h3, h4, h5⟩ := (classify_error hp).mp hc
    exact ⟨A, B, h1, h3, h4, h5⟩
  | ok ts =>
    rw [hc] at h
    dsimp only at h
    obtain ⟨hw, hd⟩ := classify_sound hc
    cases hl : loop p (ts.length + 1) ts (positionals p) ⟨ns₀, []⟩ [] with
    | error e =>
      rw [hl] at h
      cases h
      exact loop_why hp _ hw (classify_seen hp hc) List.suffix_rfl hd (by omega) (fun a ha => (List.mem_filter.mp ha).1)
        (fun a ha => by simpa using (List.mem_filter.mp ha).2) ho hl
    | ok r =>
      obtain ⟨st, pos, ex⟩ := r
      rw [hl] at h
      dsimp only at h
      obtain ⟨hf, hseen⟩ := falls hp hc hl
      by_cases hpos : pos = []
      · rw [if_neg (by simpa using hpos)] at h
        subst hpos
        cases hreq : p.find? fun a => a.required && !st.seen.contains a with
        | some a =>
          exfalso
          have h1 := List.find?_some hreq
          simp only [Bool.and_eq_true, Bool.not_eq_true'] at h1
          have hmem := List.mem_of_find?_eq_some hreq
          have := hseen rfl a (List.mem_filter.mpr ⟨hmem, by simpa using (hp.required a hmem).mp h1.1⟩)
          have h2 := h1.2
          rw [List.contains_eq_mem] at h2
          simp [this] at h2
        | none =>
          rw [hreq] at h
          dsimp only at h
          by_cases hex : ex = []
          · rw [if_neg (by simpa using hex)] at h; cases h
          · rw [if_pos hex] at h; cases h; exact ⟨hex, hf⟩
      · rw [if_pos hpos] at h; cases h; exact ⟨pos, ex, hpos, hf⟩

/-- When an option is ambiguous. -/
theorem parse_ambiguous {p : Parser} (hp : WF p) {args : List Text} {s : Text} {l : List Text} :
    parseArgs p args = .error (.ambiguous s l) ↔ Why p args (.ambiguous s l) := by
  refine ⟨parse_why hp, fun ⟨A, B, h1, h2, h3, h4⟩ => ?_⟩
  obtain ⟨ns₀, hns⟩ := defaults_ok hp.converts []
  unfold parseArgs parseKnownArgs
  rw [hns]
  dsimp only
  rw [(classify_error hp).mpr ⟨A, s, B, l, h1, rfl, h2, h3, h4⟩]

end Verif.Argparse
