import Verif.Lemmas.ArgLoop

/-! Strings that `argparse` does not know, and the ways in which it stops. -/
set_option linter.unusedSectionVars false
namespace Verif.Argparse
open Verif Verif.Spec.CommandLine

/-- The head of what follows the plain strings is not plain. -/
theorem drop_not_plain {ts : List Tok} {t : Tok} {r : List Tok} (h : ts.dropWhile Tok.plain = t :: r) : t.plain = false := by
  induction ts with
  | nil => cases h
  | cons x ts ih =>
    rw [List.dropWhile_cons] at h
    by_cases hx : x.plain = true
    · rw [if_pos hx] at h; exact ih h
    · rw [if_neg hx] at h
      cases h
      simpa using hx

theorem unknown_drop {ts : List Tok} {n : Nat} (h : ∀ x ∈ (ts.map Tok.kind).take n, x ≠ .O) {u : Text} (hu : .unknown u ∈ ts) :
    .unknown u ∈ ts.drop n := by
  rw [← List.take_append_drop n ts, List.mem_append] at hu
  rcases hu with hu | hu
  · exfalso
    refine h .O ?_ rfl
    rw [← List.map_take, List.mem_map]
    exact ⟨_, hu, rfl⟩
  · exact hu

/-- A string that is not known is left over. -/
theorem loop_unknown {p : Parser} (hp : WF p) (fuel : Nat) {ws : List Text} {ts : List Tok} (hw : List.Forall₂ (Denotes p) ws ts)
    (hd : (ts.map Tok.kind).count .D ≤ 1) {pos : List Arg} (hpos : ∀ a ∈ pos, a ∈ p) {st : St} {ex : List Text} {st' : St}
    {pos' : List Arg} {ex' : List Text} (h : loop p fuel ts pos st ex = .ok (st', pos', ex'))
    (hu : ex ≠ [] ∨ ∃ u, .unknown u ∈ ts) : ex' ≠ [] := by
  induction fuel generalizing ws ts pos st ex with
  | zero => cases h
  | succ fuel ih =>
    rw [loop] at h
    by_cases hall : ts.all Tok.plain = true
    · rw [if_pos hall] at h
      cases hc : consumePositionals ts pos st with
      | error e => rw [hc] at h; cases h
      | ok r =>
        obtain ⟨s, ps, n⟩ := r
        rw [hc] at h
        cases h
        rcases hu with hu | ⟨u, hu⟩
        · simp [hu]
        · have := List.all_eq_true.mp hall _ hu
          simp [Tok.plain, Tok.kind] at this
    · rw [if_neg hall] at h
      have hcons : ∃ s ps n, (if ts.takeWhile Tok.plain = [] then .ok (st, pos, 0) else consumePositionals ts pos st) =
          Except.ok (ε := Stop) (s, ps, n) ∧ (∀ x ∈ (ts.map Tok.kind).take n, x ≠ .O) ∧ ∀ a ∈ ps, a ∈ p := by
        by_cases hpre : ts.takeWhile Tok.plain = []
        · exact ⟨st, pos, 0, by rw [if_pos hpre], by simp, hpos⟩
        · rw [if_neg hpre] at h ⊢
          cases hc : consumePositionals ts pos st with
          | error e => rw [hc] at h; cases h
          | ok r =>
            obtain ⟨s, ps, n⟩ := r
            obtain ⟨-, c2, parts, -, c4, -⟩ := consume_sound hpos hw hd hc
            exact ⟨s, ps, n, rfl, c2, fun a ha => hpos a (by rw [← c4]; exact List.mem_append_right _ ha)⟩
      obtain ⟨s, ps, n, hc, c2, hps⟩ := hcons
      rw [hc] at h
      dsimp only at h
      have drop_ok : ∀ m, ((ts.drop m).map Tok.kind).count .D ≤ 1 := fun m => by
        rw [List.map_drop]; exact (List.Sublist.count_le _ (List.drop_sublist m _)).trans hd
      by_cases hn : n > 0
      · rw [if_pos hn] at h
        exact ih (forall₂_drop hw n) (drop_ok n) hps h (hu.imp id fun ⟨u, hu⟩ => ⟨u, unknown_drop c2 hu⟩)
      · rw [if_neg hn] at h
        generalize hm : (ts.takeWhile Tok.plain).length = m
        have htw : ∀ x ∈ (ts.map Tok.kind).take m, x ≠ .O := by rw [← hm]; exact take_while_kind ts
        have hdr : ts.dropWhile Tok.plain = ts.drop m := by rw [← hm, dropWhile_drop]
        rw [hdr] at h
        have hu' : ex ≠ [] ∨ ∃ u, .unknown u ∈ ts.drop m := hu.imp id fun ⟨u, hu⟩ => ⟨u, unknown_drop htw hu⟩
        have hrest := forall₂_drop hw m
        have hrd := drop_ok m
        cases hts : ts.drop m with
        | nil => rw [hts] at h; cases h
        | cons t rest =>
          rw [hts] at h hrest hu' hrd
          cases hwd : ws.drop m with
          | nil => rw [hwd] at hrest; cases hrest
          | cons w wr =>
            rw [hwd] at hrest
            cases hrest with
            | cons hden hwr =>
              have hrd' : (rest.map Tok.kind).count .D ≤ 1 := by
                rw [List.map_cons] at hrd
                exact (List.Sublist.count_le _ (List.sublist_cons_self _ _)).trans hrd
              cases t with
              | unknown u => exact ih hwr hrd' hps h (.inl (by simp))
              | arg u => exact ih hwr hrd' hps h (.inl (by simp))
              | dash => exact ih hwr hrd' hps h (.inl (by simp))
              | opt a name e =>
                dsimp only at h
                cases hr : readOption p a name e rest with
                | error x => rw [hr] at h; cases h
                | ok r =>
                  obtain ⟨calls, rest'⟩ := r
                  rw [hr] at h
                  dsimp only at h
                  cases hta : takeAll calls s with
                  | error x => rw [hta] at h; cases h
                  | ok s2 =>
                    rw [hta] at h
                    dsimp only at h
                    obtain ⟨k, k1, rfl, k3⟩ := readOption_sound hp hden hwr hr
                    have hrd2 : ((rest.drop k).map Tok.kind).count .D ≤ 1 := by
                      rw [List.map_drop]; exact (List.Sublist.count_le _ (List.drop_sublist k _)).trans hrd'
                    refine ih (forall₂_drop hwr k) hrd2 hps h ?_
                    rcases hu' with hu' | ⟨u, hu'⟩
                    · exact .inl (by simp [hu'])
                    · exact .inr ⟨u, unknown_drop (fun x hx => by rw [k1.2 x hx]; simp) (by simpa using hu')⟩

/-! ### The ways to stop -/

/-- An exit, and not a failure of the parser itself. -/
def Stop.Clean (x : Stop) : Prop := x ≠ .crash ∧ x ≠ .fuel

theorem getValue_clean {a : Arg} {s : Text} {x : Stop} (h : getValue a s = .error x) : x.Clean := by
  unfold getValue at h
  cases ha : a.ty with
  | identity => rw [ha] at h; cases h
  | notCallable => rw [ha] at h; cases h; simp [Stop.Clean]
  | int =>
    rw [ha] at h
    dsimp only at h
    cases hp : StatsTable.parseInt (Etree.strip isSpace s) with
    | ok n => rw [hp] at h; cases h
    | error e => rw [hp] at h; cases h; simp [Stop.Clean]

theorem getList_clean {a : Arg} {l : List Text} {x : Stop} (h : getList a l = .error x) : x.Clean := by
  induction l with
  | nil => cases h
  | cons s l ih =>
    rw [getList] at h
    cases h1 : getValue a s with
    | error e => rw [h1] at h; cases h; exact getValue_clean h1
    | ok v =>
      rw [h1] at h
      dsimp only at h
      cases h2 : getList a l with
      | error e => rw [h2] at h; cases h; exact ih h2
      | ok vs => rw [h2] at h; cases h

theorem getDefault_clean {a : Arg} {v : Val} {x : Stop} (h : getDefault a v = .error x) : x.Clean := by
  cases v with
  | str s => exact getValue_clean h
  | _ => cases h

theorem getValues_clean {a : Arg} {l : List Text} {x : Stop} (h : getValues a l = .error x) : x.Clean := by
  unfold getValues at h
  dsimp only at h
  split at h
  · split at h
    · cases h
    · split at h
      · rename_i e he; cases h; exact getDefault_clean he
      · cases h
  · split at h
    · split at h <;> cases h
    · split at h
      · split at h
        · rename_i e he; cases h; exact getValue_clean he
        · cases h
      · split at h
        · rename_i e he; cases h; exact getValue_clean he
        · cases h
      · split at h
        · rename_i e he; cases h; exact getList_clean he
        · cases h

theorem takeAction_clean {p : Parser} (hp : WF p) {done : List (Arg × List Text)} {st : St} (ho : Outcome p done st.ns)
    {b : Arg} (hb : b ∈ p) {l : List Text} {x : Stop} (h : takeAction b l st = .error x) : x.Clean := by
  by_cases hact : b.act ≠ .help ∧ b.act ≠ .version
  · by_cases hv : ∃ v, ValueOf b l v
    · obtain ⟨st', hst⟩ := takeAction_ok hp ho hb hv hact
      rw [hst] at h; cases h
    · unfold takeAction at h
      cases hg : getValues b l with
      | error e => rw [hg] at h; cases h; exact getValues_clean hg
      | ok o =>
        obtain ⟨v, rfl, hv'⟩ := (getValues_iff (wf_plainly hp hb)).mp hg
        exact absurd ⟨v, hv'⟩ hv
  · unfold takeAction at h
    cases hg : getValues b l with
    | error e => rw [hg] at h; cases h; exact getValues_clean hg
    | ok o =>
      rw [hg] at h
      cases o with
      | none => cases h
      | some v =>
        dsimp only at h
        unfold call at h
        cases hba : b.act with
        | help => rw [hba] at h; cases h; simp [Stop.Clean]
        | version => rw [hba] at h; cases h; simp [Stop.Clean]
        | store => simp [hba] at hact
        | const c => simp [hba] at hact
        | append => simp [hba] at hact

theorem takeAll_clean {p : Parser} (hp : WF p) {done calls : List (Arg × List Text)} {st : St} (ho : Outcome p done st.ns)
    (hc : ∀ c ∈ calls, c.1 ∈ p) {x : Stop} (h : takeAll calls st = .error x) : x.Clean := by
  induction calls generalizing done st with
  | nil => cases h
  | cons c calls ih =>
    rw [takeAll] at h
    cases ht : takeAction c.1 c.2 st with
    | error e => rw [ht] at h; cases h; exact takeAction_clean hp ho (hc c List.mem_cons_self) ht
    | ok s =>
      rw [ht] at h
      exact ih (outcome_step hp ho (hc c List.mem_cons_self) ht).1 (fun x hx => hc x (List.mem_cons_of_mem _ hx)) h

theorem single_clean {a : Arg} {rest : List Tok} {x : Stop} (h : single a rest = .error x) : x.Clean := by
  unfold single at h
  cases hm : matchArgument a (rest.map Tok.kind) with
  | ok n => rw [hm] at h; cases h
  | error e =>
    rw [hm] at h
    cases h
    unfold matchArgument at hm
    split at hm
    · cases hm
    · cases hm; simp [Stop.Clean]

theorem matchArgument_clean {a : Arg} {k : List Kind} {x : Stop} (h : matchArgument a k = .error x) : x.Clean := by
  unfold matchArgument at h
  split at h
  · cases h
  · cases h; simp [Stop.Clean]

theorem cluster_clean {p : Parser} (e : Text) {a : Arg} {name : Text} (he : e ≠ [] ∨ name[1]? = some '-') {rest : List Tok} {x : Stop}
    (h : cluster p a name e rest = .error x) : x.Clean := by
  induction e generalizing a name x with
  | nil =>
    rw [cluster] at h
    cases hm : matchArgument a [.A] with
    | error y => rw [hm] at h; cases h; exact matchArgument_clean hm
    | ok n =>
      rw [hm] at h
      dsimp only at h
      rw [if_neg (fun hc => hc.2 (he.resolve_left (by simp)))] at h
      split at h
      · cases h
      · cases h; simp [Stop.Clean]
  | cons d e ih =>
    rw [cluster] at h
    cases hm : matchArgument a [.A] with
    | error y => rw [hm] at h; cases h; exact matchArgument_clean hm
    | ok n =>
      rw [hm] at h
      dsimp only at h
      split at h
      · cases hl : lookup p ['-', d] with
        | none => rw [hl] at h; cases h; simp [Stop.Clean]
        | some b =>
          rw [hl] at h
          dsimp only at h
          by_cases hnil : e = []
          · rw [if_pos hnil] at h
            cases hs : single b rest with
            | error y => rw [hs] at h; cases h; exact single_clean hs
            | ok r => rw [hs] at h; cases h
          · rw [if_neg hnil] at h
            cases hs : cluster p b ['-', d] e rest with
            | error y => rw [hs] at h; cases h; exact ih (.inl hnil) hs
            | ok r => rw [hs] at h; cases h
      · split at h
        · cases h
        · cases h; simp [Stop.Clean]

theorem readOption_clean {p : Parser} (hp : WF p) {w : Text} {a : Arg} {n : Text} {e : Option Text} (hd : Denotes p w (.opt a n e))
    {rest : List Tok} {x : Stop} (h : readOption p a n e rest = .error x) : x.Clean := by
  obtain ⟨-, h2, h3, h4⟩ := hd
  unfold readOption at h
  rcases h4 with ⟨rfl, -⟩ | ⟨u, v, rfl, -, ⟨r, hr⟩, ⟨r', hr'⟩⟩ | ⟨c, v, rfl, hv, -⟩
  · exact single_clean h
  · refine cluster_clean v (.inr ?_) h
    rw [← hr', ← hr]
    rfl
  · exact cluster_clean v (.inl hv) h

theorem loop_clean {p : Parser} (hp : WF p) (fuel : Nat) {ws : List Text} {ts : List Tok} (hw : List.Forall₂ (Denotes p) ws ts)
    (hd : (ts.map Tok.kind).count .D ≤ 1) (hf : ts.length < fuel) {pos : List Arg} (hpos : ∀ a ∈ pos, a ∈ p)
    {done : List (Arg × List Text)} {st : St} (ho : Outcome p done st.ns) {ex : List Text} {x : Stop}
    (h : loop p fuel ts pos st ex = .error x) : x.Clean := by
  induction fuel generalizing ws ts pos st ex done with
  | zero => omega
  | succ fuel ih =>
    rw [loop] at h
    have consume_clean : ∀ y, consumePositionals ts pos st = .error y → y.Clean := by
      intro y hy
      unfold consumePositionals at hy
      dsimp only at hy
      cases ht : takeAll (pos.zip (slices (matchPartial pos (ts.map Tok.kind)) ts)) st with
      | ok s => rw [ht] at hy; cases hy
      | error e =>
        rw [ht] at hy
        cases hy
        exact takeAll_clean hp ho (fun c hc => hpos c.1 (List.of_mem_zip hc).1) ht
    by_cases hall : ts.all Tok.plain = true
    · rw [if_pos hall] at h
      cases hc : consumePositionals ts pos st with
      | error e => rw [hc] at h; cases h; exact consume_clean _ hc
      | ok r => rw [hc] at h; cases h
    · rw [if_neg hall] at h
      have hcons : (∃ y, y.Clean ∧ (if ts.takeWhile Tok.plain = [] then .ok (st, pos, 0) else consumePositionals ts pos st) =
            Except.error y) ∨
          ∃ s ps n done', (if ts.takeWhile Tok.plain = [] then .ok (st, pos, 0) else consumePositionals ts pos st) =
          Except.ok (ε := Stop) (s, ps, n) ∧ n ≤ ts.length ∧ (∀ a ∈ ps, a ∈ p) ∧ Outcome p done' s.ns := by
        by_cases hpre : ts.takeWhile Tok.plain = []
        · exact .inr ⟨st, pos, 0, done, by rw [if_pos hpre], by simp, hpos, ho⟩
        · rw [if_neg hpre]
          cases hc : consumePositionals ts pos st with
          | error e => exact .inl ⟨e, consume_clean _ hc, rfl⟩
          | ok r =>
            obtain ⟨s, ps, n⟩ := r
            obtain ⟨c1, -, parts, -, c4, c5, c6⟩ := consume_sound hpos hw hd hc
            refine .inr ⟨s, ps, n, _, rfl, c1, fun a ha => hpos a (by rw [← c4]; exact List.mem_append_right _ ha),
              (outcome_all hp ho ?_ c5).1⟩
            intro c hc
            obtain ⟨q, hq, hcq⟩ := List.mem_flatMap.mp hc
            exact sound_mem (c6 q hq) c hcq
      rcases hcons with ⟨y, hy, hc⟩ | ⟨s, ps, n, done', hc, c2, hps, ho'⟩
      · rw [hc] at h; cases h; exact hy
      · rw [hc] at h
        dsimp only at h
        have drop_ok : ∀ m, ((ts.drop m).map Tok.kind).count .D ≤ 1 := fun m => by
          rw [List.map_drop]; exact (List.Sublist.count_le _ (List.drop_sublist m _)).trans hd
        by_cases hn : n > 0
        · rw [if_pos hn] at h
          exact ih (forall₂_drop hw n) (drop_ok n) (by rw [List.length_drop]; omega) hps ho' h
        · rw [if_neg hn] at h
          generalize hm : (ts.takeWhile Tok.plain).length = m
          have hdr : ts.dropWhile Tok.plain = ts.drop m := by rw [← hm, dropWhile_drop]
          have hnp : ∀ t r, ts.drop m = t :: r → t.plain = false := fun t r htr => drop_not_plain (hdr.trans htr)
          rw [hdr] at h
          have hrest := forall₂_drop hw m
          have hrd := drop_ok m
          cases hts : ts.drop m with
          | nil =>
            exfalso
            apply hall
            rw [List.all_eq_true]
            intro t ht
            have := List.takeWhile_append_dropWhile (p := Tok.plain) (l := ts)
            rw [hdr, hts, List.append_nil] at this
            rw [← this] at ht
            exact List.all_eq_true.mp List.all_takeWhile t ht
          | cons t rest =>
            have hlen : rest.length < fuel := by
              have := congrArg List.length hts
              rw [List.length_drop, List.length_cons] at this
              omega
            have hnp := hnp t rest hts
            rw [hts] at h hrest hrd
            cases hwd : ws.drop m with
            | nil => rw [hwd] at hrest; cases hrest
            | cons w wr =>
              rw [hwd] at hrest
              cases hrest with
              | cons hden hwr =>
                have hrd' : (rest.map Tok.kind).count .D ≤ 1 := by
                  rw [List.map_cons] at hrd
                  exact (List.Sublist.count_le _ (List.sublist_cons_self _ _)).trans hrd
                cases t with
                | unknown u => exact ih hwr hrd' hlen hps ho' h
                | arg u => exact ih hwr hrd' hlen hps ho' h
                | dash => exact ih hwr hrd' hlen hps ho' h
                | opt a name e =>
                  dsimp only at h
                  cases hr : readOption p a name e rest with
                  | error y => rw [hr] at h; cases h; exact readOption_clean hp hden hr
                  | ok r =>
                    obtain ⟨calls, rest'⟩ := r
                    rw [hr] at h
                    dsimp only at h
                    obtain ⟨k, k1, rfl, k3⟩ := readOption_sound hp hden hwr hr
                    cases hta : takeAll calls s with
                    | error y =>
                      rw [hta] at h; cases h
                      exact takeAll_clean hp ho' (reads_mem k3) hta
                    | ok s2 =>
                      rw [hta] at h
                      dsimp only at h
                      have hrd2 : ((rest.drop k).map Tok.kind).count .D ≤ 1 := by
                        rw [List.map_drop]; exact (List.Sublist.count_le _ (List.drop_sublist k _)).trans hrd'
                      exact ih (forall₂_drop hwr k) hrd2 (by rw [List.length_drop]; omega) hps
                        (outcome_all hp ho' (reads_mem k3) hta).1 h

theorem classify_clean {p : Parser} {ws : List Text} {x : Stop} (h : classify p ws = .error x) : x.Clean := by
  induction ws with
  | nil => cases h
  | cons w ws ih =>
    rw [classify] at h
    split at h
    · cases h
    · cases hp : parseOptional p w with
      | error y =>
        rw [hp] at h
        cases h
        unfold parseOptional at hp
        split at hp
        · cases hp
        · split at hp
          · cases hp
          · split at hp
            · cases hp
            · split at hp
              · cases hp
              · split at hp
                · cases hp; simp [Stop.Clean]
                · cases hp
                · split at hp
                  · cases hp
                  · split at hp <;> cases hp
      | ok t =>
        rw [hp] at h
        dsimp only at h
        cases hc : classify p ws with
        | error y => rw [hc] at h; cases h; exact ih hc
        | ok ts => rw [hc] at h; cases h

theorem classify_cons {p : Parser} {l : List Text} {w : Text} {r : List Text} (hl : dashes ∉ l) (hw : w ≠ dashes) {ts : List Tok}
    (h : classify p (l ++ w :: r) = .ok ts) : ∃ t, parseOptional p w = .ok t ∧ t ∈ ts := by
  induction l generalizing ts with
  | nil =>
    rw [List.nil_append, classify, if_neg (show ¬ w = ['-', '-'] from hw)] at h
    cases hp : parseOptional p w with
    | error y => rw [hp] at h; cases h
    | ok t =>
      rw [hp] at h
      dsimp only at h
      cases hc : classify p r with
      | error y => rw [hc] at h; cases h
      | ok us => rw [hc] at h; cases h; exact ⟨t, rfl, List.mem_cons_self⟩
  | cons x l ih =>
    rw [List.mem_cons, not_or] at hl
    rw [List.cons_append, classify, if_neg (show ¬ x = ['-', '-'] from fun h => hl.1 h.symm)] at h
    cases hp : parseOptional p x with
    | error y => rw [hp] at h; cases h
    | ok t =>
      rw [hp] at h
      dsimp only at h
      cases hc : classify p (l ++ w :: r) with
      | error y => rw [hc] at h; cases h
      | ok us =>
        rw [hc] at h
        cases h
        obtain ⟨t', h1, h2⟩ := ih hl.2 hc
        exact ⟨t', h1, List.mem_cons_of_mem _ h2⟩

end Verif.Argparse
