import Verif.Lemmas.PgcReplace
import Verif.Lemmas.PosixPath
import Verif.Spec.PgcZip

/-! Lemmas about packing corpora. -/
namespace Verif.PgcZip
open Verif Verif.Etree Verif.Pgc Verif.Spec.PgcZip

set_option linter.unusedSectionVars false
variable {β γ : Type}

/-! ### Loops that append -/

theorem forIn_append {α δ : Type} {f : α → List δ → Py (List δ)} {P : α → List δ → Prop}
    (hf : ∀ x acc r, f x acc = .ok r → ∃ es, P x es ∧ r = acc ++ es) :
    ∀ (l : List α) (acc r : List δ), Py.forIn l acc f = .ok r →
      ∃ ess, List.Forall₂ P l ess ∧ r = acc ++ ess.flatten
  | [], acc, r, h => by
    simp only [Py.forIn, Except.ok.injEq] at h
    exact ⟨[], .nil, by simp [h]⟩
  | x :: l, acc, r, h => by
    unfold Py.forIn at h
    cases hx : f x acc with
    | error e => rw [hx] at h; simp at h
    | ok r1 =>
      rw [hx] at h
      obtain ⟨es, h1, rfl⟩ := hf _ _ _ hx
      obtain ⟨ess, h2, rfl⟩ := forIn_append hf l _ _ h
      exact ⟨es :: ess, .cons h1 h2, by simp⟩

theorem forIn_okay {α δ : Type} {f : α → δ → Py δ} {Q : α → Prop} (hf : ∀ x acc, (∃ r, f x acc = .ok r) ↔ Q x) :
    ∀ (l : List α) (acc : δ), (∃ r, Py.forIn l acc f = .ok r) ↔ ∀ x ∈ l, Q x
  | [], acc => by simp [Py.forIn]
  | x :: l, acc => by
    unfold Py.forIn
    cases hx : f x acc with
    | error e =>
      have : ¬ Q x := by
        rw [← hf x acc]
        rintro ⟨r, h⟩
        rw [hx] at h
        cases h
      simp [this]
    | ok r =>
      have h1 : Q x := (hf x acc).1 ⟨r, hx⟩
      have := forIn_okay hf l r
      simp only [List.mem_cons, forall_eq_or_imp, h1, true_and]
      exact this

/-! ### Packing -/

theorem store_ok {site : Site β} {d : Text} {acc r : List (Text × β)} {f : Text} (h : store site d acc f = .ok r) :
    ∃ e, EntryOf site d f e ∧ r = acc ++ [e] := by
  unfold store at h
  split at h
  · simp at h
  · rename_i c hc
    simp only [Except.ok.injEq] at h
    exact ⟨_, ⟨rfl, hc⟩, h.symm⟩

theorem store_iff {site : Site β} {d : Text} {acc : List (Text × β)} {f : Text} :
    (∃ r, store site d acc f = .ok r) ↔ (site.file f).isSome := by
  unfold store
  cases site.file f <;> simp

/-- The entries for the graph bank with an id. -/
def BankEntries (site : Site β) (d : Text) (s : State γ) (id : String) (es : List (Text × β)) : Prop :=
  ∃ b e, s.banks.get? (some id) = some b ∧ EntryOf site d b.path e ∧ es = [e]

theorem packBank_ok {site : Site β} {d : Text} {s : State γ} {id : String} {acc r : List (Text × β)}
    (h : packBank site d s id acc = .ok r) : ∃ es, BankEntries site d s id es ∧ r = acc ++ es := by
  unfold packBank at h
  split at h
  · simp at h
  · rename_i b hb
    obtain ⟨e, h1, h2⟩ := store_ok h
    exact ⟨_, ⟨b, e, hb, h1, rfl⟩, h2⟩

theorem packBank_iff {site : Site β} {d : Text} {s : State γ} {id : String} {acc : List (Text × β)} :
    (∃ r, packBank site d s id acc = .ok r) ↔ ∃ b, s.banks.get? (some id) = some b ∧ (site.file b.path).isSome := by
  unfold packBank
  cases hb : s.banks.get? (some id) with
  | none => simp
  | some b => simpa using store_iff

/-- The entries for a corpus. -/
def CorpusEntries (rd : Reader β γ) (site : Site β) (ord : List String → List String) (d fn : Text)
    (es : List (Text × β)) : Prop :=
  ∃ s e ess, readCorpus rd site false .none fn = .ok s ∧ EntryOf site d fn e ∧
    List.Forall₂ (BankEntries site d s) (ord (graphbanks s)) ess ∧ es = e :: ess.flatten

theorem packCorpus_ok {rd : Reader β γ} {site : Site β} {ord : List String → List String} {d fn : Text}
    {acc r : List (Text × β)} (h : packCorpus rd site ord d fn acc = .ok r) :
    ∃ es, CorpusEntries rd site ord d fn es ∧ r = acc ++ es := by
  unfold packCorpus at h
  cases h1 : store site d acc fn with
  | error e => rw [h1] at h; simp at h
  | ok acc1 =>
    rw [h1] at h
    dsimp only at h
    cases h2 : readCorpus rd site false .none fn with
    | error e => rw [h2] at h; simp at h
    | ok s =>
      rw [h2] at h
      dsimp only at h
      obtain ⟨e, h3, rfl⟩ := store_ok h1
      obtain ⟨ess, h4, rfl⟩ := forIn_append (fun x acc r => packBank_ok) _ _ _ h
      exact ⟨_, ⟨s, e, ess, h2, h3, h4, rfl⟩, by simp⟩

theorem mem_graphbanks (s : State γ) (id : String) : id ∈ graphbanks s ↔ UsedId s id := by
  unfold graphbanks UsedId
  rw [List.mem_dedup, List.mem_flatMap]
  constructor
  · rintro ⟨p, hp, h⟩
    simp only [List.mem_cons, List.not_mem_nil, or_false] at h
    rcases h with h | h
    · exact ⟨p, hp, .inl h.symm⟩
    · exact ⟨p, hp, .inr h.symm⟩
  · rintro ⟨p, hp, h⟩
    refine ⟨p, hp, ?_⟩
    rcases h with h | h
    · simp [← h]
    · simp [← h]

theorem readCorpus_ok {rd : Reader β γ} {site : Site β} {relax : Bool} {mode : Load} {fn : Text} {s : State γ}
    (h : readCorpus rd site relax mode fn = .ok s) : ∃ c, site.file fn = some c ∧
      parse (env rd site relax (PosixPath.dirname fn)) mode (rd.xml c).1 = .ok s ∧ (rd.xml c).2 = none := by
  unfold readCorpus at h
  split at h
  · simp at h
  rename_i c hc
  split at h
  · simp at h
  rename_i s1 hs
  split at h
  · simp at h
  rename_i he
  simp only [Except.ok.injEq] at h
  exact ⟨c, hc, by rw [hs, h], he⟩

theorem packCorpus_iff {rd : Reader β γ} {site : Site β} {ord : List String → List String} (hord : ∀ l, (ord l).Perm l)
    {d fn : Text} (acc : List (Text × β)) :
    (∃ r, packCorpus rd site ord d fn acc = .ok r) ↔ ∃ s, readCorpus rd site false .none fn = .ok s ∧
      ∀ id, UsedId s id → ∃ b, s.banks.get? (some id) = some b ∧ (site.file b.path).isSome := by
  unfold packCorpus
  cases h2 : readCorpus rd site false .none fn with
  | error e =>
    cases h1 : store site d acc fn with
    | error e => simp
    | ok acc1 => simp
  | ok s =>
    obtain ⟨c, hc, -, -⟩ := readCorpus_ok h2
    have h1 : store site d acc fn = .ok (acc ++ [(PosixPath.join d (PosixPath.basename fn), c)]) := by
      unfold store
      rw [hc]
    rw [h1]
    dsimp only
    rw [forIn_okay (f := packBank site d s)
      (Q := fun id => ∃ b, s.banks.get? (some id) = some b ∧ (site.file b.path).isSome) (fun x acc => packBank_iff)]
    constructor
    · intro h
      exact ⟨s, rfl, fun id hid => h id ((hord _).mem_iff.2 ((mem_graphbanks s id).2 hid))⟩
    · rintro ⟨s', hs', h⟩ id hid
      cases hs'
      exact h id ((mem_graphbanks s id).1 ((hord _).mem_iff.1 hid))

theorem mem_multiglob (site : Site β) (pats : List Text) (fn : Text) : fn ∈ multiglob site pats ↔ Matched site pats fn := by
  unfold multiglob Matched
  rw [List.mem_mergeSort, List.mem_flatMap]

/-! ### Paths -/

open PosixPath in
theorem basename_join_any (d x : Text) : basename (join d x) = basename x := by
  unfold join
  split
  · rfl
  have hs := split x
  have hd : ∀ y, DirPart y → basename (y ++ x) = basename x := by
    intro y hy
    rw [← hs, ← List.append_assoc, basename_append (basename_noSlash x), basename_append (basename_noSlash x)]
    · exact dirPart_head x
    · rcases dirPart_head x with h | ⟨z, hz⟩
      · rw [h, List.append_nil]; exact hy
      · exact .inr ⟨y ++ z, by rw [hz]; simp⟩
  split
  · rename_i h
    apply hd
    rcases h with h | h
    · exact .inl h
    · have := List.dropLast_append_getLast? (l := d) '/' (by rw [h]; rfl)
      exact .inr ⟨_, this.symm⟩
  · have := hd (d ++ ['/']) (.inr ⟨d, rfl⟩)
    simpa using this

theorem named_ne {x : Text} (h : Named x) : x ≠ [] := by
  rintro rfl
  exact h.1 rfl

theorem named_congr {x y : Text} (h : PosixPath.basename x = PosixPath.basename y) (hy : Named y) : Named x := by
  unfold Named
  rw [h]
  exact hy

theorem place_name {site : Site β} (h : NamesKept site) (dir : Text) {x : Text} (hx : Named x) :
    PosixPath.basename (place site dir x) = PosixPath.basename x := by
  unfold place
  split
  · rfl
  · have := basename_join_any dir x
    rw [h _ (named_congr this hx), this]

theorem bankPath_strict (site : Site β) (dir x : Text) : bankPath site false dir x = place site dir x := by
  unfold bankPath place
  simp

theorem bankPath_there {site : Site β} {dir x : Text} (h : site.ex (place site dir x) = true) (relax : Bool) :
    bankPath site relax dir x = place site dir x := by
  unfold bankPath
  change (if (!site.ex (place site dir x) && relax) = true then _ else place site dir x) = _
  rw [h]
  simp

theorem bankPath_gone {site : Site β} {dir x : Text} (h : site.ex (place site dir x) = false) :
    bankPath site true dir x = site.real (PosixPath.join dir (PosixPath.basename (place site dir x))) := by
  unfold bankPath
  change (if (!site.ex (place site dir x) && true) = true then _ else place site dir x) = _
  rw [h]
  simp only [Bool.not_false, Bool.and_self, if_true]
  rfl

theorem archDir_noSlash (zip : Text) : '/' ∉ archDir zip := by
  have h := PosixPath.basename_noSlash zip
  unfold archDir stem
  dsimp only
  split
  · exact h
  · intro h'
    apply h
    rw [List.mem_reverse] at h'
    have := List.dropWhile_suffix (l := (PosixPath.basename zip).reverse) (fun c => decide (c ≠ '.'))
    exact List.mem_reverse.1 (this.subset (List.mem_of_mem_tail h'))

theorem archDir_ne {zip : Text} (h : PosixPath.basename zip ≠ []) : archDir zip ≠ [] := by
  unfold archDir stem
  dsimp only
  split
  · exact h
  · rename_i h'
    intro h''
    rw [h''] at h'
    simp at h'

/-! ### The banks of a corpus read without graphs -/

/-- The bank for each <file> element has the path given there. -/
def Placed (env : Env γ) (pre : List Event) (s : State γ) : Prop :=
  ∀ e t, Event.stop e ∈ pre → e.tag = "file" → e.text = some t →
    ∃ b, s.banks.get? (e.attrib.get? "id") = some b ∧ b.path = env.resolve (strip env.ws t)

/-- Banks keep their paths. -/
def Keeps (s s' : State γ) : Prop := ∀ k b, s.banks.get? k = some b → ∃ b', s'.banks.get? k = some b' ∧ b'.path = b.path

theorem Keeps.of_eq {s s' : State γ} (h : s'.banks = s.banks) : Keeps s s' := fun k b hb => ⟨b, by rw [h]; exact hb, rfl⟩

theorem addStub_path {b b' : Bank γ} {i : String} {k : Nat} (h : addStub b i k = .ok b') : b'.path = b.path := by
  unfold addStub at h
  split at h
  · simp at h
  split at h
  · simp at h
  · simp only [Except.ok.injEq] at h; subst h; rfl

theorem startPair_keeps {mode : Load} {s s' : State γ} {a : AD String String} (h : startPair mode s a = .ok s') :
    Keeps s s' := by
  unfold startPair at h
  split at h
  · split at h
    · rename_i sb tb _ _ _ _ bs bt hbs hbt
      split at h
      · split at h
        · split at h
          · simp only [Except.ok.injEq] at h; subst h; exact .of_eq rfl
          · simp at h
        · split at h
          · simp at h
          rename_i b hb
          split at h
          · simp at h
          rename_i b2 hb2
          split at h
          · simp at h
          rename_i b3 hb3
          simp only [Except.ok.injEq] at h
          subst h
          intro k c hc
          dsimp only
          rw [AD.get?_set, AD.get?_set]
          rw [AD.get?_set] at hb2
          have e1 := addStub_path hb
          have e2 := addStub_path hb3
          by_cases hk : k = some tb
          · rw [if_pos hk]
            refine ⟨_, rfl, ?_⟩
            rw [e2]
            subst hk
            rw [hc] at hbt hb2
            split at hb2
            · rename_i heq
              cases hb2
              rw [e1]
              rw [heq] at hc
              rw [hc] at hbs
              cases hbs
              rfl
            · cases hb2; rfl
          · rw [if_neg hk]
            by_cases hk' : k = some sb
            · rw [if_pos hk']
              refine ⟨_, rfl, ?_⟩
              rw [e1]
              subst hk'
              rw [hc] at hbs
              cases hbs
              rfl
            · rw [if_neg hk']
              exact ⟨c, hc, rfl⟩
      · simp at h
    · simp at h
  · simp at h

theorem placed_step {env : Env γ} {pre : List Event} {s s' : State γ} {ev : Event} (hp : Placed env pre s)
    (h : step env .none s ev = .ok s') : Placed env (pre ++ [ev]) s' := by
  have keep : Keeps s s' → (∀ e, ev = .stop e → e.tag ≠ "file") → Placed env (pre ++ [ev]) s' := by
    intro hk hev e t he ht hx
    rcases List.mem_append.1 he with he | he
    · obtain ⟨b, hb, hbp⟩ := hp e t he ht hx
      obtain ⟨b', hb', e1⟩ := hk _ _ hb
      exact ⟨b', hb', e1.trans hbp⟩
    · exact absurd ht (hev e (List.mem_singleton.1 he).symm)
  cases ev with
  | start e =>
    refine keep ?_ (by simp)
    unfold step at h
    dsimp only at h
    split at h
    · simp only [Except.ok.injEq] at h; subst h; exact .of_eq rfl
    split at h
    · exact startPair_keeps h
    split at h
    · unfold startNodePair at h
      split at h
      · simp at h
      split at h
      · simp at h
      · simp only [Except.ok.injEq] at h; subst h; exact .of_eq rfl
    · simp only [Except.ok.injEq] at h; subst h; exact .of_eq rfl
  | stop e =>
    by_cases htag : e.tag = "file"
    · have h' : endFile env s e = .ok s' := by rw [← h]; simp [step, htag]
      unfold endFile at h'
      split at h'
      · simp at h'
      rename_i hhas
      split at h'
      · simp at h'
      rename_i x hx
      simp only [Except.ok.injEq] at h'
      subst h'
      intro e' t he ht hx'
      dsimp only
      rw [AD.get?_set]
      rcases List.mem_append.1 he with he | he
      · obtain ⟨b, hb, hbp⟩ := hp e' t he ht hx'
        rw [if_neg]
        · exact ⟨b, hb, hbp⟩
        · intro heq
          apply hhas
          unfold AD.has
          rw [← heq, hb]
          rfl
      · have : e' = e := by simpa using he
        subst this
        rw [if_pos rfl]
        refine ⟨_, rfl, ?_⟩
        rw [hx] at hx'
        cases hx'
        rfl
    · refine keep ?_ (by rintro e' he' ht; cases he'; exact htag ht)
      unfold step at h
      dsimp only at h
      split at h
      · simp only [Except.ok.injEq] at h; subst h; exact .of_eq rfl
      split at h
      · simp at h; subst h; exact .of_eq rfl
      split at h
      · unfold endRelation at h
        split at h
        · simp at h
        · simp only [Except.ok.injEq] at h; subst h; exact .of_eq rfl
      split at h
      · simp only [Except.ok.injEq] at h; subst h
        unfold endRelations
        split <;> exact .of_eq rfl
      split at h
      · unfold endGraphMeta at h
        split at h
        · simp at h
        · simp only [Except.ok.injEq] at h; subst h; exact .of_eq rfl
      split at h
      · simp at h; subst h; exact .of_eq rfl
      · simp at h; subst h; exact .of_eq rfl

theorem placed_run (env : Env γ) : ∀ (evs pre : List Event) (s s' : State γ), Placed env pre s →
    Pgc.run env .none s evs = .ok s' → Placed env (pre ++ evs) s'
  | [], pre, s, s', hp, h => by
    rw [run_nil, Except.ok.injEq] at h
    subst h
    simpa using hp
  | ev :: evs, pre, s, s', hp, h => by
    rw [run_cons] at h
    cases hst : step env .none s ev with
    | error e => rw [hst] at h; simp at h
    | ok s1 =>
      rw [hst] at h
      rw [show pre ++ ev :: evs = (pre ++ [ev]) ++ evs by simp]
      exact placed_run env evs _ s1 s' (placed_step hp hst) h

theorem placed_parse {env : Env γ} {evs : List Event} {s : State γ} (h : parse env .none evs = .ok s) : Placed env evs s := by
  have := placed_run env evs [] {} s (by intro e t he; simp at he) h
  simpa using this

theorem apart_eq {R : Text → Text → Prop} {s t : State γ} (h : LikeState R s t) : apart s = apart t := by
  obtain ⟨h1, h2⟩ := h
  have : s.banks.map (fun x => (x.1, { x.2 with path := [] })) = t.banks.map (fun x => (x.1, { x.2 with path := [] })) := by
    clear h2
    generalize s.banks = bs at h1 ⊢
    generalize t.banks = bt at h1 ⊢
    induction h1 with
    | nil => rfl
    | cons a _ ih =>
      rw [List.map_cons, List.map_cons, ih, a.1, a.2.2]
  unfold apart
  rw [this, h2]

theorem likeState_eq {s t : State γ} (h : LikeState Eq s t) : s = t := by
  obtain ⟨h1, h2⟩ := h
  have : s.banks = t.banks := by
    clear h2
    generalize s.banks = bs at h1 ⊢
    generalize t.banks = bt at h1 ⊢
    induction h1 with
    | nil => rfl
    | cons a _ ih =>
      rename_i x y _ _ _
      obtain ⟨a1, a2, a3⟩ := a
      have : x = y := by
        apply Prod.ext a1
        rw [a3, ← a2]
      rw [ih, this]
  rw [h2, ← this]

theorem alike_map {α δ ε : Type} {Q : α → δ → Prop} {x : Py α} {y : Py δ} (h : Alike Q x y) {f : α → ε} {g : δ → ε}
    (hf : ∀ a b, Q a b → f a = g b) : x.map f = y.map g := by
  rcases h with ⟨e, rfl, rfl⟩ | ⟨a, b, rfl, rfl, h⟩
  · rfl
  · exact congrArg Except.ok (hf a b h)

theorem recorded_iff {rd : Reader β γ} {c : β} {x : Text} (h : x ∈ (rd.xml c).1.filterMap (fileText rd.ws)) :
    Recorded rd c x := by
  obtain ⟨ev, h1, h2⟩ := List.mem_filterMap.1 h
  cases ev with
  | start e => simp [fileText] at h2
  | stop e =>
    unfold fileText at h2
    dsimp only at h2
    split at h2
    · rename_i ht
      cases hx : e.text with
      | none => rw [hx] at h2; simp at h2
      | some t =>
        rw [hx] at h2
        simp at h2
        exact ⟨e, t, h1, ht, hx, h2.symm⟩
    · simp at h2

/-- Reading a corpus at two places. -/
theorem readCorpus_alike {rd : Reader β γ} {site site' : Site β} {relax relax' : Bool} {mode : Load} {fn fn' : Text} {c : β}
    (hc : site.file fn = some c) (hc' : site'.file fn' = some c) (R : Text → Text → Prop)
    (hR : mode ≠ .none → ∀ p q, R p q → site.file p = site'.file q)
    (h : ∀ x, Recorded rd c x → R (site.real (bankPath site relax (PosixPath.dirname fn) x))
      (site'.real (bankPath site' relax' (PosixPath.dirname fn') x))) :
    Alike (LikeState R) (readCorpus rd site relax mode fn) (readCorpus rd site' relax' mode fn') := by
  have := parse_alike (R := R) (env := env rd site relax (PosixPath.dirname fn))
    (env' := env rd site' relax' (PosixPath.dirname fn')) rfl mode
    (fun hm p q hpq => ⟨fun f => by simp only [env]; rw [hR hm p q hpq], fun f ids => by simp only [env]; rw [hR hm p q hpq]⟩)
    (evs := (rd.xml c).1) (fun x hx => h x (recorded_iff hx))
  unfold readCorpus
  rw [hc, hc']
  dsimp only
  rcases this with ⟨e, e1, e2⟩ | ⟨s, t, e1, e2, hst⟩
  · rw [e1, e2]; exact .err e
  · rw [e1, e2]
    dsimp only
    split
    · exact .err _
    · exact .okay hst

end Verif.PgcZip
