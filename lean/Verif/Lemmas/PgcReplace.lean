import Verif.Lemmas.Reader

/-! Reading the same events in two environments in which the graph banks have the same contents. -/
namespace Verif.Pgc
open Verif Verif.Etree

set_option linter.unusedSectionVars false
variable {γ : Type}

/-- Both fail in the same way, or both succeed with related results. -/
def Alike {α β : Type} (Q : α → β → Prop) (x : Py α) (y : Py β) : Prop :=
  (∃ e, x = .error e ∧ y = .error e) ∨ ∃ a b, x = .ok a ∧ y = .ok b ∧ Q a b

theorem Alike.err {α β : Type} {Q : α → β → Prop} (e : Err) : Alike Q (.error e) (.error e) := .inl ⟨e, rfl, rfl⟩

theorem Alike.okay {α β : Type} {Q : α → β → Prop} {a : α} {b : β} (h : Q a b) : Alike Q (.ok a) (.ok b) :=
  .inr ⟨a, b, rfl, rfl, h⟩

theorem Alike.forIn₂ {α β σ τ : Type} {A : α → β → Prop} {Q : σ → τ → Prop} {f : α → σ → Py σ} {g : β → τ → Py τ}
    (hf : ∀ x y s t, A x y → Q s t → Alike Q (f x s) (g y t)) {l : List α} {m : List β} (h : List.Forall₂ A l m) :
    ∀ s t, Q s t → Alike Q (Py.forIn l s f) (Py.forIn m t g) := by
  induction h with
  | nil => intro s t h; exact .okay h
  | cons h1 _ ih =>
    intro s t hq
    unfold Py.forIn
    rcases hf _ _ s t h1 hq with ⟨e, e1, e2⟩ | ⟨a, b, e1, e2, h2⟩
    · rw [e1, e2]; exact .err e
    · rw [e1, e2]; exact ih a b h2

/-- Banks that differ in their paths only. -/
def LikeBank (R : Text → Text → Prop) (b c : Bank γ) : Prop := R b.path c.path ∧ c = { b with path := c.path }

/-- Tables of banks that differ in their paths only. -/
def LikeBanks (R : Text → Text → Prop) (l m : AD (Option String) (Bank γ)) : Prop :=
  List.Forall₂ (fun x y => x.1 = y.1 ∧ LikeBank R x.2 y.2) l m

/-- States that differ in the paths of their banks only. -/
def LikeState (R : Text → Text → Prop) (s t : State γ) : Prop := LikeBanks R s.banks t.banks ∧ t = { s with banks := t.banks }

theorem LikeBanks.set {R : Text → Text → Prop} {l m : AD (Option String) (Bank γ)} (h : LikeBanks R l m) (k : Option String)
    {b c : Bank γ} (hb : LikeBank R b c) : LikeBanks R (l.set k b) (m.set k c) := by
  induction h with
  | nil => exact .cons ⟨rfl, hb⟩ .nil
  | cons h1 h2 ih =>
    unfold AD.set
    rw [← h1.1]
    split
    · exact .cons ⟨rfl, hb⟩ h2
    · exact .cons h1 ih

theorem LikeBanks.get {R : Text → Text → Prop} {l m : AD (Option String) (Bank γ)} (h : LikeBanks R l m) (k : Option String) :
    (l.get? k = none ∧ m.get? k = none) ∨ ∃ b c, l.get? k = some b ∧ m.get? k = some c ∧ LikeBank R b c := by
  induction h with
  | nil => exact .inl ⟨rfl, rfl⟩
  | cons h1 h2 ih =>
    rw [AD.get?_cons, AD.get?_cons, ← h1.1]
    split
    · exact .inr ⟨_, _, rfl, rfl, h1.2⟩
    · exact ih

/-- What loading graph banks needs of two environments. -/
def LikeReads (R : Text → Text → Prop) (env env' : Env γ) : Prop :=
  ∀ p q, R p q → (∀ f, env.readAll p f = env'.readAll q f) ∧ ∀ f ids, env.readSparse p f ids = env'.readSparse q f ids

variable {R : Text → Text → Prop} {env env' : Env γ}

theorem loadAll_alike (h : LikeReads R env env') {b c : Bank γ} (hb : LikeBank R b c) :
    Alike (LikeBank R) (loadAll env b) (loadAll env' c) := by
  obtain ⟨path, format, loaded, graphs, stubs⟩ := b
  obtain ⟨path', format', loaded', graphs', stubs'⟩ := c
  obtain ⟨hp, hb⟩ := hb
  simp only [Bank.mk.injEq, true_and] at hb hp
  obtain ⟨rfl, rfl, rfl, rfl⟩ := hb
  unfold loadAll
  dsimp only
  rw [← (h _ _ hp).1]
  split
  · exact .err _
  · split
    · exact .err _
    · exact .okay ⟨hp, rfl⟩

theorem loadSparse_alike (h : LikeReads R env env') (id : Option String) {b c : Bank γ} (hb : LikeBank R b c)
    (pairs : List (PPair γ)) :
    (loadSparse env id b pairs).1 = (loadSparse env' id c pairs).1 ∧
      Alike (LikeBank R) (loadSparse env id b pairs).2 (loadSparse env' id c pairs).2 := by
  obtain ⟨path, format, loaded, graphs, stubs⟩ := b
  obtain ⟨path', format', loaded', graphs', stubs'⟩ := c
  obtain ⟨hp, hb⟩ := hb
  simp only [Bank.mk.injEq, true_and] at hb hp
  obtain ⟨rfl, rfl, rfl, rfl⟩ := hb
  unfold loadSparse
  dsimp only
  rw [← (h _ _ hp).2]
  split
  · exact ⟨rfl, .err _⟩
  · split
    · exact ⟨rfl, .err _⟩
    · split
      · exact ⟨rfl, .err _⟩
      · split
        · exact ⟨rfl, .err _⟩
        · exact ⟨rfl, .okay ⟨hp, rfl⟩⟩

theorem loadBank_alike (h : LikeReads R env env') (mode : Load) {x y : Option String × Bank γ}
    (hx : x.1 = y.1 ∧ LikeBank R x.2 y.2) {s t : State γ} (hs : LikeState R s t) :
    Alike (LikeState R) (loadBank env mode x s) (loadBank env' mode y t) := by
  obtain ⟨hs, ht⟩ := hs
  obtain ⟨k, b⟩ := x
  obtain ⟨k', c⟩ := y
  obtain ⟨hk, hb⟩ := hx
  dsimp only at hk hb
  subst hk
  have hpairs : t.pairs = s.pairs := by rw [ht]
  have hne : ∀ m : Load, Alike (LikeState R)
      (match loadSparse env k b s.pairs with
        | (_, .error e) => (.error e : Py (State γ))
        | (pairs, .ok b) => .ok { s with banks := s.banks.set k b, pairs := pairs })
      (match loadSparse env' k c t.pairs with
        | (_, .error e) => (.error e : Py (State γ))
        | (pairs, .ok b) => .ok { t with banks := t.banks.set k b, pairs := pairs }) := by
    intro _
    rw [hpairs]
    obtain ⟨h1, h2⟩ := loadSparse_alike h k hb s.pairs
    generalize loadSparse env k b s.pairs = r at *
    generalize loadSparse env' k c s.pairs = r' at *
    obtain ⟨ps, x⟩ := r
    obtain ⟨ps', x'⟩ := r'
    dsimp only at h1 h2
    subst h1
    rcases h2 with ⟨e, rfl, rfl⟩ | ⟨b1, c1, rfl, rfl, hbc⟩
    · exact .err e
    · exact .okay ⟨hs.set k hbc, by rw [ht]⟩
  unfold loadBank
  cases mode with
  | all =>
    dsimp only
    rcases loadAll_alike h hb with ⟨e, e1, e2⟩ | ⟨b1, c1, e1, e2, hbc⟩
    · rw [e1, e2]; exact .err e
    · rw [e1, e2]; exact .okay ⟨hs.set k hbc, by rw [ht]⟩
  | sparse => exact hne .sparse
  | none => exact hne .none

theorem loadBanks_alike (h : LikeReads R env env') (mode : Load) {s t : State γ} (hs : LikeState R s t) :
    Alike (LikeState R) (loadBanks env mode s) (loadBanks env' mode t) :=
  Alike.forIn₂ (A := fun (x y : Option String × Bank γ) => x.1 = y.1 ∧ LikeBank R x.2 y.2) 
    (f := loadBank env mode) (g := loadBank env' mode) (fun x y s t hx hs => loadBank_alike h mode hx hs) hs.1 s t hs

theorem addStub_alike {b c : Bank γ} (hb : LikeBank R b c) (i : String) (k : Nat) :
    Alike (LikeBank R) (addStub b i k) (addStub c i k) := by
  obtain ⟨path, format, loaded, graphs, stubs⟩ := b
  obtain ⟨path', format', loaded', graphs', stubs'⟩ := c
  obtain ⟨hp, hb⟩ := hb
  simp only [Bank.mk.injEq, true_and] at hb hp
  obtain ⟨rfl, rfl, rfl, rfl⟩ := hb
  unfold addStub
  dsimp only
  split
  · exact .err _
  · split
    · exact .err _
    · exact .okay ⟨hp, rfl⟩

theorem startPair_alike (mode : Load) {s t : State γ} (hs : LikeState R s t) (a : AD String String) :
    Alike (LikeState R) (startPair mode s a) (startPair mode t a) := by
  obtain ⟨hs, ht⟩ := hs
  have hpairs : t.pairs = s.pairs := by rw [ht]
  unfold startPair
  split
  · rename_i sb tb _ _
    rcases hs.get (some sb) with ⟨e1, e2⟩ | ⟨b, c, e1, e2, hb⟩
    · rw [e1, e2]; exact .err _
    rcases hs.get (some tb) with ⟨e3, e4⟩ | ⟨b', c', e3, e4, hb'⟩
    · rw [e1, e2, e3, e4]; exact .err _
    rw [e1, e2, e3, e4]
    dsimp only
    split
    · rename_i si ti _ _
      split
      · have g1 : c.graphs = b.graphs := by rw [hb.2]
        have g2 : c'.graphs = b'.graphs := by rw [hb'.2]
        rw [g1, g2]
        split
        · exact .okay ⟨hs, by rw [ht]⟩
        · exact .err _
      · rw [hpairs]
        rcases addStub_alike hb si s.pairs.length with ⟨e, f1, f2⟩ | ⟨b1, c1, f1, f2, hb1⟩
        · rw [f1, f2]; exact .err _
        rw [f1, f2]
        dsimp only
        have hs1 := hs.set (some sb) hb1
        rcases hs1.get (some tb) with ⟨e1, e2⟩ | ⟨b2, c2, e1, e2, hb2⟩
        · rw [e1, e2]; exact .err _
        rw [e1, e2]
        dsimp only
        rcases addStub_alike hb2 ti s.pairs.length with ⟨e, f1, f2⟩ | ⟨b3, c3, f1, f2, hb3⟩
        · rw [f1, f2]; exact .err _
        rw [f1, f2]
        exact .okay ⟨hs1.set _ hb3, by rw [ht]⟩
    · exact .err _
  · exact .err _

/-- The recorded path of an event that declares a graph bank. -/
def fileText (ws : Char → Bool) : Event → Option Text
  | .start _ => none
  | .stop e => if e.tag = "file" then e.text.map (strip ws) else none

theorem step_alike (hw : env.ws = env'.ws) (mode : Load) (h : mode ≠ .none → LikeReads R env env') {s t : State γ} (hs : LikeState R s t) (ev : Event)
    (hev : ∀ x, fileText env.ws ev = some x → R (env.resolve x) (env'.resolve x)) :
    Alike (LikeState R) (step env mode s ev) (step env' mode t ev) := by
  obtain ⟨hs', ht⟩ := hs
  have hpairs : t.pairs = s.pairs := by rw [ht]
  cases ev with
  | start e =>
    unfold step
    dsimp only
    split
    · exact .okay ⟨hs', by rw [ht]⟩
    split
    · exact startPair_alike mode ⟨hs', ht⟩ _
    split
    · unfold startNodePair
      rw [hpairs]
      split
      · exact .err _
      split
      · exact .err _
      · exact .okay ⟨hs', by rw [ht]⟩
    · exact .okay ⟨hs', ht⟩
  | stop e =>
    unfold step
    dsimp only
    split
    · exact .okay ⟨hs', by rw [ht]⟩
    split
    · rename_i htag
      unfold endFile
      have hhas : t.banks.has (e.attrib.get? "id") = s.banks.has (e.attrib.get? "id") := by
        unfold AD.has
        rcases hs'.get (e.attrib.get? "id") with ⟨e1, e2⟩ | ⟨b, c, e1, e2, -⟩
        · rw [e1, e2]
        · rw [e1, e2]; rfl
      rw [hhas]
      split
      · exact .err _
      · split
        · exact .err _
        · rename_i x hx
          refine .okay ⟨hs'.set _ ⟨?_, ?_⟩, by rw [ht]⟩
          · dsimp only
            rw [← hw]
            apply hev
            simp [fileText, htag, hx]
          · dsimp only
            rw [ht]
    split
    · split
      · rename_i hm
        exact loadBanks_alike (h (by rw [hm]; decide)) .all ⟨hs', ht⟩
      · exact .okay ⟨hs', ht⟩
    split
    · unfold endRelation
      split
      · exact .err _
      · refine .okay ⟨hs', ?_⟩
        rw [ht, hw]
    split
    · unfold endRelations
      have : t.relations = s.relations := by rw [ht]
      rw [this]
      split
      · exact .okay ⟨hs', by rw [ht]⟩
      · exact .okay ⟨hs', by rw [ht]⟩
    split
    · unfold endGraphMeta
      rw [hpairs]
      split
      · exact .err _
      · exact .okay ⟨hs', by rw [ht]⟩
    split
    · split
      · rename_i hm
        exact loadBanks_alike (h (by rw [hm]; decide)) .sparse ⟨hs', ht⟩
      · exact .okay ⟨hs', ht⟩
    · exact .okay ⟨hs', ht⟩

theorem parse_alike (hw : env.ws = env'.ws) (mode : Load) (h : mode ≠ .none → LikeReads R env env') {evs : List Event}
    (hevs : ∀ x ∈ evs.filterMap (fileText env.ws), R (env.resolve x) (env'.resolve x)) :
    Alike (LikeState R) (parse env mode evs) (parse env' mode evs) := by
  unfold parse
  have hl : ∀ l : List Event, (∀ x ∈ l, x ∈ evs) → List.Forall₂ (fun x y => x = y ∧ x ∈ evs) l l := by
    intro l hl
    induction l with
    | nil => exact .nil
    | cons a l ih => exact .cons ⟨rfl, hl _ (by simp)⟩ (ih fun x hx => hl x (by simp [hx]))
  refine Alike.forIn₂ (A := fun x y => x = y ∧ x ∈ evs) ?_ (hl evs fun _ h => h) _ _ ⟨.nil, rfl⟩
  rintro x y s t ⟨rfl, hx⟩ hs
  exact step_alike hw mode h hs x fun z hz => hevs z (List.mem_filterMap.2 ⟨x, hx, hz⟩)

end Verif.Pgc
