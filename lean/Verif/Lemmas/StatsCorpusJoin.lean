import Verif.Lemmas.StatsTableRun
import Verif.Lemmas.StatsCorpus

/-! Joining tables, as a function. -/
namespace Verif.StatsCorpus
open Verif Verif.Etree Verif.StatsTable Verif.Spec.StatsTable Verif.Spec.StatsCorpus

set_option linter.unusedSectionVars false

theorem rounded_unique {q a b : ℚ} (ha : Rounded q a) (hb : Rounded q b) : a = b := by
  obtain ⟨k, rfl, h1, h2⟩ := ha
  obtain ⟨m, rfl, h3, h4⟩ := hb
  have g1 := abs_le.1 h1
  have g3 := abs_le.1 h3
  have u1 : ((k - m : ℤ) : ℚ) ≤ 1 := by push_cast; linarith [g1.1, g3.2]
  have u2 : (-1 : ℚ) ≤ ((k - m : ℤ) : ℚ) := by push_cast; linarith [g1.2, g3.1]
  have v1 : k - m ≤ 1 := by exact_mod_cast u1
  have v2 : -1 ≤ k - m := by exact_mod_cast u2
  by_cases he : k = m
  · rw [he]
  exfalso
  have hcase : k = m + 1 ∨ m = k + 1 := by omega
  have both : |q - k / 100| = 1/200 ∧ |q - m / 100| = 1/200 := by
    rcases hcase with h | h
    · subst h
      push_cast at *
      have e1 : q - (m + 1) / 100 = -(1/200) := by linarith [g1.1, g3.2]
      have e2 : q - m / 100 = 1/200 := by linarith [g1.1, g3.2]
      rw [e1, e2]; norm_num
    · subst h
      push_cast at *
      have e1 : q - k / 100 = 1/200 := by linarith [g1.2, g3.1]
      have e2 : q - (k + 1) / 100 = -(1/200) := by linarith [g1.2, g3.1]
      rw [e1, e2]; norm_num
  obtain ⟨x, hx⟩ := h2 both.1
  obtain ⟨y, hy⟩ := h4 both.2
  omega

theorem rounded_eq {q q' : ℚ} (h : Rounded q q') : q' = readBack q := rounded_unique h (readBack_rounded q)

theorem readBack_idem (q : ℚ) : readBack (readBack q) = readBack q := by
  refine (rounded_eq ?_).symm
  obtain ⟨k, hk, -, -⟩ := readBack_rounded q
  refine ⟨k, hk, ?_, ?_⟩ <;> simp

/-- The values of a column added to another. -/
def joinC (a c : Column) : Column := { a with cells := match a.cells, c.cells with
  | .string x, .string y => .string (x ++ y)
  | .count x, .count y => .count (x ++ y)
  | .other x, .other y => .other (x ++ y.map readBack)
  | x, _ => x }

/-- The values of a table added to another. -/
def joinT (t p : Table) : Table := List.zipWith joinC t p

/-- The type of a column. -/
def tag (c : Column) : Nat := match c.cells with
  | .string _ => 0
  | .count _ => 1
  | .other _ => 2

theorem sameType_iff (c d : Column) : SameType c d ↔ tag c = tag d := by
  unfold SameType tag
  cases c.cells <;> cases d.cells <;> simp

theorem same_iff : ∀ (t p : Table), List.Forall₂ SameType t p ↔ t.map tag = p.map tag
  | [], [] => by simp
  | [], _ :: _ => by simp
  | _ :: _, [] => by simp
  | c :: t, d :: p => by
    rw [List.forall₂_cons, sameType_iff, same_iff t p]
    simp

theorem tag_joinC (a c : Column) : tag (joinC a c) = tag a := by
  cases a with | mk l d x o => cases c with | mk l' d' y o' => cases x <;> cases y <;> rfl

theorem tag_joinT {t p : Table} (h : t.map tag = p.map tag) : (joinT t p).map tag = t.map tag := by
  induction t generalizing p with
  | nil => rfl
  | cons a t ih =>
    cases p with
    | nil => simp at h
    | cons c p =>
      simp only [List.map_cons, List.cons.injEq] at h
      show tag (joinC a c) :: (joinT t p).map tag = _
      rw [tag_joinC, ih h.2]
      rfl

theorem joined_joinT {t p : Table} (h : t.map tag = p.map tag) : Joined t p (joinT t p) := by
  induction t generalizing p with
  | nil =>
    cases p with
    | nil => trivial
    | cons c p => simp at h
  | cons a t ih =>
    cases p with
    | nil => simp at h
    | cons c p =>
      simp only [List.map_cons, List.cons.injEq] at h
      refine ⟨⟨rfl, rfl, rfl, ?_⟩, ih h.2⟩
      have h1 := h.1
      cases a with
      | mk l d x o =>
        cases c with
        | mk l' d' y o' =>
          cases x <;> cases y <;> simp [tag] at h1 <;> simp only [joinC, Added]
          refine ⟨_, rfl, ?_⟩
          rename_i y
          clear h1 h
          induction y with
          | nil => exact .nil
          | cons q y ih => exact .cons (readBack_rounded q) ih

theorem joined_unique : ∀ {t p t1 : Table}, Joined t p t1 → t1 = joinT t p ∧ t.map tag = p.map tag
  | [], [], [], _ => ⟨rfl, rfl⟩
  | [], [], _ :: _, h => absurd h not_false
  | [], _ :: _, [], h => absurd h not_false
  | [], _ :: _, _ :: _, h => absurd h not_false
  | _ :: _, [], [], h => absurd h not_false
  | _ :: _, [], _ :: _, h => absurd h not_false
  | _ :: _, _ :: _, [], h => absurd h not_false
  | a :: t, c :: p, d :: t1, h => by
    obtain ⟨⟨h1, h2, h3, h4⟩, h5⟩ := h
    obtain ⟨g1, g2⟩ := joined_unique h5
    cases a with
    | mk l de x o =>
      cases c with
      | mk l' d' y o' =>
        cases d with
        | mk l2 d2 z o2 =>
          simp only at h1 h2 h3 h4
          subst h1 h2 h3 g1
          cases x <;> cases y <;> cases z <;> simp only [Added] at h4
          · subst h4
            exact ⟨rfl, by simp [tag, g2]⟩
          · subst h4
            exact ⟨rfl, by simp [tag, g2]⟩
          · rename_i x y z
            obtain ⟨b, rfl, hb⟩ := h4
            refine ⟨?_, by simp [tag, g2]⟩
            have : b = y.map readBack := by
              clear h5 g2
              induction hb with
              | nil => rfl
              | cons hq _ ih => rw [rounded_eq hq, ih]; rfl
            subst this
            rfl

theorem joinC_assoc {a b c : Column} (h1 : tag a = tag b) (h2 : tag b = tag c) :
    joinC a (joinC b c) = joinC (joinC a b) c := by
  cases a with
  | mk l d x o =>
    cases b with
    | mk l' d' y o' =>
      cases c with
      | mk l2 d2 z o2 =>
        cases x <;> cases y <;> simp [tag] at h1 <;> cases z <;> simp [tag] at h2 <;> simp [joinC]
        intro q hq
        exact readBack_idem q

theorem joinT_assoc {t A p : Table} (h1 : t.map tag = A.map tag) (h2 : A.map tag = p.map tag) :
    joinT t (joinT A p) = joinT (joinT t A) p := by
  induction t generalizing A p with
  | nil => rfl
  | cons a t ih =>
    cases A with
    | nil => simp at h1
    | cons b A =>
      cases p with
      | nil => simp at h2
      | cons c p =>
        simp only [List.map_cons, List.cons.injEq] at h1 h2
        show joinC a (joinC b c) :: joinT t (joinT A p) = joinC (joinC a b) c :: joinT (joinT t A) p
        rw [joinC_assoc h1.1 h2.1, ih h1.2 h2.2]

theorem joinT_void {t N : Table} (h1 : t.map tag = N.map tag) (h2 : NoValues N) : joinT t N = t := by
  induction t generalizing N with
  | nil => rfl
  | cons a t ih =>
    cases N with
    | nil => simp at h1
    | cons b N =>
      simp only [List.map_cons, List.cons.injEq] at h1
      show joinC a b :: joinT t N = _
      rw [ih h1.2 fun c hc => h2 c (by simp [hc])]
      congr 1
      have hv := h2 b (by simp)
      have h1 := h1.1
      cases a with
      | mk l d x o =>
        cases b with
        | mk l' d' y o' =>
          cases x <;> cases y <;> simp [tag] at h1 <;> simp [Cells.len] at hv <;> subst hv <;> simp [joinC]

/-- Several tables added. -/
def joinAll (t : Table) (ps : List Table) : Table := ps.foldl joinT t

theorem tag_joinAll : ∀ {ps : List Table} {t : Table}, (∀ p ∈ ps, t.map tag = p.map tag) →
    (joinAll t ps).map tag = t.map tag
  | [], _, _ => rfl
  | p :: ps, t, h => by
    have h0 := tag_joinT (h p (by simp))
    show (joinAll (joinT t p) ps).map tag = _
    rw [tag_joinAll fun q hq => by rw [h0]; exact h q (by simp [hq]), h0]

theorem joinedAll_joinAll : ∀ {ps : List Table} {t : Table}, (∀ p ∈ ps, t.map tag = p.map tag) →
    JoinedAll t ps (joinAll t ps)
  | [], _, _ => .nil _
  | p :: ps, t, h => by
    have h0 := tag_joinT (h p (by simp))
    exact .cons (joined_joinT (h p (by simp))) (joinedAll_joinAll fun q hq => by rw [h0]; exact h q (by simp [hq]))

theorem joinedAll_unique {ps : List Table} {t t1 : Table} (h : JoinedAll t ps t1) : t1 = joinAll t ps := by
  induction h with
  | nil => rfl
  | cons h1 _ ih =>
    obtain ⟨rfl, -⟩ := joined_unique h1
    exact ih

theorem joinAll_assoc {N t : Table} (hN : NoValues N) (htN : t.map tag = N.map tag) : ∀ {ps : List Table},
    (∀ p ∈ ps, N.map tag = p.map tag) → joinT t (joinAll N ps) = joinAll t ps := by
  intro ps
  induction ps using List.reverseRecOn with
  | nil => intro _; exact joinT_void htN hN
  | append_singleton ps p ih =>
    intro h
    have h' : ∀ q ∈ ps, N.map tag = q.map tag := fun q hq => h q (by simp [hq])
    have e : ∀ u, joinAll u (ps ++ [p]) = joinT (joinAll u ps) p := fun u => by simp [joinAll]
    rw [e, e, joinT_assoc (by rw [tag_joinAll h', htN]) (by rw [tag_joinAll h']; exact h p (by simp)), ih h']

/-! ### Reading -/

theorem void_iff (t : Table) : StatsTable.isEmpty t = true ↔ NoValues t := by
  unfold StatsTable.isEmpty NoValues
  simp

theorem readText_write {ws : Char → Bool} (hw : Blanks ws) {t p : Table} (hr : Readable ws p)
    (hs : t.map tag = p.map tag) : readText ws (some (write true p)) t = .ok (joinT t p) := by
  obtain ⟨r, h1, -⟩ := write_eq true p
  obtain ⟨n, hn⟩ := hr.rows
  have hx : "----".toList <+: rule p ++ r := ((isSeparator_iff _).1 (rule_sep hr)).trans (List.prefix_append _ _)
  have h := read_upper hw ((same_iff t p).2 hs) hr hx
  unfold readText
  rw [h1]
  dsimp only
  rw [h]
  show (Except.ok _ : Py Table) = _
  congr 1
  rw [rowCount_eq hr.columns hn]
  clear h hx h1 hr
  induction t generalizing p with
  | nil => rfl
  | cons a t ih =>
    cases p with
    | nil => simp at hs
    | cons c p =>
      simp only [List.map_cons, List.cons.injEq] at hs
      show grown n a c :: List.zipWith (grown n) t p = joinC a c :: joinT t p
      rw [ih hs.2 fun d hd => hn d (by simp [hd])]
      congr 1
      have hc := hn c (by simp)
      have hs := hs.1
      cases a with
      | mk l d x o =>
        cases c with
        | mk l' d' y o' =>
          simp only [grown, joinC]
          cases x <;> cases y <;> simp [tag] at hs <;> simp only [Cells.len] at hc <;> subst hc <;> simp [addCells, taken]

theorem readText_reports {ws : Char → Bool} (hw : Blanks ws) {t p : Table} (hr : Readable ws p)
    (hs : t.map tag = p.map tag) {c : Option Text} (hc : Reports c p) : readText ws c t = .ok (joinT t p) := by
  by_cases hv : NoValues p
  · rw [hc.1 hv, joinT_void hs hv]; rfl
  · rw [hc.2 hv]; exact readText_write hw hr hs

/-! ### Joined tables can be read -/

/-- The words of a column. -/
def strings (c : Column) : List Text := match c.cells with
  | .string l => l
  | _ => []

theorem strings_joinC {a c : Column} (h : tag a = tag c) : strings (joinC a c) = strings a ++ strings c := by
  cases a with | mk l d x o => cases c with | mk l' d' y o' =>
    cases x <;> cases y <;> simp [tag] at h <;> rfl

theorem len_joinC {a c : Column} (h : tag a = tag c) : (joinC a c).cells.len = a.cells.len + c.cells.len := by
  cases a with | mk l d x o => cases c with | mk l' d' y o' =>
    cases x <;> cases y <;> simp [tag] at h <;> simp [joinC, Cells.len]

theorem mem_joinT : ∀ {t p : Table}, t.map tag = p.map tag → ∀ {d : Column}, d ∈ joinT t p →
    ∃ a ∈ t, ∃ c ∈ p, tag a = tag c ∧ d = joinC a c
  | [], _, _, d, h => by simp [joinT] at h
  | _ :: _, [], h, _, _ => by simp at h
  | a :: t, c :: p, h, d, hd => by
    simp only [List.map_cons, List.cons.injEq] at h
    have hd' : d ∈ joinC a c :: joinT t p := hd
    rw [List.mem_cons] at hd'
    rcases hd' with rfl | hd'
    · exact ⟨a, by simp, c, by simp, h.1, rfl⟩
    · obtain ⟨x, hx, y, hy, e⟩ := mem_joinT h.2 hd'
      exact ⟨x, by simp [hx], y, by simp [hy], e⟩

theorem readBack_bounds {q : ℚ} (h1 : -999995/1000 < q) (h2 : q < 9999995/1000) :
    -999995/1000 < readBack q ∧ readBack q < 9999995/1000 := by
  obtain ⟨k, hk, hb, -⟩ := readBack_rounded q
  have hb' := abs_le.1 hb
  rw [hk] at hb' ⊢
  have a1 : (k : ℚ) < (1000000 : ℤ) := by push_cast; linarith [hb'.1]
  have a2 : ((-100000 : ℤ) : ℚ) < k := by push_cast; linarith [hb'.2]
  have b1 : k < 1000000 := by exact_mod_cast a1
  have b2 : -100000 < k := by exact_mod_cast a2
  have c1 : k ≤ 999999 := by omega
  have c2 : -99999 ≤ k := by omega
  have d1 : (k : ℚ) ≤ 999999 := by exact_mod_cast c1
  have d2 : (-99999 : ℚ) ≤ k := by exact_mod_cast c2
  constructor <;> linarith

theorem apart_join {a c b d : Column} (h1 : tag a = tag c) (h2 : tag b = tag d) (ha : Apart a b) (hc : Apart c d) :
    Apart (joinC a c) (joinC b d) := by
  cases a with | mk _ _ x _ => cases c with | mk _ _ x' _ => cases b with | mk _ _ y _ => cases d with | mk _ _ y' _ =>
    cases x <;> cases x' <;> simp [tag] at h1 <;> cases y <;> cases y' <;> simp [tag] at h2 <;>
      simp only [Apart, joinC] at ha hc ⊢
    · rw [ha, hc]; rfl
    · intro n hn
      rcases List.mem_append.1 hn with h | h
      · exact ha n h
      · exact hc n h
    · intro n hn
      rcases List.mem_append.1 hn with h | h
      · exact ha n h
      · obtain ⟨q, hq, rfl⟩ := List.mem_map.1 h
        exact readBack_bounds (hc q hq).1 (hc q hq).2
    · rw [ha, hc]; rfl
    · intro n hn
      rcases List.mem_append.1 hn with h | h
      · exact ha n h
      · exact hc n h
    · intro n hn
      rcases List.mem_append.1 hn with h | h
      · exact ha n h
      · obtain ⟨q, hq, rfl⟩ := List.mem_map.1 h
        exact readBack_bounds (hc q hq).1 (hc q hq).2

theorem chain_join : ∀ {t p : Table}, t.map tag = p.map tag → t.IsChain Apart → p.IsChain Apart → (joinT t p).IsChain Apart
  | [], _, _, _, _ => by simp [joinT]
  | _ :: _, [], h, _, _ => by simp at h
  | [a], [c], _, _, _ => by simp [joinT]
  | [_], _ :: _ :: _, h, _, _ => by simp at h
  | _ :: _ :: _, [_], h, _, _ => by simp at h
  | a :: b :: t, c :: d :: p, h, h1, h2 => by
    rw [List.isChain_cons_cons] at h1 h2
    have h' := h
    simp only [List.map_cons, List.cons.injEq] at h'
    show (joinC a c :: joinC b d :: joinT t p).IsChain Apart
    rw [List.isChain_cons_cons]
    refine ⟨apart_join h'.1 h'.2.1 h1.1 h2.1, ?_⟩
    exact chain_join (t := b :: t) (p := d :: p) (by simp only [List.map_cons]; rw [h'.2.1, h'.2.2]) h1.2 h2.2

theorem string_strings {c : Column} {l : List Text} (h : c.cells = .string l) : strings c = l ∧ tag c = 0 := by
  unfold strings tag; rw [h]; exact ⟨rfl, rfl⟩

theorem strings_string {c : Column} (h : tag c = 0) : c.cells = .string (strings c) := by
  unfold strings
  unfold tag at h
  cases hc : c.cells <;> rw [hc] at h <;> simp at h

theorem readable_join {ws : Char → Bool} {t p : Table} (ht : Readable ws t) (hp : Readable ws p)
    (h : t.map tag = p.map tag) : Readable ws (joinT t p) where
  columns := by
    have := ht.columns
    cases t with
    | nil => exact absurd rfl this
    | cons a t =>
      cases p with
      | nil => simp at h
      | cons c p => simp [joinT]
  wide := by
    rintro ⟨d, l, he, hl, h1, h2⟩
    cases t with
    | nil => exact ht.columns rfl
    | cons a t =>
      cases p with
      | nil => simp at h
      | cons c p =>
        simp only [List.map_cons, List.cons.injEq] at h
        have he' : joinC a c :: joinT t p = [d] := he
        simp only [List.cons.injEq] at he'
        have ht0 : t = [] := by
          cases t with
          | nil => rfl
          | cons b t =>
            cases p with
            | nil => simp at h
            | cons e p => simp [joinT] at he'
        subst ht0
        obtain ⟨hs, htag⟩ := string_strings hl
        rw [← he'.1, tag_joinC] at htag
        rw [← he'.1, strings_joinC h.1] at hs
        refine ht.wide ⟨a, strings a, rfl, strings_string htag, ?_, ?_⟩
        · rw [← he'.1] at h1; exact h1
        · intro s hs'
          refine h2 s ?_
          rw [← hs]
          exact List.mem_append.2 (.inl hs')
  rows := by
    obtain ⟨n, hn⟩ := ht.rows
    obtain ⟨m, hm⟩ := hp.rows
    refine ⟨n + m, fun d hd => ?_⟩
    obtain ⟨a, ha, c, hc, e, rfl⟩ := mem_joinT h hd
    rw [len_joinC e, hn a ha, hm c hc]
  labels := by
    intro d hd
    obtain ⟨a, ha, c, hc, e, rfl⟩ := mem_joinT h hd
    exact ht.labels a ha
  words := by
    intro d hd l hl s hs
    obtain ⟨a, ha, c, hc, e, rfl⟩ := mem_joinT h hd
    obtain ⟨h1, h2⟩ := string_strings hl
    rw [tag_joinC] at h2
    rw [strings_joinC e] at h1
    rw [← h1] at hs
    rcases List.mem_append.1 hs with hs | hs
    · exact ht.words a ha _ (strings_string h2) s hs
    · exact hp.words c hc _ (strings_string (e ▸ h2)) s hs
  first := by
    intro d hd
    cases t with
    | nil => simp [joinT] at hd
    | cons a t =>
      cases p with
      | nil => simp at h
      | cons c p =>
        simp only [List.map_cons, List.cons.injEq] at h
        have hd' : (joinC a c :: joinT t p).head? = some d := hd
        simp only [List.head?_cons, Option.some.injEq] at hd'
        subst hd'
        obtain ⟨f1, f2⟩ := ht.first a rfl
        obtain ⟨g1, g2⟩ := hp.first c rfl
        refine ⟨f1, fun l hl s hs => ?_⟩
        obtain ⟨h1, h2⟩ := string_strings hl
        rw [tag_joinC] at h2
        rw [strings_joinC h.1] at h1
        rw [← h1] at hs
        rcases List.mem_append.1 hs with hs | hs
        · exact f2 _ (strings_string h2) s hs
        · exact g2 _ (strings_string (h.1 ▸ h2)) s hs
  apart := chain_join h ht.apart hp.apart

theorem readable_joinAll {ws : Char → Bool} : ∀ {ps : List Table} {t : Table}, Readable ws t →
    (∀ p ∈ ps, Readable ws p ∧ t.map tag = p.map tag) → Readable ws (joinAll t ps)
  | [], _, h, _ => h
  | p :: ps, t, h, hp => by
    have h0 := hp p (by simp)
    show Readable ws (joinAll (joinT t p) ps)
    exact readable_joinAll (readable_join h h0.1 h0.2) fun q hq =>
      ⟨(hp q (by simp [hq])).1, by rw [tag_joinT h0.2]; exact (hp q (by simp [hq])).2⟩

/-! ### Summaries -/

/-- Tables with the same columns and values. -/
abbrev SameValues (t u : Table) : Prop := List.Forall₂ (fun c d =>
  d.label = c.label ∧ d.descr = c.descr ∧ d.cells = c.cells) t u

theorem same_tag {t u : Table} (h : SameValues t u) : u.map tag = t.map tag := by
  induction h with
  | nil => rfl
  | cons h _ ih => simp [tag, h.2.2, ih]

theorem same_join {t u v : Table} (h : SameValues t u) : joinT v u = joinT v t := by
  induction h generalizing v with
  | nil => rfl
  | cons h _ ih =>
    cases v with
    | nil => rfl
    | cons a v =>
      show joinC a _ :: joinT v _ = joinC a _ :: joinT v _
      rw [ih]
      simp only [joinC, h.2.2]

theorem same_void {t u : Table} (h : SameValues t u) : NoValues u ↔ NoValues t := by
  induction h with
  | nil => exact Iff.rfl
  | cons h _ ih =>
    unfold NoValues at *
    simp only [List.mem_cons, forall_eq_or_imp, ih, h.2.2]

theorem same_mem {t u : Table} (h : SameValues t u) : ∀ d ∈ u, ∃ c ∈ t, d.label = c.label ∧ d.cells = c.cells := by
  induction h with
  | nil => intro d hd; simp at hd
  | cons h _ ih =>
    intro d hd
    rw [List.mem_cons] at hd
    rcases hd with rfl | hd
    · exact ⟨_, List.mem_cons_self .., h.1, h.2.2⟩
    · obtain ⟨c, hc, e⟩ := ih d hd
      exact ⟨c, by simp [hc], e⟩

theorem same_chain {t u : Table} (h : SameValues t u) (hc : t.IsChain Apart) : u.IsChain Apart := by
  induction h with
  | nil => simp
  | cons h h' ih =>
    rename_i c d t u
    cases h' with
    | nil => simp
    | cons g g' =>
      rw [List.isChain_cons_cons] at hc ⊢
      refine ⟨?_, ih hc.2⟩
      have := hc.1
      unfold Apart at *
      rw [h.2.2, g.2.2]
      exact this

theorem same_readable {ws : Char → Bool} {t u : Table} (h : SameValues t u) (ht : Readable ws t) : Readable ws u where
  columns := by
    rintro rfl
    cases h
    exact ht.columns rfl
  wide := by
    rintro ⟨d, l, rfl, hl, h1, h2⟩
    cases h with
    | cons g g' =>
      cases g'
      exact ht.wide ⟨_, l, rfl, by rw [← g.2.2]; exact hl, by rw [← g.1]; exact h1, h2⟩
  rows := by
    obtain ⟨n, hn⟩ := ht.rows
    refine ⟨n, fun d hd => ?_⟩
    obtain ⟨c, hc, e1, e2⟩ := same_mem h d hd
    rw [e2]; exact hn c hc
  labels := by
    intro d hd
    obtain ⟨c, hc, e1, e2⟩ := same_mem h d hd
    rw [e1]; exact ht.labels c hc
  words := by
    intro d hd
    obtain ⟨c, hc, e1, e2⟩ := same_mem h d hd
    rw [e2]; exact ht.words c hc
  first := by
    intro d hd
    cases h with
    | nil => simp at hd
    | cons g _ =>
      simp only [List.head?_cons, Option.some.injEq] at hd
      subst hd
      rw [g.1, g.2.2]
      exact ht.first _ rfl
  apart := same_chain h ht.apart

end Verif.StatsCorpus
