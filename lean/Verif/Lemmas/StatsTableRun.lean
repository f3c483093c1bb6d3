import Verif.Lemmas.StatsTable

/-! Lemmas about writing and reading tables of statistics. -/
set_option linter.unusedSectionVars false
namespace Verif.StatsTable
open Verif Verif.Etree Verif.DaesoGraph Verif.Spec.StatsTable

/-- A value of a column as a word. -/
def cellWord (i : Nat) (c : Column) : Text := match c.cells with
  | .string l => l.getD i []
  | .count l => showInt (l.getD i 0)
  | .other l => showFixed (l.getD i 0)

/-- Spaces before and after the word. -/
def lead (i : Nat) (c : Column) : Nat := match c.cells with
  | .string _ => 0
  | _ => width c - (cellWord i c).length

def trail (i : Nat) (c : Column) : Nat := match c.cells with
  | .string _ => width c - (cellWord i c).length
  | _ => 0

theorem bodyCell_eq (i : Nat) (c : Column) :
    bodyCell c i = List.replicate (lead i c) ' ' ++ (cellWord i c ++ List.replicate (trail i c) ' ') := by
  cases h : c.cells <;> simp [bodyCell, lead, trail, cellWord, ljust, rjust, h]

theorem le_foldr_max {l : List Nat} {x : Nat} (h : x ∈ l) : x ≤ l.foldr max 0 := by
  induction l with
  | nil => simp at h
  | cons y l ih =>
    rcases List.mem_cons.1 h with rfl | h
    · simp
    · have := ih h; simp [this]

theorem width_string {c : Column} {l : List Text} (h : c.cells = .string l) :
    c.label.length + 2 ≤ width c ∧ ∀ s ∈ l, s.length + 2 ≤ width c := by
  unfold width
  rw [h]
  dsimp only
  refine ⟨by omega, fun s hs => ?_⟩
  have := le_foldr_max (List.mem_map_of_mem (f := List.length) hs)
  omega

/-- Row `i` of a column can be read back. -/
def GoodCell (ws : Char → Bool) (i : Nat) (c : Column) : Prop :=
  i < c.cells.len ∧ ∀ l, c.cells = .string l → ∀ s ∈ l, s ≠ [] ∧ ∀ x ∈ s, ws x = false

theorem getD_mem {α : Type} {l : List α} {i : Nat} (h : i < l.length) (d : α) : l.getD i d ∈ l := by
  rw [List.getD_eq_getElem?_getD, List.getElem?_eq_getElem h]; exact List.getElem_mem h

theorem cellWord_good {ws : Char → Bool} (hw : Blanks ws) {i : Nat} {c : Column} (h : GoodCell ws i c) :
    cellWord i c ≠ [] ∧ ∀ x ∈ cellWord i c, ws x = false := by
  unfold cellWord
  obtain ⟨h1, h2⟩ := h
  cases hc : c.cells with
  | string l =>
    rw [hc] at h1
    exact h2 l hc _ (getD_mem h1 _)
  | count l => exact ⟨showInt_ne _, showInt_ws hw _⟩
  | other l => exact ⟨showFixed_ne _, showFixed_ws hw _⟩

theorem trail_string {ws : Char → Bool} {i : Nat} {c : Column} (h : GoodCell ws i c) {l : List Text}
    (hc : c.cells = .string l) : 2 ≤ trail i c := by
  have h1 := h.1
  rw [hc] at h1
  have := (width_string hc).2 _ (getD_mem h1 [])
  unfold trail cellWord
  rw [hc]
  dsimp only
  omega

theorem lead_apart {ws : Char → Bool} {i : Nat} {c d : Column} (hd : GoodCell ws i d) (ha : Apart c d) :
    (∃ l, c.cells = .string l) ∨ 1 ≤ lead i d := by
  have h1 := hd.1
  unfold Apart at ha
  cases hc : c.cells with
  | string l => exact Or.inl ⟨l, rfl⟩
  | count l =>
    right
    rw [hc] at ha
    cases hd' : d.cells with
    | string m => rw [hd'] at ha h1; subst ha; simp [Cells.len] at h1
    | count m =>
      rw [hd'] at ha h1
      have := showInt_length (ha _ (getD_mem h1 0)).1 (ha _ (getD_mem h1 0)).2
      simp only [lead, cellWord, width, hd']; omega
    | other m =>
      rw [hd'] at ha h1
      have := showFixed_length (ha _ (getD_mem h1 0)).1 (ha _ (getD_mem h1 0)).2
      simp only [lead, cellWord, width, hd']; omega
  | other l =>
    right
    rw [hc] at ha
    cases hd' : d.cells with
    | string m => rw [hd'] at ha h1; subst ha; simp [Cells.len] at h1
    | count m =>
      rw [hd'] at ha h1
      have := showInt_length (ha _ (getD_mem h1 0)).1 (ha _ (getD_mem h1 0)).2
      simp only [lead, cellWord, width, hd']; omega
    | other m =>
      rw [hd'] at ha h1
      have := showFixed_length (ha _ (getD_mem h1 0)).1 (ha _ (getD_mem h1 0)).2
      simp only [lead, cellWord, width, hd']; omega

theorem spaces_ws {ws : Char → Bool} (hw : Blanks ws) (n : Nat) : ∀ c ∈ List.replicate n ' ', ws c = true := by
  intro c hc; rw [List.eq_of_mem_replicate hc]; exact hw.space

/-- The words of a line of the body. -/
theorem bodyLine_words {ws : Char → Bool} (hw : Blanks ws) (i : Nat) : ∀ (t : Table), t.IsChain Apart →
    (∀ c ∈ t, GoodCell ws i c) → splitWs ws (bodyLine t i) = t.map (cellWord i)
  | [], _, _ => by
    unfold bodyLine
    simpa using splitWs_blank (ws := ws) (s := ['\n']) (by simp [hw.newline])
  | c :: t, ha, hg => by
    have hc := hg c (by simp)
    have hrest : splitWs ws (bodyLine t i) = t.map (cellWord i) :=
      bodyLine_words hw i t (by cases t with
        | nil => exact List.IsChain.nil
        | cons d t => exact (List.isChain_cons_cons.1 ha).2) (fun d hd => hg d (by simp [hd]))
    have e : bodyLine (c :: t) i = List.replicate (lead i c) ' ' ++
        (cellWord i c ++ (List.replicate (trail i c) ' ' ++ bodyLine t i)) := by
      unfold bodyLine
      rw [List.map_cons, List.flatten_cons, bodyCell_eq]
      simp
    obtain ⟨g1, g2⟩ := cellWord_good hw hc
    rw [e, splitWs_skips (spaces_ws hw _), splitWs_next g1 g2, splitWs_skips (spaces_ws hw _), hrest, List.map_cons]
    intro x hx
    cases ht : trail i c with
    | succ n => rw [ht] at hx; simp [List.replicate_succ] at hx; subst hx; exact hw.space
    | zero =>
      rw [ht] at hx
      simp only [List.replicate_zero, List.nil_append] at hx
      cases t with
      | nil => simp [bodyLine] at hx; subst hx; exact hw.newline
      | cons d t =>
        rcases lead_apart (hg d (by simp)) (List.isChain_cons_cons.1 ha).1 with ⟨l, hl⟩ | h1
        · have := trail_string hc hl; omega
        · obtain ⟨m, hm⟩ : ∃ m, lead i d = m + 1 := ⟨lead i d - 1, by omega⟩
          unfold bodyLine at hx
          rw [List.map_cons, List.flatten_cons, bodyCell_eq, hm, List.replicate_succ] at hx
          simp at hx; subst hx; exact hw.space

/-- Values added to a column, as they are read. -/
def addCells : Cells → Cells → Cells
  | .string a, .string b => .string (a ++ b)
  | .count a, .count b => .count (a ++ b)
  | .other a, .other b => .other (a ++ b)
  | a, _ => a

/-- The first values of a column, as they are read. -/
def taken (n : Nat) : Cells → Cells
  | .string l => .string (l.take n)
  | .count l => .count (l.take n)
  | .other l => .other ((l.take n).map readBack)

/-- A column with the first values of another. -/
def grown (n : Nat) (a c : Column) : Column := { a with cells := addCells a.cells (taken n c.cells) }

theorem take_getD {α : Type} {l : List α} {n : Nat} (h : n < l.length) (d : α) :
    l.take (n + 1) = l.take n ++ [l.getD n d] := by
  rw [List.take_succ, List.getD_eq_getElem?_getD, List.getElem?_eq_getElem h]; rfl

theorem appendVal_grown {a c : Column} (hs : SameType a c) {n : Nat} (hn : n < c.cells.len) :
    appendVal (cellWord n c) (grown n a c).cells = .ok (grown (n + 1) a c).cells := by
  unfold SameType at hs
  unfold grown cellWord
  cases ha : a.cells <;> cases hc : c.cells <;> rw [ha, hc] at hs <;> try exact absurd hs not_false
  · rw [hc] at hn
    simp only [addCells, taken, appendVal, take_getD hn [], List.append_assoc]
  · rw [hc] at hn
    simp only [addCells, taken, appendVal, parseInt_showInt, take_getD hn 0, List.append_assoc]
  · rw [hc] at hn
    simp only [addCells, taken, appendVal, parseFloat_showFixed, take_getD hn 0, List.append_assoc, List.map_append,
      List.map_cons, List.map_nil]

theorem appendRow_grown {n : Nat} : ∀ {t0 t : Table}, List.Forall₂ SameType t0 t → (∀ c ∈ t, n < c.cells.len) →
    appendRow (List.zipWith (grown n) t0 t) (t.map (cellWord n)) = (List.zipWith (grown (n + 1)) t0 t, none)
  | _, _, .nil, _ => rfl
  | _, _, .cons (a := a) (b := c) hs h, hn => by
    rw [List.zipWith_cons_cons, List.map_cons, appendRow, appendVal_grown hs (hn c (by simp))]
    dsimp only
    rw [appendRow_grown h (fun d hd => hn d (by simp [hd]))]
    rfl

theorem prefix_append_ne {p w r : Text} {c : Char} (hp : c ∉ p) (h : p <+: w ++ c :: r) : p <+: w := by
  rcases Nat.lt_or_ge w.length p.length with hl | hl
  · exfalso
    obtain ⟨x, hx⟩ := h
    have h1 : (p ++ x)[w.length]? = some c := by rw [hx]; simp
    rw [List.getElem?_append_left hl] at h1
    exact hp (List.mem_of_getElem? h1)
  · exact List.prefix_of_prefix_length_le h (List.prefix_append _ _) hl

theorem isSeparator_iff (l : Text) : isSeparator l = true ↔ "----".toList <+: l := List.isPrefixOf_iff_prefix

theorem spaces_no_dash {n : Nat} {r : Text} (h : 1 ≤ n) : ¬ "----".toList <+: List.replicate n ' ' ++ r := by
  obtain ⟨m, rfl⟩ : ∃ m, n = m + 1 := ⟨n - 1, by omega⟩
  rw [List.replicate_succ]
  simp

theorem bodyLine_no_sep {ws : Char → Bool} {t : Table} (hr : Readable ws t) {i : Nat} (hg : ∀ c ∈ t, GoodCell ws i c) :
    isSeparator (bodyLine t i) = false := by
  rw [← Bool.not_eq_true, isSeparator_iff]
  cases t with
  | nil => exact absurd rfl hr.columns
  | cons c t =>
    unfold bodyLine
    rw [List.map_cons, List.flatten_cons, bodyCell_eq, List.append_assoc, List.append_assoc]
    have hc := hg c (by simp)
    have hf := (hr.first c rfl).2
    cases hcc : c.cells with
    | string l =>
      have ht := trail_string hc hcc
      obtain ⟨m, hm⟩ : ∃ m, trail i c = m + 1 := ⟨trail i c - 1, by omega⟩
      have hl : lead i c = 0 := by simp [lead, hcc]
      rw [hl, hm, List.replicate_succ]
      simp only [List.replicate_zero, List.nil_append, List.append_assoc, List.cons_append]
      intro h
      have h1 := hc.1
      rw [hcc] at h1
      refine hf l hcc _ (getD_mem h1 []) ?_
      have h2 := prefix_append_ne (by decide) h
      simpa [cellWord, hcc] using h2
    | count l =>
      rcases Nat.eq_zero_or_pos (lead i c) with h0 | h0
      · rw [h0]
        simp only [List.replicate_zero, List.nil_append, cellWord, hcc]
        simp only [List.append_assoc]
        exact showInt_dashes _ _
      · exact spaces_no_dash h0
    | other l =>
      rcases Nat.eq_zero_or_pos (lead i c) with h0 | h0
      · rw [h0]
        simp only [List.replicate_zero, List.nil_append, cellWord, hcc]
        simp only [List.append_assoc]
        exact showFixed_dashes _ _
      · exact spaces_no_dash h0

/-- The lines of the body are read. -/
theorem readLines_body {ws : Char → Bool} (hw : Blanks ws) {t0 t : Table} (hs : List.Forall₂ SameType t0 t)
    (hr : Readable ws t) {n : Nat} (hn : ∀ c ∈ t, c.cells.len = n) (rest : List Text) : ∀ (k j : Nat), j + k = n →
    readLines ws ((List.range' j k).map (bodyLine t) ++ rest) 1 (List.zipWith (grown j) t0 t) =
      readLines ws rest 1 (List.zipWith (grown n) t0 t)
  | 0, j, h => by obtain rfl : j = n := by omega
                  rfl
  | k + 1, j, h => by
    have hg : ∀ c ∈ t, GoodCell ws j c := fun c hc => ⟨by rw [hn c hc]; omega, hr.words c hc⟩
    rw [List.range'_succ, List.map_cons, List.cons_append, readLines]
    have hwords := bodyLine_words hw j t hr.apart hg
    have hne : strip ws (bodyLine t j) ≠ [] := by
      intro hc
      rw [← splitWs_strip, hc] at hwords
      have hx := congrArg List.length hwords
      have := List.length_pos_iff.2 hr.columns
      simp [splitWs] at hx
      omega
    rw [if_neg hne, if_neg (by rw [bodyLine_no_sep hr hg]; simp), if_pos rfl, splitWs_strip, hwords,
      appendRow_grown hs (fun c hc => (hg c hc).1)]
    exact readLines_body hw hs hr hn rest k (j + 1) (by omega)

theorem grown_zero : ∀ {t0 t : Table}, List.Forall₂ SameType t0 t → List.zipWith (grown 0) t0 t = t0
  | _, _, .nil => rfl
  | _, _, .cons (a := a) (b := c) hs h => by
    rw [List.zipWith_cons_cons, grown_zero h]
    congr 1
    unfold grown
    unfold SameType at hs
    cases ha : a.cells <;> cases hc : c.cells <;> rw [ha, hc] at hs <;> try exact absurd hs not_false
    all_goals
      cases a
      simp_all [addCells, taken]

theorem rowCount_eq {t : Table} (hne : t ≠ []) {n : Nat} (hn : ∀ c ∈ t, c.cells.len = n) : rowCount t = n := by
  induction t with
  | nil => exact absurd rfl hne
  | cons c t ih =>
    cases t with
    | nil => exact hn c (by simp)
    | cons d t =>
      rw [rowCount, hn c (by simp), ih (by simp) (fun x hx => hn x (by simp [hx]))]
      · simp
      · simp

theorem width_ge (c : Column) : 2 ≤ width c := by
  unfold width; split <;> omega

theorem foldr_max_le {l : List Nat} {k : Nat} (h : ¬ ∃ x ∈ l, k ≤ x) (hk : 0 < k) : l.foldr max 0 < k := by
  induction l with
  | nil => exact hk
  | cons y l ih =>
    have h1 := ih (fun ⟨x, hx, hx'⟩ => h ⟨x, by simp [hx], hx'⟩)
    have h2 : ¬ k ≤ y := fun hx => h ⟨y, by simp, hx⟩
    simp only [List.foldr_cons]
    omega

theorem totWidth_ge {ws : Char → Bool} {t : Table} (hr : Readable ws t) : 4 ≤ totWidth t := by
  cases t with
  | nil => exact absurd rfl hr.columns
  | cons c t =>
    unfold totWidth
    rw [List.map_cons, List.sum_cons]
    have h1 := width_ge c
    cases t with
    | cons d t =>
      have h2 := width_ge d
      rw [List.map_cons, List.sum_cons]
      omega
    | nil =>
      have hw := hr.wide
      simp only [List.map_nil, List.sum_nil, Nat.add_zero]
      cases hc : c.cells with
      | count l => simp [width, hc]
      | other l => simp [width, hc]
      | string l =>
        by_contra hcon
        refine hw ⟨c, l, rfl, hc, ?_, ?_⟩
        · have := (width_string hc).1; omega
        · intro s hs; have := (width_string hc).2 s hs; omega

theorem rule_sep {ws : Char → Bool} {t : Table} (hr : Readable ws t) : isSeparator (rule t) = true := by
  rw [isSeparator_iff]
  obtain ⟨m, hm⟩ : ∃ m, totWidth t = m + 4 := ⟨totWidth t - 4, by have := totWidth_ge hr; omega⟩
  unfold rule
  rw [hm]
  exact ⟨List.replicate m '-' ++ ['\n'], by simp [List.replicate_succ]⟩

theorem dashes_not_blank {ws : Char → Bool} (hw : Blanks ws) {l : Text} (h : isSeparator l = true) : strip ws l ≠ [] := by
  intro hc
  rw [strip_nil] at hc
  obtain ⟨r, rfl⟩ := (isSeparator_iff l).1 h
  have := hc '-' (by simp)
  rw [hw.dash] at this
  simp at this

/-- The head of the table. -/
def head (t : Table) : Text := (t.map headCell).flatten

theorem head_no_sep {ws : Char → Bool} {t : Table} (hr : Readable ws t) : isSeparator (head t ++ ['\n']) = false := by
  rw [← Bool.not_eq_true, isSeparator_iff]
  unfold head
  cases t with
  | nil => exact absurd rfl hr.columns
  | cons c t =>
    rw [List.map_cons, List.flatten_cons]
    have hf := (hr.first c rfl).1
    have hlong : ∀ r, 8 ≤ c.label.length → ¬ "----".toList <+: c.label ++ r := by
      intro r hl h
      exact hf (List.prefix_of_prefix_length_le h (List.prefix_append _ _) (by simp; omega))
    have hnum : ∀ r, ¬ "----".toList <+: rjust 8 c.label ++ r := by
      intro r
      unfold rjust
      rw [List.append_assoc]
      rcases Nat.eq_zero_or_pos (8 - c.label.length) with h0 | h0
      · rw [h0]; exact hlong r (by omega)
      · exact spaces_no_dash h0
    cases hc : c.cells with
    | count l =>
      simp only [headCell, width, hc, List.append_assoc]
      exact hnum _
    | other l =>
      simp only [headCell, width, hc, List.append_assoc]
      exact hnum _
    | string l =>
      have := (width_string hc).1
      obtain ⟨m, hm⟩ : ∃ m, width c - c.label.length = m + 1 := ⟨width c - c.label.length - 1, by omega⟩
      simp only [headCell, hc, ljust, hm, List.replicate_succ, List.append_assoc, List.cons_append]
      intro h
      exact hf (prefix_append_ne (by decide) h)

/-- The written text up to the second separator. -/
def upper (t : Table) : Text := head t ++ '\n' :: rule t ++ ((List.range (rowCount t)).map (bodyLine t)).flatten

theorem write_eq (b : Bool) (t : Table) : ∃ r, write b t = upper t ++ (rule t ++ r) ∧
    r = (t.map overallCell).flatten ++ "\n\n\n".toList ++ (if b then "\n\n".toList ++ writeLegenda t else []) := by
  refine ⟨_, ?_, rfl⟩
  unfold write upper head
  simp only [List.append_assoc]

theorem head_newline {ws : Char → Bool} (hw : Blanks ws) {t : Table} (hl : ∀ c ∈ t, ∀ x ∈ c.label, ws x = false) :
    '\n' ∉ head t := by
  unfold head
  intro h
  obtain ⟨s, hs, hx⟩ := List.mem_flatten.1 h
  obtain ⟨c, hc, rfl⟩ := List.mem_map.1 hs
  have hlab : '\n' ∉ c.label := by
    intro h; have := hl c hc _ h; rw [hw.newline] at this; simp at this
  have hsp : ∀ n, '\n' ∉ List.replicate n ' ' := by intro n h; have := List.eq_of_mem_replicate h; simp at this
  unfold headCell at hx
  split at hx
  · rcases List.mem_append.1 hx with hx | hx
    · exact hlab hx
    · exact hsp _ hx
  · rcases List.mem_append.1 hx with hx | hx
    · exact hsp _ hx
    · exact hlab hx

theorem bodyCells_newline {ws : Char → Bool} (hw : Blanks ws) {t : Table} {i : Nat} (hg : ∀ c ∈ t, GoodCell ws i c) :
    '\n' ∉ (t.map fun c => bodyCell c i).flatten := by
  intro h
  obtain ⟨s, hs, hx⟩ := List.mem_flatten.1 h
  obtain ⟨c, hc, rfl⟩ := List.mem_map.1 hs
  have hsp : ∀ n, '\n' ∉ List.replicate n ' ' := by intro n h; have := List.eq_of_mem_replicate h; simp at this
  rw [bodyCell_eq] at hx
  rcases List.mem_append.1 hx with hx | hx
  · exact hsp _ hx
  · rcases List.mem_append.1 hx with hx | hx
    · have := (cellWord_good hw (hg c hc)).2 _ hx
      rw [hw.newline] at this; simp at this
    · exact hsp _ hx

theorem fileLines_rows {ws : Char → Bool} (hw : Blanks ws) {t : Table} (l : List Nat) (hg : ∀ i ∈ l, ∀ c ∈ t, GoodCell ws i c)
    (x : Text) : fileLines ((l.map (bodyLine t)).flatten ++ x) = l.map (bodyLine t) ++ fileLines x := by
  induction l with
  | nil => rfl
  | cons i l ih =>
    rw [List.map_cons, List.flatten_cons, List.append_assoc]
    conv_lhs => rw [bodyLine, List.append_assoc, List.singleton_append]
    rw [fileLines_line (bodyCells_newline hw (hg i (by simp))), ih (fun j hj => hg j (by simp [hj]))]
    rfl

theorem fileLines_rule (t : Table) (x : Text) : fileLines (rule t ++ x) = rule t :: fileLines x := by
  unfold rule
  rw [List.append_assoc, List.singleton_append, fileLines_line]
  intro h
  have := List.eq_of_mem_replicate h
  simp at this

theorem fileLines_upper {ws : Char → Bool} (hw : Blanks ws) {t : Table} (hr : Readable ws t) (x : Text) :
    fileLines (upper t ++ x) =
      (head t ++ ['\n']) :: rule t :: ((List.range (rowCount t)).map (bodyLine t) ++ fileLines x) := by
  obtain ⟨n, hn⟩ := hr.rows
  unfold upper
  rw [List.append_assoc, List.append_assoc, List.cons_append, fileLines_line (head_newline hw hr.labels), fileLines_rule,
    fileLines_rows hw]
  intro i hi c hc
  rw [rowCount_eq hr.columns hn, List.mem_range] at hi
  exact ⟨by rw [hn c hc]; exact hi, hr.words c hc⟩

/-- Reading a text that begins like the written one and has a second separator. -/
theorem read_upper {ws : Char → Bool} (hw : Blanks ws) {t0 t : Table} (hs : List.Forall₂ SameType t0 t)
    (hr : Readable ws t) {x : Text} (hx : "----".toList <+: x) :
    read ws (upper t ++ x) t0 = (List.zipWith (grown (rowCount t)) t0 t, none) := by
  obtain ⟨n, hn⟩ := hr.rows
  have hrow := rowCount_eq hr.columns hn
  unfold read
  rw [fileLines_upper hw hr, readLines]
  have hstep : readLines ws (rule t :: ((List.range (rowCount t)).map (bodyLine t) ++ fileLines x)) 0 t0 =
      (List.zipWith (grown (rowCount t)) t0 t, none) := by
    rw [readLines, if_neg (dashes_not_blank hw (rule_sep hr)), if_pos (rule_sep hr), if_neg (by decide)]
    have := readLines_body hw hs hr hn (fileLines x) n 0 (by omega)
    rw [grown_zero hs, ← List.range_eq_range'] at this
    rw [hrow, this]
    have hsep := (fileLines_prefix x "----".toList (by decide)).1 hx
    cases h : fileLines x with
    | nil => rw [h] at hsep; simp at hsep
    | cons l ls =>
      rw [h] at hsep
      have hl : isSeparator l = true := (isSeparator_iff l).2 hsep
      rw [readLines, if_neg (dashes_not_blank hw hl), if_pos hl, if_pos rfl]
  split
  · exact hstep
  · rw [if_neg (by rw [head_no_sep hr]; simp), if_neg (by decide)]
    exact hstep

theorem readLines_seps {ws : Char → Bool} (ls : List Text) : ∀ (s : Nat) (t : Table), s ≤ 1 →
    (readLines ws ls s t).2 = none → 2 ≤ s + ls.countP isSeparator := by
  induction ls with
  | nil => intro s t _ h; simp [readLines] at h
  | cons l ls ih =>
    intro s t hs h
    rw [readLines] at h
    rw [List.countP_cons]
    split at h
    · have := ih s t hs h; omega
    · split at h
      · rename_i hl
        rw [if_pos hl]
        split at h
        · omega
        · have := ih (s + 1) t (by omega) h; omega
      · split at h
        · split at h
          · simp at h
          · have := ih s _ hs h; omega
        · have := ih s t hs h; omega

/-- Before the second separator there is one separator. -/
theorem upper_seps {ws : Char → Bool} (hw : Blanks ws) {t : Table} (hr : Readable ws t) :
    seps true (upper t ++ "---".toList) ≤ 1 := by
  obtain ⟨n, hn⟩ := hr.rows
  rw [(seps_count _).1, fileLines_upper hw hr, List.countP_cons, List.countP_cons, List.countP_append, head_no_sep hr,
    rule_sep hr]
  have h1 : ((List.range (rowCount t)).map (bodyLine t)).countP isSeparator = 0 := by
    rw [List.countP_eq_zero]
    intro l hl
    obtain ⟨i, hi, rfl⟩ := List.mem_map.1 hl
    rw [rowCount_eq hr.columns hn, List.mem_range] at hi
    rw [bodyLine_no_sep hr (fun c hc => ⟨by rw [hn c hc]; exact hi, hr.words c hc⟩)]
    simp
  have h2 : (fileLines "---".toList).countP isSeparator = 0 := by decide
  rw [h1, h2]
  simp

end Verif.StatsTable
