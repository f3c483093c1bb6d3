import Verif.Lemmas.StatsTableInit

/-! Property C65 (lib/daeso/stats/table.py). -/
namespace Verif.Props.StatsTable
open Verif Verif.Etree Verif.DaesoGraph Verif.StatsTable Verif.Spec.StatsTable

private theorem rounded_map (l : List ℚ) : List.Forall₂ Rounded l (l.map readBack) := by
  induction l with
  | nil => exact .nil
  | cons q l ih => exact .cons (readBack_rounded q) ih

private theorem joined_grown {n : Nat} : ∀ {t0 t : Table}, List.Forall₂ SameType t0 t → (∀ c ∈ t, c.cells.len = n) →
    Joined t0 t (List.zipWith (grown n) t0 t)
  | _, _, .nil, _ => trivial
  | _, _, .cons (a := a) (b := c) hs h, hn => by
    rw [List.zipWith_cons_cons]
    refine ⟨⟨rfl, rfl, rfl, ?_⟩, joined_grown h fun d hd => hn d (by simp [hd])⟩
    have hc := hn c (by simp)
    unfold SameType at hs
    unfold grown
    cases ha : a.cells <;> cases hcc : c.cells <;> rw [ha, hcc] at hs <;> try exact absurd hs not_false
    all_goals
      rw [hcc] at hc
      simp only [Cells.len] at hc
      subst hc
      simp only [addCells, taken, Added, List.take_length]
    exact ⟨_, rfl, rounded_map _⟩

/-- C65.  A table that is written and read again, with or without the legenda, adds its values to the table that reads it:
text and counts exactly, other numbers rounded to two decimals. -/
theorem write_read {ws : Char → Bool} (hw : Blanks ws) (t0 t : Table) (hr : Readable ws t)
    (hs : List.Forall₂ SameType t0 t) (legenda : Bool) :
    ∃ t1, read ws (write legenda t) t0 = (t1, none) ∧ Joined t0 t t1 := by
  obtain ⟨r, h1, -⟩ := write_eq legenda t
  obtain ⟨n, hn⟩ := hr.rows
  have hx : "----".toList <+: rule t ++ r := ((isSeparator_iff _).1 (rule_sep hr)).trans (List.prefix_append _ _)
  refine ⟨_, by rw [h1]; exact read_upper hw hs hr hx, ?_⟩
  rw [rowCount_eq hr.columns hn]
  exact joined_grown hs hn

/-- C65.  A file that was cut off anywhere is either read completely or raises an exception: no truncated table is taken
for a whole one. -/
theorem truncated {ws : Char → Bool} (hw : Blanks ws) (t0 t : Table) (hr : Readable ws t)
    (hs : List.Forall₂ SameType t0 t) (legenda : Bool) (p : Text) (hp : p <+: write legenda t)
    (hok : (read ws p t0).2 = none) : read ws p t0 = read ws (write legenda t) t0 := by
  obtain ⟨r, h1, -⟩ := write_eq legenda t
  have hx : "----".toList <+: rule t ++ r := ((isSeparator_iff _).1 (rule_sep hr)).trans (List.prefix_append _ _)
  have hfull := read_upper hw hs hr hx
  rw [h1] at hp ⊢
  rw [hfull]
  rcases Nat.lt_or_ge p.length ((upper t).length + 4) with hl | hl
  · exfalso
    have hp' : p <+: upper t ++ "---".toList := by
      obtain ⟨y, hy⟩ := hx
      rw [← hy] at hp
      refine List.prefix_of_prefix_length_le hp ⟨'-' :: y, ?_⟩ (by simp; omega)
      simp
    have h2 := readLines_seps _ 0 t0 (by decide) hok
    rw [← (seps_count p).1] at h2
    have h3 := seps_prefix true _ _ hp'
    have h4 := upper_seps hw hr
    omega
  · obtain ⟨y, rfl⟩ := List.prefix_of_prefix_length_le (List.prefix_append _ _) hp (by omega)
    refine read_upper hw hs hr ?_
    rw [List.prefix_append_right_inj] at hp
    refine List.prefix_of_prefix_length_le hx hp ?_
    simp at hl ⊢
    omega

/-- All numbers have two decimals. -/
def Decimals (t : Table) : Prop := ∀ c ∈ t, ∀ l, c.cells = .other l → ∀ q ∈ l, ∃ k : ℤ, q = k / 100

private theorem rounded_exact {q q' : ℚ} (h : Rounded q q') (hq : ∃ k : ℤ, q = k / 100) : q' = q := by
  obtain ⟨k, rfl⟩ := hq
  obtain ⟨m, rfl, h1, -⟩ := h
  have h2 := abs_le.1 h1
  have h3 : ((k - m : ℤ) : ℚ) < 1 := by push_cast; linarith [h2.2]
  have h4 : (-1 : ℚ) < ((k - m : ℤ) : ℚ) := by push_cast; linarith [h2.1]
  have h5 : k - m < 1 := by exact_mod_cast h3
  have h6 : -1 < k - m := by exact_mod_cast h4
  have : k = m := by omega
  rw [this]

/-- The columns without their values. -/
def emptied (t : Table) : Table := t.map fun c => { c with cells := match c.cells with
  | .string _ => .string []
  | .count _ => .count []
  | .other _ => .other [] }

private theorem emptied_same : ∀ t : Table, List.Forall₂ SameType (emptied t) t
  | [] => .nil
  | ⟨_, _, x, _⟩ :: t => .cons (by unfold SameType; cases x <;> trivial) (emptied_same t)

private theorem joined_emptied : ∀ {t t1 : Table}, Decimals t → Joined (emptied t) t t1 → t1 = t
  | [], [], _, _ => rfl
  | [], _ :: _, _, h => absurd h not_false
  | _ :: _, [], _, h => absurd h not_false
  | c :: t, d :: t1, hd, h => by
    obtain ⟨⟨h1, h2, h3, h4⟩, h5⟩ := h
    rw [joined_emptied (fun x hx => hd x (by simp [hx])) h5]
    congr 1
    have hcells : d.cells = c.cells := by
      cases hc : c.cells <;> cases hdc : d.cells <;> simp only [hc, hdc, Added] at h4
      · simpa using h4
      · simpa using h4
      · rename_i l m
        obtain ⟨b, hb, hb'⟩ := h4
        rw [List.nil_append] at hb
        subst hb
        congr 1
        have hl := hd c (by simp) l hc
        clear hc hdc h5 hd h3 h2 h1
        induction hb' with
        | nil => rfl
        | cons hq _ ih => rw [rounded_exact hq (hl _ (by simp)), ih fun x hx => hl x (by simp [hx])]
    cases c; cases d
    simp only at h1 h2 h3 hcells
    subst h1 h2 h3 hcells
    rfl

/-- C65.  A table whose numbers have two decimals, like every table that was read from a file, is read back exactly into
the same columns without values. -/
theorem write_read_exact {ws : Char → Bool} (hw : Blanks ws) (t : Table) (hr : Readable ws t) (hd : Decimals t)
    (legenda : Bool) : read ws (write legenda t) (emptied t) = (t, none) := by
  obtain ⟨t1, h1, h2⟩ := write_read hw _ t hr (emptied_same t) legenda
  rw [h1, joined_emptied hd h2]

private theorem rowCount_min : ∀ t : Table, (∀ c ∈ t, rowCount t ≤ c.cells.len) ∧
    (t ≠ [] → ∃ c ∈ t, rowCount t = c.cells.len)
  | [] => ⟨fun c hc => absurd hc (by simp), fun h => absurd rfl h⟩
  | [c] => ⟨fun d hd => by simp at hd; subst hd; exact Nat.le_refl _, fun _ => ⟨c, by simp, rfl⟩⟩
  | c :: d :: t => by
    obtain ⟨h1, h2⟩ := rowCount_min (d :: t)
    have he : rowCount (c :: d :: t) = min c.cells.len (rowCount (d :: t)) := rfl
    constructor
    · intro x hx
      rw [List.mem_cons] at hx
      rcases hx with rfl | hx
      · omega
      · have := h1 x hx; omega
    · intro _
      obtain ⟨x, hx, hxe⟩ := h2 (by simp)
      rcases Nat.le_total c.cells.len (rowCount (d :: t)) with h | h
      · exact ⟨c, by simp, by omega⟩
      · exact ⟨x, by rw [List.mem_cons]; exact Or.inr hx, by omega⟩

/-- C65.  Between the two separators there is one line for each row, and there are as many rows as the shortest column
has values: longer columns lose their last values. -/
theorem rows_written (legenda : Bool) (t : Table) : ∃ (first separator rest : Text) (body : List Text),
    write legenda t = first ++ '\n' :: separator ++ body.flatten ++ separator ++ rest ∧
    (∀ l ∈ body, ∃ x, l = x ++ ['\n'] ) ∧ (∀ c ∈ separator, c = '-' ∨ c = '\n') ∧
    (∀ c ∈ t, body.length ≤ c.cells.len) ∧ (t ≠ [] → ∃ c ∈ t, body.length = c.cells.len) := by
  refine ⟨(t.map headCell).flatten, rule t, (t.map overallCell).flatten ++ "\n\n\n".toList ++
    (if legenda then "\n\n".toList ++ writeLegenda t else []), (List.range (rowCount t)).map (bodyLine t), ?_, ?_, ?_, ?_⟩
  · unfold write
    simp only [List.append_assoc, List.cons_append]
  · intro l hl
    rw [List.mem_map] at hl
    obtain ⟨i, _, rfl⟩ := hl
    exact ⟨_, rfl⟩
  · intro c hc
    unfold rule at hc
    rw [List.mem_append] at hc
    rcases hc with hc | hc
    · exact .inl (List.eq_of_mem_replicate hc)
    · exact .inr (by simpa using hc)
  · simpa using rowCount_min t

example : rowCount [⟨['a'], [], .count [1, 2, 3], none⟩, ⟨['b'], [], .count [4, 5], none⟩] = 2 := by decide

private theorem parseInt_errors (s : Text) : (∃ n, parseInt s = .ok n) ∨ parseInt s = .error .valueError := by
  unfold parseInt
  dsimp only
  split
  · exact Or.inl ⟨_, rfl⟩
  · exact Or.inr rfl

private theorem parseFloat_errors (s : Text) : (∃ q, parseFloat s = .ok q) ∨ parseFloat s = .error .valueError := by
  unfold parseFloat
  dsimp only
  split
  · exact Or.inl ⟨_, rfl⟩
  · exact Or.inr rfl

private theorem appendRow_errors : ∀ (t : Table) (vs : List Text),
    (appendRow t vs).2 = none ∨ (appendRow t vs).2 = some .valueError
  | [], _ => Or.inl (by simp [appendRow])
  | _ :: _, [] => Or.inl (by simp [appendRow])
  | c :: cs, v :: vs => by
    have hx : ∀ e, appendVal v c.cells = .error e → e = .valueError := by
      intro e
      unfold appendVal
      split
      · simp
      · rcases parseInt_errors v with ⟨n, h⟩ | h <;> rw [h] <;> simp
        intro h; exact h.symm
      · rcases parseFloat_errors v with ⟨n, h⟩ | h <;> rw [h] <;> simp
        intro h; exact h.symm
    rw [appendRow]
    cases h : appendVal v c.cells with
    | error e => exact Or.inr (by rw [hx e h])
    | ok x => exact appendRow_errors cs vs

/-- C65.  Reading any text raises nothing but EOFError and ValueError. -/
theorem read_errors (ws : Char → Bool) (file : Text) (t : Table) :
    (read ws file t).2 = none ∨ (read ws file t).2 = some .eofError ∨ (read ws file t).2 = some .valueError := by
  unfold Verif.StatsTable.read
  generalize 0 = s
  generalize fileLines file = ls
  induction ls generalizing s t with
  | nil => exact Or.inr (Or.inl rfl)
  | cons l ls ih =>
    rw [readLines]
    split
    · exact ih _ _
    · split
      · split
        · exact Or.inl rfl
        · exact ih _ _
      · split
        · split
          · rename_i t' e h
            have := appendRow_errors t (splitWs ws (strip ws l))
            rw [h] at this
            rcases this with h | h
            · simp at h
            · exact Or.inr (Or.inr h)
          · exact ih _ _
        · exact ih _ _

/-! ### What is written -/

private theorem showInt_toString (n : Int) : showInt n = (toString n).toList := by
  unfold showInt
  cases n with
  | ofNat m =>
    rw [if_neg (by simp)]
    show _ = (toString m).toList
    rw [Nat.toString_eq_ofList_toDigits]
    simp
  | negSucc m =>
    rw [if_pos (Int.negSucc_lt_zero m)]
    show _ = ("-" ++ toString (m + 1)).toList
    rw [Nat.toString_eq_ofList_toDigits, String.toList_append]
    simp

/-- The words in the line of overall values. -/
def OverallWord (c : Column) (w : Text) : Prop := ∃ q, c.overall = some q ∧ match c.cells with
  | .count _ => ∀ k : Int, q = k → w = (toString k).toList
  | _ => ∃ q', parseFloat w = .ok q' ∧ Rounded q q'

/-- Overall values of columns with numbers, at most seven characters wide. -/
def OverallsFit (t : Table) : Prop := ∀ c ∈ t, ∀ q, c.overall = some q → match c.cells with
  | .string _ => False
  | .count _ => ∃ k : Int, q = k ∧ -999999 ≤ k ∧ k ≤ 9999999
  | .other _ => -999995/1000 < q ∧ q < 9999995/1000

private theorem truncate_int (k : Int) : truncate (k : ℚ) = k := by
  unfold truncate; split <;> simp

private theorem overallCell_words {ws : Char → Bool} (hw : Blanks ws) {c : Column} {t : Table} {r : Text}
    (hf : OverallsFit (c :: t)) (hr : ∀ x, r.head? = some x → ws x = true) :
    (c.overall = none → splitWs ws (overallCell c ++ r) = splitWs ws r) ∧
    (c.overall ≠ none → ∃ w, OverallWord c w ∧ splitWs ws (overallCell c ++ r) = w :: splitWs ws r) ∧
    (∀ x, (overallCell c ++ r).head? = some x → ws x = true) := by
  cases ho : c.overall with
  | none =>
    have e : overallCell c = List.replicate (width c) ' ' := by unfold overallCell; rw [ho]
    rw [e]
    refine ⟨fun _ => splitWs_skips (spaces_ws hw _) r, fun h => absurd rfl h, fun x hx => ?_⟩
    obtain ⟨m, hm⟩ : ∃ m, width c = m + 1 := ⟨width c - 1, by have := width_ge c; omega⟩
    rw [hm, List.replicate_succ] at hx
    simp at hx; subst hx; exact hw.space
  | some q =>
    have hq := hf c (by simp) q ho
    have key : ∃ w, w ≠ [] ∧ (∀ x ∈ w, ws x = false) ∧ w.length ≤ 7 ∧ overallCell c = rjust 8 w ∧ OverallWord c w := by
      unfold overallCell OverallWord
      rw [ho]
      cases hc : c.cells with
      | string l => rw [hc] at hq; exact absurd hq not_false
      | count l =>
        rw [hc] at hq
        obtain ⟨k, rfl, h1, h2⟩ := hq
        refine ⟨showInt k, showInt_ne _, showInt_ws hw _, showInt_length h1 h2, ?_, _, rfl, ?_⟩
        · simp [width, hc, truncate_int]
        · intro j hj
          have : k = j := by exact_mod_cast hj
          rw [← this]; exact showInt_toString k
      | other l =>
        rw [hc] at hq
        refine ⟨showFixed q, showFixed_ne _, showFixed_ws hw _, showFixed_length hq.1 hq.2, ?_, _, rfl, ?_⟩
        · simp [width, hc]
        · exact ⟨_, parseFloat_showFixed q, readBack_rounded q⟩
    obtain ⟨w, h1, h2, h3, h4, h5⟩ := key
    obtain ⟨m, hm⟩ : ∃ m, 8 - w.length = m + 1 := ⟨7 - w.length, by omega⟩
    rw [h4]
    unfold rjust
    refine ⟨fun h => by simp at h, fun _ => ⟨w, h5, ?_⟩, fun x hx => ?_⟩
    · rw [List.append_assoc, splitWs_skips (spaces_ws hw _), splitWs_next h1 h2 r hr]
    · rw [hm, List.replicate_succ] at hx
      simp at hx; subst hx; exact hw.space

/-- C65.  After the second separator follows the line of the overall values: one word for each column that has one, in
the order of the columns; then two empty lines and the legenda. -/
theorem overalls_written {ws : Char → Bool} (hw : Blanks ws) (t : Table) (hf : OverallsFit t) (legenda : Bool) :
    ∃ above line rest, write legenda t = above ++ rule t ++ line ++ "\n\n\n".toList ++ rest ∧
      List.Forall₂ OverallWord (t.filter fun c => c.overall.isSome) (splitWs ws (line ++ ['\n'])) := by
  refine ⟨upper t, (t.map overallCell).flatten, if legenda then "\n\n".toList ++ writeLegenda t else [], ?_, ?_⟩
  · obtain ⟨r, h1, rfl⟩ := write_eq legenda t
    rw [h1]; simp only [List.append_assoc]
  · have key : ∀ t, OverallsFit t → List.Forall₂ OverallWord (t.filter fun c => c.overall.isSome)
        (splitWs ws ((t.map overallCell).flatten ++ ['\n'])) ∧
        (∀ x, ((t.map overallCell).flatten ++ ['\n']).head? = some x → ws x = true) := by
      intro t
      induction t with
      | nil =>
        intro _
        rw [show (([] : Table).map overallCell).flatten ++ ['\n'] = ['\n'] from rfl,
          splitWs_blank (ws := ws) (by simp [hw.newline])]
        exact ⟨.nil, by simp [hw.newline]⟩
      | cons c t ih =>
        intro hf
        obtain ⟨h1, h2⟩ := ih fun d hd => hf d (by simp [hd])
        obtain ⟨g1, g2, g3⟩ := overallCell_words hw hf h2
        rw [List.map_cons, List.flatten_cons, List.append_assoc]
        refine ⟨?_, g3⟩
        cases ho : c.overall with
        | none => rw [g1 ho, List.filter_cons_of_neg (by simp [ho])]; exact h1
        | some q =>
          obtain ⟨w, hw1, hw2⟩ := g2 (by simp [ho])
          rw [hw2, List.filter_cons_of_pos (by simp [ho])]
          exact .cons hw1 h1
    exact (key t hf).1

/-- `s` and spaces up to width `w`. -/
def padded (w : Nat) (s : Text) : Text := s ++ List.replicate (w - s.length) ' '

/-- C65.  The legenda comes after two empty lines and has a line for each column: its number, label and description. -/
theorem legenda_written (t : Table) : ∃ lines : List Text,
    write true t = write false t ++ "\n\n".toList ++ lines.flatten ∧ lines.length = t.length ∧
    ∀ i c, t[i]? = some c →
      lines[i]? = some (padded 4 (toString (i + 1)).toList ++ padded 8 c.label ++ c.descr ++ "\n".toList) := by
  refine ⟨t.mapIdx legendaLine, by simp [write, writeLegenda], by simp, ?_⟩
  intro i c h
  rw [List.getElem?_mapIdx, h]
  simp only [Option.map_some, legendaLine]
  congr 1
  have : showInt ((i : Int) + 1) = (toString (i + 1)).toList := by
    rw [showInt_toString]; rfl
  rw [this]
  rfl

/-! ### Columns -/

private theorem setColumn_mem {t : Table} {c d : Column} (h : d ∈ setColumn t c) : d ∈ t ∨ d = c := by
  unfold setColumn at h
  split at h
  · obtain ⟨x, hx, rfl⟩ := List.mem_map.1 h
    split
    · exact Or.inr rfl
    · exact Or.inl hx
  · rcases List.mem_append.1 h with h | h
    · exact Or.inl h
    · exact Or.inr (by simpa using h)

/-- Columns as they are created: different labels that are words, `n` values each, no overall values. -/
structure Created (ws : Char → Bool) (n : Nat) (t : Table) : Prop where
  labels : (t.map Column.label).Nodup
  words : ∀ c ∈ t, c.label ≠ [] ∧ ∀ x ∈ c.label, ws x = false
  rows : ∀ c ∈ t, c.cells.len = n
  overalls : ∀ c ∈ t, c.overall = none

/-- C65.  Whatever the definition of the columns, a new table has different labels that are words, the same number of
values in every column, all 0 or empty, and no overall values. -/
theorem init_created (ws : Char → Bool) (columnsDef : Text) (n : Nat) (t : Table) (h : init ws columnsDef n = .ok t) :
    Created ws n t ∧ (isEmpty t = true ↔ t = [] ∨ n = 0) ∧
    ∀ c ∈ t, c.cells = .string (List.replicate n []) ∨ c.cells = .count (List.replicate n 0) ∨
      c.cells = .other (List.replicate n 0) := by
  have key : Created ws n t ∧ ∀ c ∈ t, c.cells = .string (List.replicate n []) ∨
      c.cells = .count (List.replicate n 0) ∨ c.cells = .other (List.replicate n 0) := by
    unfold init at h
    have hgen : ∀ (ls : List Text) (t0 t : Table), Py.forIn ls t0 (initStep ws n) = .ok t →
        (Created ws n t0 ∧ ∀ c ∈ t0, c.cells = .string (List.replicate n []) ∨
          c.cells = .count (List.replicate n 0) ∨ c.cells = .other (List.replicate n 0)) →
        (Created ws n t ∧ ∀ c ∈ t, c.cells = .string (List.replicate n []) ∨
          c.cells = .count (List.replicate n 0) ∨ c.cells = .other (List.replicate n 0)) := by
      intro ls
      induction ls with
      | nil => intro t0 t h hi; simp only [Py.forIn, Except.ok.injEq] at h; rwa [← h]
      | cons l ls ih =>
        intro t0 t h hi
        rw [Py.forIn] at h
        cases hs : initStep ws n l t0 with
        | error e => rw [hs] at h; simp at h
        | ok t1 =>
          rw [hs] at h
          refine ih t1 t h ?_
          unfold initStep at hs
          have hwords := splitWs_words ws (strip ws l)
          cases hsp : splitWs ws (strip ws l) with
          | nil => rw [hsp] at hs; simp only [Except.ok.injEq] at hs; rwa [← hs]
          | cons lab r =>
            cases r with
            | nil => rw [hsp] at hs; simp at hs
            | cons ty r =>
              rw [hsp] at hs hwords
              simp only [Except.ok.injEq] at hs
              have hcells : (Cells.grow n (Cells.ofType ty)) = .string (List.replicate n []) ∨
                  (Cells.grow n (Cells.ofType ty)) = .count (List.replicate n 0) ∨
                  (Cells.grow n (Cells.ofType ty)) = .other (List.replicate n 0) := by
                unfold Cells.ofType
                split
                · exact Or.inr (Or.inl rfl)
                · split
                  · exact Or.inl rfl
                  · exact Or.inr (Or.inr rfl)
              rw [← hs]
              refine ⟨⟨?_, ?_, ?_, ?_⟩, ?_⟩
              · rw [setColumn_labels]
                split
                · exact hi.1.labels
                · rename_i hnew
                  exact List.Nodup.append hi.1.labels (by simp) (by simpa using hnew)
              · intro c hc
                rcases setColumn_mem hc with hc | rfl
                · exact hi.1.words c hc
                · exact hwords lab (by simp)
              · intro c hc
                rcases setColumn_mem hc with hc | rfl
                · exact hi.1.rows c hc
                · dsimp only
                  rcases hcells with h | h | h <;> rw [h] <;> simp [Cells.len]
              · intro c hc
                rcases setColumn_mem hc with hc | rfl
                · exact hi.1.overalls c hc
                · rfl
              · intro c hc
                rcases setColumn_mem hc with hc | rfl
                · exact hi.2 c hc
                · exact hcells
    exact hgen _ _ _ h ⟨⟨by simp, by simp, by simp, by simp⟩, by simp⟩
  refine ⟨key.1, ?_, key.2⟩
  unfold Verif.StatsTable.isEmpty
  rw [List.all_eq_true]
  cases t with
  | nil => simp
  | cons c t =>
    constructor
    · intro h
      have h1 := h c (by simp)
      rw [key.1.rows c (by simp)] at h1
      exact Or.inr (by simpa using h1)
    · rintro (h | h)
      · simp at h
      · intro d hd
        rw [key.1.rows d hd, h]; simp

/-- C65.  A new table has the columns that the lines of the definition define: a line with a single word raises IndexError,
blank lines are skipped, a label that is defined again keeps its place and takes the new type and description. -/
theorem init_columns (ws : Char → Bool) (n : Nat) (ls : List Text) (hne : ls ≠ []) (hl : ∀ l ∈ ls, '\n' ∉ l) :
    (∃ r ∈ defined ws ls, r.length = 1) ∧ init ws (['\n'].intercalate ls) n = .error .indexError ∨
    (∀ r ∈ defined ws ls, 2 ≤ r.length) ∧
      ∃ t, init ws (['\n'].intercalate ls) n = .ok t ∧ Defines n (defined ws ls) t := by
  unfold Verif.StatsTable.init
  rw [splitLines_intercalate hne hl]
  exact init_run ws n ls

example : (init (fun c => c = ' ' || c = '\n') "\n FILE string name\n CN count\n\n FILE count of  files\n PN perc".toList 2).map
    (fun t => t.map fun c => (c.label, c.descr, c.cells)) =
    .ok [("FILE".toList, "of files".toList, .count [0, 0]), ("CN".toList, [], .count [0, 0]),
      ("PN".toList, [], .other [0, 0])] := by decide +kernel

/-- C65.  `grow` adds the same number of values to every column. -/
theorem grow_rows (n : Nat) (t : Table) : (grow n t).length = t.length ∧
    ∀ (i : Nat) (c : Column), t[i]? = some c → ∃ d, (grow n t)[i]? = some d ∧ d.cells.len = c.cells.len + n ∧
      d.label = c.label ∧ SameType d c := by
  refine ⟨by simp [grow], ?_⟩
  intro i c h
  refine ⟨{ c with cells := c.cells.grow n }, by simp [grow, h], ?_, rfl, ?_⟩
  · cases hc : c.cells <;> simp [Cells.grow, Cells.len]
  · unfold SameType
    cases hc : c.cells <;> simp [Cells.grow]

/-! ### Limits -/

/-- White space: space and line end. -/
def blanks (c : Char) : Bool := c = ' ' || c = '\n'

private theorem blanks_ok : Blanks blanks :=
  ⟨rfl, rfl, rfl, rfl, fun c h => by
    have h1 : c ≠ ' ' := by rintro rfl; simp at h
    have h2 : c ≠ '\n' := by rintro rfl; simp at h
    simp [blanks, h1, h2]⟩

/-- Three columns of two rows, with overall values. -/
def sample : Table :=
  [⟨"FILE".toList, [], .string ["a.xml".toList, "-.xml".toList], none⟩,
   ⟨"CN".toList, "count of nodes".toList, .count [12345678, -3], some 12345675⟩,
   ⟨"PN".toList, [], .other [12.5, -1/3], some (7/8)⟩]

example : Readable blanks sample where
  columns := by simp [sample]
  wide := by simp [sample]
  rows := ⟨2, by simp [sample, Cells.len]⟩
  labels := by simp [sample, blanks]
  words := by simp [sample, blanks]
  first := by simp [sample]
  apart := by
    simp only [sample, List.isChain_cons_cons, Apart, List.isChain_singleton, and_true, true_and]
    norm_num

example : write false sample =
    "FILE         CN      PN\n-----------------------\na.xml  12345678   12.50\n-.xml        -3   -0.33\n\
     -----------------------\n       12345675    0.88\n\n\n".toList := by decide +kernel

example : (read blanks (write true sample) (emptied sample)).1.map Column.cells =
    [.string ["a.xml".toList, "-.xml".toList], .count [12345678, -3], .other [12.5, -0.33]] := by decide +kernel

/-- C65, limits: not every table can be read back.  A number of eight digits after another number is read as part of it; so
is the text of a column after a column of numbers; an empty text shifts the values after it; a text that begins with four
dashes ends the table; and a table with one narrow column has separators that are too short. -/
theorem unreadable :
    (∃ t : Table, (read blanks (write false t) (emptied t)).2 = none ∧
      ((read blanks (write false t) (emptied t)).1).map Column.cells = [.count [112345678], .count []] ∧
      t.map Column.cells = [.count [1], .count [12345678]]) ∧
    (∃ t : Table, read blanks (write false t) (emptied t) = (emptied t, some .valueError) ∧
      t.map Column.cells = [.count [1], .string ["a".toList]]) ∧
    (∃ t : Table, (read blanks (write false t) (emptied t)).2 = none ∧
      ((read blanks (write false t) (emptied t)).1).map Column.cells = [.string ["5".toList], .count []] ∧
      t.map Column.cells = [.string [[]], .count [5]]) ∧
    (∃ t : Table, (read blanks (write false t) (emptied t)).2 = none ∧
      ((read blanks (write false t) (emptied t)).1).map Column.cells = [.string ["a".toList]] ∧
      t.map Column.cells = [.string ["a".toList, "----".toList, "b".toList]]) ∧
    (∃ t : Table, (read blanks (write false t) (emptied t)).2 = some .eofError ∧
      t.map Column.cells = [.string ["a".toList]]) := by
  refine ⟨⟨[⟨"A".toList, [], .count [1], none⟩, ⟨"B".toList, [], .count [12345678], none⟩], ?_⟩,
    ⟨[⟨"A".toList, [], .count [1], none⟩, ⟨"B".toList, [], .string ["a".toList], none⟩], ?_⟩,
    ⟨[⟨"A".toList, [], .string [[]], none⟩, ⟨"B".toList, [], .count [5], none⟩], ?_⟩,
    ⟨[⟨"A".toList, [], .string ["a".toList, "----".toList, "b".toList], none⟩], ?_⟩,
    ⟨[⟨"A".toList, [], .string ["a".toList], none⟩], ?_⟩⟩ <;> decide +kernel

end Verif.Props.StatsTable
