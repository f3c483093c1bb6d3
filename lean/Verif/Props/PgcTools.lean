import Verif.Lemmas.PgcTools
import Verif.Props.Corpus

/-! Properties C50 (bin/pgc_split.py, bin/pgc_join.py) and C56 (bin/pgc_chdir.py). -/
namespace Verif.Props.PgcTools
open Verif Verif.Corpus Verif.Etree Verif.PgcTools

/-! ### C50: splitting and joining -/

/-- The size of the parts: the one asked for, or the quotient plus one. -/
def Size (n : Nat) (parts : Int) (size : Option Int) (s : Nat) : Prop :=
  (size = some (s : Int) ∧ 0 < s) ∨ ((size = none ∨ size = some 0) ∧ ∃ p : Nat, 0 < p ∧ parts = p ∧ s = n / p + 1)

/-- A number written with at least four digits, the leading ones 0 if needed. -/
def FourDigits (n : Nat) (t : List Char) : Prop :=
  (∀ c ∈ t, c.isDigit) ∧ Nat.ofDigitChars 10 t 0 = n ∧ 4 ≤ t.length ∧ (4 < t.length → t.head? ≠ some '0')

private theorem toDigits_head (n : Nat) : n ≠ 0 → (Nat.toDigits 10 n).head? ≠ some '0' := by
  induction n using Nat.strong_induction_on with
  | _ n ih =>
    intro hn
    rw [Nat.toDigits_eq_if (by decide)]
    split
    · rename_i h
      have : ∀ m < 10, m ≠ 0 → [Nat.digitChar m].head? ≠ some '0' := by decide
      exact this n h hn
    · rename_i h
      rw [List.head?_append_of_ne_nil _ Nat.toDigits_ne_nil]
      exact ih (n / 10) (by omega) (by omega)

private theorem pad4_spec (n : Nat) : FourDigits n (pad4 n) := by
  refine ⟨?_, pad4_value n, ?_, ?_⟩
  · intro c hc
    unfold pad4 at hc
    rcases List.mem_append.1 hc with h | h
    · rw [List.eq_of_mem_replicate h]; decide
    · exact Nat.isDigit_of_mem_toDigits (by decide) (by decide) h
  · unfold pad4
    rw [List.length_append, List.length_replicate]
    omega
  · unfold pad4
    intro h
    rw [List.length_append, List.length_replicate] at h
    have h0 : 4 - (Nat.toDigits 10 n).length = 0 := by omega
    have hne : n ≠ 0 := by
      rintro rfl
      simp at h
    rw [h0]
    simp only [List.replicate_zero, List.nil_append]
    exact toDigits_head n hne

/-- C50.  The parts together are the corpus, in order; all but the last have the given size, the last has at least one
graph pair and at most that size, and the parts have distinct file names, built from the positions of their first and
last pairs (counted from 1). -/
theorem split_covers (root ext : List Char) (l : List Nat) (parts : Int) (size : Option Int) (s : Nat)
    (hs : Size l.length parts size s) :
    ∃ ps, split root ext l parts size = .ok ps ∧ (ps.map Prod.snd).flatten = l ∧
      (∀ k (h : k < ps.length), 0 < ps[k].2.length ∧ ps[k].2.length ≤ s ∧
        (k + 1 < ps.length → ps[k].2.length = s) ∧
        ∃ a b, FourDigits (k * s + 1) a ∧ FourDigits (k * s + ps[k].2.length) b ∧
          ps[k].1 = root ++ "_".toList ++ a ++ "-".toList ++ b ++ ext) ∧
      (ps.map Prod.fst).Nodup := by
  have hpos : 0 < s := by rcases hs with ⟨_, h⟩ | ⟨_, p, _, _, h⟩; exacts [h, h ▸ Nat.succ_pos _]
  have hsz : partSize l.length parts size = .ok (s : Int) := by
    unfold partSize
    rcases hs with ⟨h, _⟩ | ⟨h, p, hp, rfl, rfl⟩
    · rw [if_neg (by rw [h]; simp; omega), h]; rfl
    · rw [if_pos h, if_neg (by omega)]
      have : (l.length : Int).fdiv (p : Int) = ((l.length / p : Nat) : Int) := by
        rw [Int.fdiv_eq_ediv_of_nonneg _ (by omega)]; simp
      rw [pyRound_half, this, if_pos (Int.natCast_nonneg _)]
      simp
  unfold split
  rw [hsz]
  dsimp only
  have hneg : ¬ ((s : Int) < 0) := by omega
  unfold rangeStep
  rw [if_neg hneg]
  simp only [Int.toNat_natCast]
  obtain ⟨K, hKd⟩ : ∃ K, K = (l.length + s - 1) / s := ⟨_, rfl⟩
  rw [← hKd]
  have hK1 : l.length ≤ K * s := by
    have := Nat.lt_div_mul_add (a := l.length + s - 1) hpos
    rw [← hKd] at this
    omega
  have hK2 : ∀ k < K, k * s < l.length := by
    intro k hk
    have h1 : (k + 1) * s ≤ l.length + s - 1 := by
      rw [← Nat.le_div_iff_mul_le hpos, ← hKd]; omega
    have h2 : (k + 1) * s = k * s + s := by ring
    omega
  refine ⟨_, rfl, ?_, ?_, ?_⟩
  · simp only [List.map_map, Function.comp_def]
    exact chunks s hpos K l hK1 (by
      rcases Nat.eq_zero_or_pos K with h | h
      · exact Or.inr h
      · exact Or.inl (hK2 (K - 1) (by omega)))
  · intro k h
    have hk : k < K := by simpa using h
    have h1 := hK2 k hk
    simp only [List.getElem_map, List.getElem_range, sliceList, List.length_drop, List.length_take, min_assoc,
      min_self]
    refine ⟨by omega, by omega, ?_, ?_⟩
    · intro h2
      have hk' : k + 1 < K := by simpa using h2
      have h3 := hK2 (k + 1) hk'
      have h4 : (k + 1) * s = k * s + s := by ring
      omega
    · refine ⟨_, _, pad4_spec _, pad4_spec _, ?_⟩
      have : min (k * s + s) l.length = k * s + (min (k * s + s) l.length - k * s) := by omega
      rw [← this]
      simp [partName]
  · simp only [List.map_map, Function.comp_def]
    refine List.Nodup.map_on ?_ List.nodup_range
    intro x _ y _ h
    have := (partName_inj h).1
    exact Nat.eq_of_mul_eq_mul_right hpos this

/-- C50.  Without a size there are at most as many parts as asked for; one too few graph pairs may cost many parts. -/
theorem split_count (root ext : List Char) (l : List Nat) (p : Nat) (hp : 0 < p) :
    ∃ ps, split root ext l p none = .ok ps ∧ ps.length ≤ p ∧ (l.length < p → ps.length = l.length) ∧
      (l.length = p → ps.length = (p + 1) / 2) := by
  obtain ⟨ps, h, hcat, hk, hn⟩ := split_covers root ext l p none (l.length / p + 1) (Or.inr ⟨Or.inl rfl, p, hp, rfl, rfl⟩)
  refine ⟨ps, h, ?_, ?_, ?_⟩
  all_goals
    have hlen : ps.length = (l.length + (l.length / p + 1) - 1) / (l.length / p + 1) := by
      have hsz : partSize l.length p none = .ok ((l.length / p + 1 : Nat) : Int) := by
        unfold partSize
        rw [if_pos (Or.inl rfl), if_neg (by omega)]
        have : (l.length : Int).fdiv (p : Int) = ((l.length / p : Nat) : Int) := by
          rw [Int.fdiv_eq_ediv_of_nonneg _ (by omega)]; simp
        rw [pyRound_half, this, if_pos (Int.natCast_nonneg _)]
        simp
      unfold split at h
      rw [hsz] at h
      unfold rangeStep at h
      dsimp only at h
      rw [if_neg (by exact not_lt.2 (Int.natCast_nonneg _))] at h
      simp only [Int.toNat_natCast, Except.ok.injEq] at h
      rw [← h]; simp
  · rw [hlen]
    have h1 := Nat.lt_mul_div_succ l.length hp
    generalize l.length / p = q at *
    rw [← Nat.lt_succ_iff, Nat.div_lt_iff_lt_mul (by omega)]
    have : p.succ * (q + 1) = p * (q + 1) + (q + 1) := by rw [Nat.succ_eq_add_one]; ring
    omega
  · intro hlt
    rw [hlen, Nat.div_eq_of_lt hlt]
    simp
  · intro heq
    rw [hlen, heq, Nat.div_self hp]
    rfl

/-- C50.  No parts: ZeroDivisionError; a negative number of parts or a negative size: nothing is written and the
program reports success. -/
theorem split_nothing (root ext : List Char) (l : List Nat) :
    split root ext l 0 none = .error .zeroDivision ∧
    (∀ parts size, size < 0 → split root ext l parts (some size) = .ok []) ∧
    (∀ parts, parts < 0 → split root ext l parts none = .ok []) := by
  refine ⟨rfl, ?_, ?_⟩
  · intro parts size h
    unfold split partSize
    rw [if_neg (by simp; omega)]
    simp [rangeStep, h]
  · intro parts h
    unfold split partSize
    rw [if_pos (Or.inl rfl), if_neg (by omega), pyRound_half]
    rcases Nat.eq_zero_or_pos l.length with h0 | h0
    · simp [h0, rangeStep]
    · have hq : (l.length : Int).fdiv parts < 0 := by
        rw [← Int.neg_fdiv_neg]
        exact Int.fdiv_neg_of_neg_of_pos (by omega) (by omega)
      rw [if_neg (by omega)]
      simp [rangeStep, hq]

/-- C50.  Joining appends the graph pairs in order to the first corpus, whose relations and metadata are kept;
it needs at least one corpus (IndexError) and the same relations in all of them (ValueError). -/
theorem join_concat (w : World) :
    join w [] = .error .indexError ∧
    ∀ (c : Corpus) (cs : List Corpus),
      ((∀ d ∈ cs, w.rels d.rel = w.rels c.rel) →
        join w (c :: cs) = .ok { c with pairs := c.pairs ++ (cs.map Corpus.pairs).flatten }) ∧
      ((∃ d ∈ cs, w.rels d.rel ≠ w.rels c.rel) → join w (c :: cs) = .error .valueError) := by
  refine ⟨rfl, ?_⟩
  intro c cs
  induction cs generalizing c with
  | nil => simp [join, Py.forIn]
  | cons d cs ih =>
    unfold join at ih ⊢
    unfold Py.forIn iadd checkCompat
    by_cases h : w.rels c.rel = w.rels d.rel
    · dsimp only
      rw [if_neg (by simpa using h)]
      dsimp only
      unfold iadd checkCompat at ih
      dsimp only at ih
      obtain ⟨ih1, ih2⟩ := ih { c with pairs := c.pairs ++ d.pairs }
      constructor
      · intro ha
        rw [ih1 fun x hx => ha x (by simp [hx])]
        simp
      · rintro ⟨x, hx, hne⟩
        rcases List.mem_cons.1 hx with rfl | hx
        · exact absurd h.symm hne
        · exact ih2 ⟨x, hx, hne⟩
    · dsimp only
      rw [if_pos h]
      constructor
      · intro ha; exact absurd (ha d (by simp)).symm h
      · intro _; rfl

/-- C50.  Joining the parts of a split gives the graph pairs of the corpus again, in order (the parts are read back with
the relations of the corpus). -/
theorem join_split (root ext : List Char) (w : World) (c : Corpus) (parts : Int) (size : Option Int) (s : Nat)
    (hs : Size c.pairs.length parts size s) (hne : c.pairs ≠ []) (ps : List (List Char × List Nat))
    (h : split root ext c.pairs parts size = .ok ps) (cs : List Corpus)
    (hcs : List.Forall₂ (fun p d => d.pairs = p.2 ∧ w.rels d.rel = w.rels c.rel) ps cs) :
    ∃ d, join w cs = .ok d ∧ d.pairs = c.pairs ∧ w.rels d.rel = w.rels c.rel := by
  obtain ⟨ps', h', hcat, -, -⟩ := split_covers root ext c.pairs parts size s hs
  rw [h, Except.ok.injEq] at h'
  subst h'
  have hmap : cs.map Corpus.pairs = ps.map Prod.snd := by
    clear h hcat
    induction hcs with
    | nil => rfl
    | cons h _ ih => simp [h.1, ih]
  have hrel : ∀ d ∈ cs, w.rels d.rel = w.rels c.rel := by
    clear h hcat hmap
    induction hcs with
    | nil => simp
    | cons h _ ih => intro d hd; rcases List.mem_cons.1 hd with rfl | hd; exacts [h.2, ih d hd]
  cases cs with
  | nil => simp at hmap; rw [hmap] at hcat; simp at hcat; exact absurd hcat hne
  | cons d cs =>
    refine ⟨_, ((join_concat w).2 d cs).1 fun x hx => ?_, ?_, hrel d (by simp)⟩
    · rw [hrel x (by simp [hx]), hrel d (by simp)]
    · rw [← hcat, ← hmap]; simp

/-- C50.  Joining corpora with the same relations whose graphbanks can be compared gives their graph pairs in order,
with equal graphbanks shared; graphs, alignments and metadata of the pairs stay as they are. -/
theorem join_purge (stat : String → Option Nat) (w : World) (c : Corpus) (cs : List Corpus)
    (hrel : ∀ d ∈ cs, w.rels d.rel = w.rels c.rel)
    (hcmp : Props.Corpus.Comparable stat w (c.pairs ++ (cs.map Corpus.pairs).flatten)) :
    ∃ w' d, joinPurge stat w (c :: cs) = .ok (w', d) ∧ d.pairs = c.pairs ++ (cs.map Corpus.pairs).flatten ∧
      d.rel = c.rel ∧ d.meta = c.meta ∧
      (∀ a b, Props.Corpus.Uses w' d.pairs a → Props.Corpus.Uses w' d.pairs b →
        Spec.SameFile stat (w.path a) (w.path b) → a = b) ∧
      (∀ p ∈ d.pairs, Spec.SameFile stat (w.path (w.gp p).source) (w'.path (w'.gp p).source) ∧
        Spec.SameFile stat (w.path (w.gp p).target) (w'.path (w'.gp p).target) ∧
        (w'.gp p).sourceId = (w.gp p).sourceId ∧ (w'.gp p).targetId = (w.gp p).targetId ∧
        (w'.gp p).meta = (w.gp p).meta ∧ (w'.gp p).align = (w.gp p).align) := by
  obtain ⟨w', h1, h2, -, h3, -, h4, h5, -⟩ := Props.Corpus.purge_shares stat w
    { c with pairs := c.pairs ++ (cs.map Corpus.pairs).flatten } hcmp
  refine ⟨w', { c with pairs := c.pairs ++ (cs.map Corpus.pairs).flatten }, ?_, rfl, rfl, rfl, h3, fun p hp => ?_⟩
  · unfold joinPurge
    rw [((join_concat w).2 c cs).1 hrel]
    dsimp only
    rw [h1]
  · rw [h2]
    exact ⟨(h4 p hp).1, (h4 p hp).2, h5 p⟩

/-- The first corpora of two files with the same source bank: it is shared in the result. -/
example : (joinPurge (fun s => some (if s = "/a" then 1 else 2)) Props.Corpus.sample [⟨[0], 0, none⟩, ⟨[1], 0, none⟩]).map
    (fun r => (r.2.pairs, (r.1.gp 0).source, (r.1.gp 1).source)) = .ok ([0, 1], 10, 10) := by decide +kernel

example : split ['c'] [] [7, 8, 9, 6, 5] 2 none =
    .ok [("c_0001-0003".toList, [7, 8, 9]), ("c_0004-0005".toList, [6, 5])] := by decide +kernel

/-- Four graph pairs in four parts make two. -/
example : (split [] [] [7, 8, 9, 6] 4 none).map List.length = .ok 2 := by decide +kernel

/-! ### C56: changing directories -/

/-- C56.  Exactly the paths that start with the first prefix change, and they change exactly in that prefix. -/
theorem chdir_exact (fr dst : Text) (files : List Text) :
    ∃ out : List Text, chdir fr dst (files.map some) = .ok (out.map some) ∧
      List.Forall₂ (fun p q => (∀ rest, p = fr ++ rest → q = dst ++ rest) ∧ ((¬ ∃ rest, p = fr ++ rest) → q = p))
        files out := by
  unfold chdir
  induction files with
  | nil => exact ⟨[], rfl, .nil⟩
  | cons p files ih =>
    obtain ⟨out, h1, h2⟩ := ih
    by_cases hp : fr.isPrefixOf p
    · have hp' : fr <+: p := List.isPrefixOf_iff_prefix.1 hp
      obtain ⟨rest, rfl⟩ := hp'
      refine ⟨(dst ++ rest) :: out, ?_, .cons ⟨?_, ?_⟩ h2⟩
      · simp only [List.map_cons, List.mapM_cons, h1, chdirPath, hp, if_true, bind, Except.bind, pure, Except.pure]
        simp
      · intro r hr; rw [List.append_cancel_left hr]
      · intro hno; exact absurd ⟨rest, rfl⟩ hno
    · refine ⟨p :: out, ?_, .cons ⟨?_, fun _ => rfl⟩ h2⟩
      · simp only [List.map_cons, List.mapM_cons, h1, chdirPath, hp, bind, Except.bind, pure, Except.pure]
        simp
      · intro r hr
        exact absurd (List.isPrefixOf_iff_prefix.2 ⟨r, hr.symm⟩) hp

/-- C56.  Exchanging the prefixes undoes the change exactly when no untouched path starts with the second prefix
(or the prefixes are the same). -/
theorem chdir_undo (fr dst : Text) (files : List Text) :
    (∃ out, chdir fr dst (files.map some) = .ok out ∧ chdir dst fr out = .ok (files.map some)) ↔
      (fr = dst ∨ ∀ p ∈ files, dst <+: p → fr <+: p) := by
  obtain ⟨out, h1, h2⟩ := chdir_exact fr dst files
  obtain ⟨back, h3, h4⟩ := chdir_exact dst fr out
  rw [h1]
  simp only [Except.ok.injEq, exists_eq_left', h3]
  have hinj : back.map some = files.map some ↔ back = files :=
    ⟨fun h => List.map_injective_iff.2 (Option.some_injective _) h, fun h => by rw [h]⟩
  rw [hinj]
  clear h1 h3 hinj
  induction h2 generalizing back with
  | nil => cases h4; simp
  | @cons p q files out hpq hrest ih =>
    cases h4 with
    | @cons _ r _ back hqr hb =>
      simp only [List.cons.injEq, ih back hb, List.mem_cons, forall_eq_or_imp]
      by_cases hp : ∃ rest, p = fr ++ rest
      · obtain ⟨rest, rfl⟩ := hp
        have hq := hpq.1 rest rfl
        have hr := hqr.1 rest hq
        simp [hr]
      · have hq := hpq.2 hp
        subst hq
        by_cases hd : ∃ rest, q = dst ++ rest
        · obtain ⟨rest, rfl⟩ := hd
          have hr := hqr.1 rest rfl
          subst hr
          have h5 : ¬ fr <+: dst ++ rest := by
            rintro ⟨x, hx⟩; exact hp ⟨x, hx.symm⟩
          simp only [List.append_cancel_right_eq]
          constructor
          · rintro ⟨h, _⟩; exact Or.inl h
          · rintro (h | ⟨h, _⟩)
            · exact ⟨h, Or.inl h⟩
            · exact absurd (h ⟨rest, rfl⟩) h5
        · have hr := hqr.2 hd
          subst hr
          simp only [true_and]
          have h5 : ¬ dst <+: r := by
            rintro ⟨x, hx⟩; exact hd ⟨x, hx.symm⟩
          simp [h5]

/-- C56.  An empty <file> element raises AttributeError. -/
theorem chdir_empty (fr dst : Text) (files : List (Option Text)) (h : none ∈ files) :
    chdir fr dst files = .error .attributeError := by
  unfold chdir
  induction files with
  | nil => simp at h
  | cons p files ih =>
    cases p with
    | none => simp only [List.mapM_cons, chdirPath, bind, Except.bind]
    | some p =>
      have hx : ∃ q, chdirPath fr dst (some p) = .ok q := by
        unfold chdirPath; dsimp only; split <;> exact ⟨_, rfl⟩
      obtain ⟨q, hq⟩ := hx
      simp only [List.mapM_cons, hq, ih (by simpa using h), bind, Except.bind]

/-- The prefix need not end at a separator. -/
example : chdir "/a/b".toList "/x".toList [some "/a/bc/f".toList, some "/c".toList] =
    .ok [some "/xc/f".toList, some "/c".toList] := by decide +kernel

end Verif.Props.PgcTools
