import Verif.Lemmas.Graphml

/-! C48: sparse parsing of a graph file gives the graphs of full parsing, for the ids asked for. -/
set_option linter.unusedSectionVars false
namespace Verif.Props.Graphml
open Verif Verif.Graphml Verif.Spec.Graphml

private theorem get?_none_map (ids : List String) (i : String) (h : i ∈ ids) :
    (AD.get? (ids.map fun i => (i, (none : Option Gr))) i) = some none := by
  induction ids with
  | nil => simp at h
  | cons x ids ih =>
    rw [List.map_cons, AD.get?_cons]
    by_cases hx : x = i
    · simp [hx]
    · rcases List.mem_cons.mp h with h | h
      · exact absurd h.symm hx
      · simp [hx, ih h]

private theorem flat_graphml {tag : String} {attrs : AD String String} {content : List Doc} {ws : Char → Bool}
    {b : AD String (Option Gr)} {s : St} (h : run ws false (.elem tag attrs content) { bank := b } = .ok s) :
    tag = "graphml" := by
  by_contra hne
  unfold run at h
  split at h
  · simp at h
  · next s1 h1 =>
    unfold startElement at h1
    dsimp only at h1
    rw [if_neg hne] at h1
    split at h1
    · unfold startKey at h1
      split at h1
      · simp at h1
      · simp at h1
    · split at h1
      · unfold startGraph at h1
        rw [if_pos (Or.inl rfl)] at h1
        split at h1
        · simp at h1
        · simp [setDefaults] at h1
      · simp [wanted] at h1

private theorem core (ws : Char → Bool) (d : Doc) (hd : Plain d) (ids : List String)
    {full : AD String (Option Gr)} (h : load ws d = .ok full) :
    ∃ S : St, run ws true d { bank := ids.map fun i => (i, none) } = .ok S ∧ S.bank.keys = ids ∧
      ∀ i ∈ ids, S.bank.get? i = some ((full.get? i).getD none) := by
  unfold load parseFile at h
  split at h
  · simp at h
  · next F hF =>
    rw [if_neg (by simp)] at h
    injection h with h
    subst h
    cases d with
    | text t => simp [run, charData, wanted] at hF
    | elem tag attrs content =>
      have ht := flat_graphml hF
      subst ht
      unfold run at hF ⊢
      have hst : ∀ (sp : Bool) (s : St), startElement ws sp "graphml" attrs s =
          .ok (startGraphml { s with ctx := "graphml" :: s.ctx, buf := [] }) := by
        intro sp s; unfold startElement; dsimp only; rw [if_pos rfl]
      rw [hst] at hF ⊢
      dsimp only at hF ⊢
      have ho : Out ids (startGraphml { bank := [], ctx := ["graphml"] })
          (startGraphml { bank := ids.map fun i => (i, none), ctx := ["graphml"] }) := by
        refine ⟨⟨rfl, rfl, rfl, rfl, rfl, ?_, ?_, ?_⟩, rfl, rfl⟩
        · intro k hk; simp [startGraphml] at hk
        · show AD.keys (ids.map fun i => (i, none)) = ids
          unfold AD.keys
          rw [List.map_map]
          simp [Function.comp_def]
        · intro i hi
          exact get?_none_map ids i hi
      split at hF
      · simp at hF
      · next F1 hF1 =>
        obtain ⟨S1, f1, h1⟩ := out_runAll content hd ho hF1
        obtain ⟨S2, f2, h2⟩ := out_end h1 (by decide) hF
        exact ⟨S2, by rw [f1]; exact f2, h2.shared.banks.1, h2.shared.banks.2⟩

private theorem none_entry {b : AD String (Option Gr)} (h : b.WF) :
    (b.any fun e => e.2.isNone) = true ↔ ∃ i, b.get? i = some none := by
  rw [List.any_eq_true]
  constructor
  · rintro ⟨⟨i, v⟩, hm, hv⟩
    cases v with
    | none => exact ⟨i, AD.get?_of_mem h hm⟩
    | some g => simp at hv
  · rintro ⟨i, hi⟩
    exact ⟨(i, none), AD.mem_of_get? hi, rfl⟩

/-- C48.  When the whole file parses, a sparse parse for ids that are all in the file yields exactly these ids, each with
the graph of the full parse. -/
theorem sparse_eq_full (ws : Char → Bool) (d : Doc) (hd : Plain d) (ids : List String) (hn : ids.Nodup)
    (full : AD String (Option Gr)) (h : load ws d = .ok full) (hall : ∀ i ∈ ids, ∃ g, full.get? i = some (some g)) :
    ∃ sp, loadSparse ws ids d = .ok sp ∧ sp.keys = ids ∧ ∀ i ∈ ids, sp.get? i = full.get? i := by
  obtain ⟨S, h1, h2, h3⟩ := core ws d hd ids h
  have hw : S.bank.WF := by unfold AD.WF; rw [h2]; exact hn
  have key : ∀ i ∈ ids, S.bank.get? i = full.get? i := by
    intro i hi
    obtain ⟨g, hg⟩ := hall i hi
    rw [h3 i hi, hg]; rfl
  refine ⟨S.bank, ?_, h2, key⟩
  unfold loadSparse parseFile
  rw [h1]
  dsimp only
  rw [if_neg]
  rintro ⟨-, hx⟩
  obtain ⟨i, hi⟩ := (none_entry hw).mp hx
  have hmem : i ∈ ids := by rw [← h2, AD.mem_keys_iff, hi]; rfl
  obtain ⟨g, hg⟩ := hall i hmem
  rw [key i hmem, hg] at hi
  simp at hi

/-- C48.  When an id is not in the file, the sparse parse raises DaesoError. -/
theorem sparse_missing (ws : Char → Bool) (d : Doc) (hd : Plain d) (ids : List String) (hn : ids.Nodup)
    (full : AD String (Option Gr)) (h : load ws d = .ok full) (i : String) (hi : i ∈ ids) (hm : full.get? i = none) :
    loadSparse ws ids d = .error .daesoError := by
  obtain ⟨S, h1, h2, h3⟩ := core ws d hd ids h
  have hw : S.bank.WF := by unfold AD.WF; rw [h2]; exact hn
  unfold loadSparse parseFile
  rw [h1]
  dsimp only
  rw [if_pos]
  refine ⟨rfl, (none_entry hw).mpr ⟨i, ?_⟩⟩
  rw [h3 i hi, hm]; rfl

/-- C48.  `parse_string` never succeeds with `sparse`: it always raises something. -/
theorem sparse_string (ws : Char → Bool) (b : AD String (Option Gr)) (d : Doc) :
    ∃ e, parseString ws true b d = .error e := by
  unfold parseString
  split
  · exact ⟨_, rfl⟩
  · exact ⟨.typeError, rfl⟩

/-! A small file: two graphs. -/

private def kTok (i f : String) : Doc := .elem "key" [("id", i), ("for", f), ("attr.name", "tokens")] []
private def kLab : Doc := .elem "key" [("id", "l"), ("attr.name", "label")] [.elem "default" [] [.text "XX".toList]]
private def dat (k v : String) : Doc := .elem "data" [("key", k)] [.text v.toList]
private def gr (i : String) : Doc := .elem "graph" [("id", i)]
  [dat "tg" "a b", .elem "node" [("id", "n0")] [dat "l" "np", dat "tn" "a b"], .elem "node" [("id", "n1")] [dat "l" "n", dat "tn" "b"],
   .elem "edge" [("source", "n0"), ("target", "n1")] [dat "l" "hd"]]
private def file : Doc := .elem "graphml" [] [kTok "tg" "graph", kTok "tn" "node", kLab, gr "g1", gr "g2"]
private def sp : Char → Bool := fun c => c == ' '
private def exp (i : String) : Gr :=
  { id := i, tokens := some ["a".toList, "b".toList],
    nodes := [(some "n0", [("label", .str "np".toList), ("tokens", .toks ["a".toList, "b".toList])]),
              (some "n1", [("label", .str "n".toList), ("tokens", .toks ["b".toList])])],
    edges := [(("n0", "n1"), [("label", .str "hd".toList)])] }

example : Plain file := by simp [Plain, file, Flat, FlatAll, InGraph, InGraphAll, kTok, kLab, dat, gr]
example : load sp file = .ok [("g1", some (exp "g1")), ("g2", some (exp "g2"))] := by decide +kernel
example : loadSparse sp ["g2"] file = .ok [("g2", some (exp "g2"))] := by decide +kernel
example : loadSparse sp ["g2", "g7"] file = .error .daesoError := by decide +kernel

/-- A graph inside a graph: the sparse parse differs, because an unwanted inner graph does not replace the outer one. -/
private def nested : Doc := .elem "graphml" [] [kTok "tg" "graph",
  .elem "graph" [("id", "o")] [dat "tg" "a", .elem "graph" [("id", "i")] [dat "tg" "b"]]]
example : load sp nested = .ok [("o", some { id := "o", tokens := some ["a".toList] }),
    ("i", some { id := "i", tokens := some ["b".toList] })] := by decide +kernel
example : loadSparse sp ["o"] nested = .ok [("o", some { id := "o", tokens := some ["b".toList] })] := by decide +kernel

end Verif.Props.Graphml
