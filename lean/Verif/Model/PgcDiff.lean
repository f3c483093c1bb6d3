import Verif.Model.GraphPair
import Mathlib.Data.List.Sort

/-! Model of lib/daeso/pgc/diff.py:36-166 (pgc_diff without headers, comments and the texts of the nodes, so without the
encoding errors these can raise; what is printed of a node pair is its number, the nodes and the two relations). -/
namespace Verif.PgcDiff
open Verif

/-- What pgc_diff uses of two graph pairs: the alignments, the outcome of the two assertions (diff.py:67-68) and
`node_is_terminal` of the source and target graph of the first. -/
structure Both where
  first : Graph.G String String
  second : Graph.G String String
  same : Bool
  termS : String → Py Bool
  termT : String → Py Bool

abbrev Nodes := String × String

/-- diff.py:71-74. -/
structure Parts where
  ident : List Nodes
  relDiff : List Nodes
  uniq1 : List Nodes
  uniq2 : List Nodes

/-- A falsy relation: None or the empty string. -/
def falsy : Option String → Bool
  | none => true
  | some r => r = ""

/-- diff.py:78-91, one alignment of the first graph pair.  With `words_only`, `graphs.source.node_node_is_non_terminal`
does not exist. -/
def first (wordsOnly : Bool) (b : Both) (x : Nodes × String) (p : Parts) : Py Parts :=
  if wordsOnly then .error .attributeError
  else do
    let rel2 ← GraphPair.getAlign b.second x.1.1 x.1.2
    if falsy rel2 then return { p with uniq1 := p.uniq1 ++ [x.1] }
    else if rel2 = some x.2 then return { p with ident := p.ident ++ [x.1] }
    else return { p with relDiff := p.relDiff ++ [x.1] }

/-- diff.py:94-96: `words_only and (source is terminal or target is terminal)`. -/
def skip (wordsOnly : Bool) (b : Both) (n : Nodes) : Py Bool :=
  if wordsOnly then do
    if ← b.termS n.1 then return true else b.termT n.2
  else return false

/-- diff.py:93-100, one alignment of the second graph pair. -/
def second (wordsOnly : Bool) (b : Both) (x : Nodes × String) (p : Parts) : Py Parts := do
  if ← skip wordsOnly b x.1 then return p
  else
    let rel1 ← GraphPair.getAlign b.first x.1.1 x.1.2
    if falsy rel1 then return { p with uniq2 := p.uniq2 ++ [x.1] } else return p

/-- diff.py:71-100. -/
def parts (wordsOnly : Bool) (relations : List String) (b : Both) : Py Parts := do
  let l1 ← GraphPair.alignments b.first (some relations)
  let p ← Py.forIn l1 ⟨[], [], [], []⟩ (first wordsOnly b)
  let l2 ← GraphPair.alignments b.second (some relations)
  Py.forIn l2 p (second wordsOnly b)

/-- diff.py:133-134 with `list.sort`, which compares nothing for less than two elements.  `num` is `int` of a node. -/
def sortNodes (num : String → Option Int) (l : List Nodes) : Py (List Nodes) :=
  if l.length < 2 then .ok l
  else if l.all fun x => (num x.1).isSome then .ok (l.insertionSort fun a b => (num a.1).getD 0 ≤ (num b.1).getD 0)
  else .error .valueError

/-- The titles of the printed sections. -/
inductive Title where
  | identical | relationDifferent | only1 | only2
  deriving DecidableEq

/-- A printed node pair: its number, the nodes and their relations in both. -/
structure Entry where
  number : Nat
  nodes : Nodes
  rel1 : Option String
  rel2 : Option String

/-- diff.py:137-166 `print_alignments`: what is printed, and the new count. -/
def printAlignments (b : Both) (count : Nat) (l : List Nodes) : Py (Nat × List Entry) :=
  Py.forIn l (count, []) fun n s => do
    let rel1 ← GraphPair.getAlign b.first n.1 n.2
    let rel2 ← GraphPair.getAlign b.second n.1 n.2
    return (s.1 + 1, s.2 ++ [⟨s.1 + 1, n, rel1, rel2⟩])

/-- Sort and print one section; nothing is printed for an empty one. -/
def section' (num : String → Option Int) (b : Both) (t : Title) (l : List Nodes) (s : Nat × List (Title × List Entry)) :
    Py (Nat × List (Title × List Entry)) := do
  let l ← sortNodes num l
  let r ← printAlignments b s.1 l
  return (r.1, if l = [] then s.2 else s.2 ++ [(t, r.2)])

/-- diff.py:64-130, one graph pair. -/
def diffPair (num : String → Option Int) (wordsOnly showIdent : Bool) (relations : List String) (b : Both)
    (s : Nat × List (List (Title × List Entry))) : Py (Nat × List (List (Title × List Entry))) :=
  if b.same then do
    let p ← parts wordsOnly relations b
    let o ← (if showIdent then section' num b .identical p.ident (s.1, []) else pure (s.1, []))
    let o ← section' num b .relationDifferent p.relDiff o
    let o ← section' num b .only1 p.uniq1 o
    let o ← section' num b .only2 p.uniq2 o
    return (o.1, s.2 ++ [o.2])
  else .error .assertionError

/-- diff.py:50-51. -/
def compared (relations : Option (List String)) (relations1 : List String) : List String :=
  match relations with
  | none => relations1
  | some [] => relations1
  | some rs => rs

/-- diff.py:36-130 `pgc_diff`: the printed sections of each graph pair.  `relations1` are those of the first corpus. -/
def pgcDiff (num : String → Option Int) (wordsOnly showIdent : Bool) (relations : Option (List String))
    (relations1 : List String) (n1 n2 : Nat) (bs : List Both) : Py (List (List (Title × List Entry))) :=
  if n1 ≠ n2 then .error .assertionError
  else do
    let s ← Py.forIn bs (0, []) (diffPair num wordsOnly showIdent (compared relations relations1))
    return s.2

end Verif.PgcDiff
