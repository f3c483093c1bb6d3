import Verif.Model.GraphPair
import Verif.Model.Etree
import Mathlib.Data.String.Basic

/-! Model of lib/daeso/pgc/corpus.py:55-715 (ParallelGraphCorpus), lib/daeso/pgc/graphpair.py:43-243 (equality of
graph pairs) and lib/daeso/gb/graphbank.py:74-98 (equality of graph banks).  Graph pairs, graph banks and lists of
relations are objects: addresses into heaps. -/
namespace Verif.Corpus
open Verif Verif.Etree

/-- A metadata element: the identity of the object and its content. -/
structure Meta where
  oid : Nat
  elem : Elem

/-- graphpair.py:53-78: a graph pair: addresses of its banks, ids of its graphs, metadata, alignments. -/
structure GP where
  source : Nat
  target : Nat
  sourceId : String
  targetId : String
  «meta» : Meta
  align : Graph.G String String

/-- The heaps: graph pairs, file paths of graph banks, lists of relations. -/
structure World where
  gp : Nat → GP
  path : Nat → String
  rels : Nat → List String
  nrels : Nat

/-- corpus.py:103-136: the list of graph pairs, the list of relations and the metadata. -/
structure Corpus where
  pairs : List Nat
  rel : Nat
  «meta» : Option Meta

/-! ### Equality -/

/-- graphbank.py:79-92 `GraphBank.__eq__`.  `stat` gives the identity of an existing file; `os.path.samefile` raises
OSError when a file is missing. -/
def bankEq (stat : String → Option Nat) (p q : String) : Py Bool :=
  if p = q then .ok true
  else match stat p, stat q with
    | some i, some j => .ok (decide (i = j))
    | _, _ => .error .osError

/-- graphpair.py:177-185 and corpus.py:675-683 `_meta_data_equal` for two elements. -/
def metaEq (ws : Char → Bool) (m n : Meta) : Py Bool :=
  if m.oid = n.oid then .ok true else equals ws m.elem n.elem

/-- `a and b`, lazily. -/
def andThen (a b : Py Bool) : Py Bool :=
  match a with
  | .error e => .error e
  | .ok false => .ok false
  | .ok true => b

/-- graphpair.py:81-106, 214-241 `GraphMapping.__eq__` for two graph pairs (addresses); None counts as false.
pair.py:42-45: banks are compared source with source, target with target. -/
def gpEq (stat : String → Option Nat) (ws : Char → Bool) (w : World) (a b : Nat) : Py Bool :=
  if a = b then .ok true
  else
    andThen (bankEq stat (w.path (w.gp a).source) (w.path (w.gp b).source)) <|
    andThen (bankEq stat (w.path (w.gp a).target) (w.path (w.gp b).target)) <|
    andThen (.ok (decide ((w.gp a).sourceId = (w.gp b).sourceId))) <|
    andThen (.ok (decide ((w.gp a).targetId = (w.gp b).targetId))) <|
    andThen (metaEq ws (w.gp a).meta (w.gp b).meta) <|
    GraphPair.alignmentsEqual (w.gp a).align (w.gp b).align

/-- `list.__eq__` of two lists of objects: lengths first, then items up to the first difference; identical objects
count as equal. -/
def listEq (eq : Nat → Nat → Py Bool) (l m : List Nat) : Py Bool :=
  if l.length ≠ m.length then .ok false else go l m
where
  go : List Nat → List Nat → Py Bool
    | x :: l, y :: m => andThen (if x = y then .ok true else eq x y) (go l m)
    | _, _ => .ok true

/-- corpus.py:675-683 `_meta_data_equal`: comparing an element with None raises AttributeError. -/
def corpusMetaEq (ws : Char → Bool) : Option Meta → Option Meta → Py Bool
  | none, none => .ok true
  | some m, some n => metaEq ws m n
  | _, _ => .error .attributeError

/-- corpus.py:199-222 `__eq__` for two corpora. -/
def corpusEq (stat : String → Option Nat) (ws : Char → Bool) (w : World) (c d : Corpus) : Py Bool :=
  andThen (.ok (decide (w.rels c.rel = w.rels d.rel))) <|
  andThen (corpusMetaEq ws c.meta d.meta) <|
  listEq (gpEq stat ws w) c.pairs d.pairs

/-! ### Relations -/

/-- corpus.py:431-433 `set_relations` with a list object: `relations or []`, sorted in place. -/
def setRelations (w : World) (a : Option Nat) : World × Nat :=
  match a with
  | some a => if w.rels a ≠ [] then
      ({ w with rels := fun x => if x = a then (w.rels a).mergeSort (fun s t => decide (s ≤ t)) else w.rels x }, a)
    else ({ w with rels := fun x => if x = w.nrels then [] else w.rels x, nrels := w.nrels + 1 }, w.nrels)
  | none => ({ w with rels := fun x => if x = w.nrels then [] else w.rels x, nrels := w.nrels + 1 }, w.nrels)

/-- corpus.py:103-136 `__init__` without file. -/
def mkCorpus (w : World) (pairs : List Nat) (rel : Option Nat) («meta» : Option Meta) : World × Corpus :=
  ((setRelations w rel).1, ⟨pairs, (setRelations w rel).2, «meta»⟩)

/-- corpus.py:686-701 `_check_compatibility`; `other` is None for an object that is not a corpus.
(The warning about metadata is not modelled.) -/
def checkCompat (w : World) (c : Corpus) (other : Option Corpus) : Py Corpus :=
  match other with
  | none => .error .typeError
  | some d => if w.rels c.rel ≠ w.rels d.rel then .error .valueError else .ok d

/-! ### Sequence operations; each returns the world as it is left -/

/-- corpus.py:139-151 `__add__`. -/
def add (w : World) (c : Corpus) (other : Option Corpus) : World × Py Corpus :=
  match checkCompat w c other with
  | .error e => (w, .error e)
  | .ok d => ((mkCorpus w (c.pairs ++ d.pairs) (some c.rel) c.meta).1,
      .ok (mkCorpus w (c.pairs ++ d.pairs) (some c.rel) c.meta).2)

/-- corpus.py:286-294 `__iadd__`; the corpus as it is left, and the exception. -/
def iadd (w : World) (c : Corpus) (other : Option Corpus) : Corpus × Option Err :=
  match checkCompat w c other with
  | .error e => (c, some e)
  | .ok d => ({ c with pairs := c.pairs ++ d.pairs }, none)

/-- Python 2 adds the length to a negative bound of a simple slice before it calls `__getslice__`, which takes
the maximum with 0 (corpus.py:274, 196, 415). -/
def bound (n : Nat) (i : Int) : Nat := (max 0 (if i < 0 then i + n else i)).toNat

/-- `list.__getitem__(slice(i, j))` for non-negative bounds. -/
def sliceList (l : List Nat) (i j : Nat) : List Nat := (l.take j).drop i

/-- corpus.py:253-274 `corpus[i:j]`; None for an omitted bound. -/
def getSlice (w : World) (c : Corpus) (i j : Option Int) : World × Corpus :=
  let n := c.pairs.length
  mkCorpus w (sliceList c.pairs (match i with | some i => bound n i | none => 0)
    (match j with | some j => bound n j | none => n)) (some c.rel) c.meta

/-- corpus.py:184-196 `del corpus[i:j]`. -/
def delSlice (c : Corpus) (i j : Int) : Corpus :=
  let n := c.pairs.length
  { c with pairs := c.pairs.take (bound n i) ++ c.pairs.drop (max (bound n i) (bound n j)) }

/-- corpus.py:380-415 `corpus[i:j] = other`. -/
def setSlice (w : World) (c : Corpus) (i j : Int) (other : Option Corpus) : Corpus × Option Err :=
  match checkCompat w c other with
  | .error e => (c, some e)
  | .ok d =>
    let n := c.pairs.length
    ({ c with pairs := c.pairs.take (bound n i) ++ d.pairs ++ c.pairs.drop (max (bound n i) (bound n j)) }, none)

/-- corpus.py:338-346 `corpus * n`. -/
def mul (w : World) (c : Corpus) (n : Int) : World × Corpus :=
  mkCorpus w (List.replicate n.toNat c.pairs).flatten (some c.rel) c.meta

/-- corpus.py:373-377 `n * corpus`: `self.__mul__()` lacks its argument. -/
def rmul (_w : World) (_c : Corpus) (_n : Int) : Py Corpus := .error .typeError

/-- corpus.py:349-353 `corpus != other`: `self.__eq__(self, other)` has one argument too many. -/
def ne (_w : World) (_c _d : Corpus) : Py Bool := .error .typeError

/-- corpus.py:436-447 `append`; `pair` is None for an object that is not a GraphPair. -/
def append (c : Corpus) (pair : Option Nat) : Corpus × Option Err :=
  match pair with
  | none => (c, some .typeError)
  | some p => ({ c with pairs := c.pairs ++ [p] }, none)

/-- corpus.py:501-512 `insert`, which takes no index: the name `i` is not defined. -/
def insert (c : Corpus) (pair : Option Nat) : Corpus × Option Err :=
  match pair with
  | none => (c, some .typeError)
  | some _ => (c, some .nameError)

/-- corpus.py:545-553 `pop`: the corpus as it is left and the result, an exception or None (there is no `return`).
`list.pop(self, None)` raises TypeError. -/
def pop (c : Corpus) (index : Option Int) : Corpus × Py (Option Nat) :=
  match index with
  | none => (c, .error .typeError)
  | some i =>
    let n : Int := c.pairs.length
    let k := if i < 0 then i + n else i
    if k < 0 ∨ n ≤ k then (c, .error .indexError)
    else ({ c with pairs := c.pairs.eraseIdx k.toNat }, .ok none)

/-! ### purge -/

/-- corpus.py:583-590: look for an equal bank among the known ones. -/
def findBank (eq : Nat → Nat → Py Bool) (old : Nat) : List Nat → Py (Option Nat)
  | [] => .ok none
  | new :: l => match eq old new with
    | .error e => .error e
    | .ok true => .ok (some new)
    | .ok false => findBank eq old l

/-- corpus.py:579-595: the bank that replaces `old`.  The dictionary is keyed by identity (banks have `__eq__` but no
`__hash__`); its values are searched in insertion order. -/
def newBank (eq : Nat → Nat → Py Bool) (table : AD Nat Nat) (old : Nat) : Py (AD Nat Nat × Nat) :=
  match table.get? old with
  | some new => .ok (table, new)
  | none => match findBank eq old (table.map Prod.snd) with
    | .error e => .error e
    | .ok (some new) => .ok (table.set old new, new)
    | .ok none => .ok (table.set old old, old)

/-- corpus.py:576-599: one graph pair. -/
def purgeStep (eq : Nat → Nat → Py Bool) (p : Nat) (s : AD Nat Nat × (Nat → GP)) : Py (AD Nat Nat × (Nat → GP)) :=
  match newBank eq s.1 (s.2 p).source with
  | .error e => .error e
  | .ok (t1, b1) => match newBank eq t1 (s.2 p).target with
    | .error e => .error e
    | .ok (t2, b2) => .ok (t2, fun x => if x = p then { s.2 p with source := b1, target := b2 } else s.2 x)

/-- corpus.py:556-599 `purge`; a graph pair without alignments counts as false. -/
def purge (stat : String → Option Nat) (w : World) (c : Corpus) (pair : Option Nat) : Py World :=
  let todo := match pair with
    | some p => if GraphPair.len (w.gp p).align ≠ 0 then [p] else c.pairs
    | none => c.pairs
  match Py.forIn todo ([], w.gp) (purgeStep fun a b => bankEq stat (w.path a) (w.path b)) with
  | .error e => .error e
  | .ok s => .ok { w with gp := s.2 }

end Verif.Corpus
