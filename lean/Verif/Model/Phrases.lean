import Verif.Model.GraphPair
import Verif.Model.DaesoGraph

/-! Model of bin/pgc_extract_phrases.py:41-65, 90-93 (aligned phrases of parallel graph corpora, as lines of columns).
Strings are sequences of characters, before `encode("utf-8")`. -/
namespace Verif.Phrases
open Verif Verif.DaesoGraph

abbrev Text := List Char

/-- What is used of a graph pair: its graphs with their ids, the paths of its graph banks and its alignments. -/
structure Pair where
  source : DG String
  target : DG String
  sourceId : Option Text
  targetId : Option Text
  sourceBank : Option Text
  targetBank : Option Text
  align : Graph.G String String

/-- daesograph.py:132-137 `get_node_token_string`: None for a node, or a node's tokens, that do not exist (KeyError) and
for tokens that are None (TypeError); the characters of a string are taken for tokens. -/
def tokenString (g : DG String) (n : String) : Option Text :=
  match nodeTokens g n with
  | .error _ => none
  | .ok .none => none
  | .ok (.str s) => some (getNodeTokenString (s.toList.map fun c => [c]))
  | .ok (.toks l) => some (getNodeTokenString (l.map String.toList))

/-- `delimiter.join(columns)` of strings. -/
def joinWith (d : Text) : List Text → Text
  | [] => []
  | [t] => t
  | t :: ts => t ++ (d ++ joinWith d ts)

/-- pgc_extract_phrases.py:65 `delimiter.join(columns).encode("utf-8")`: TypeError for a column that is None.  The delimiter
is a byte string, decoded as ASCII for `join` or `encode`; if it is not ASCII and a column is None, the code may raise
either exception, the model TypeError. -/
def line (d : Text) (columns : List (Option Text)) : Py Text :=
  if columns.all Option.isSome then
    if d.all fun c => c.toNat < 128 then .ok (joinWith d (columns.map fun c => c.getD []))
    else .error .unicodeError
  else .error .typeError

/-- pgc_extract_phrases.py:48-63. -/
def columns (verbose : Bool) (p : Pair) (x : (String × String) × String) : List (Option Text) :=
  let cs := [tokenString p.source x.1.1, some x.2.toList, tokenString p.target x.1.2]
  if verbose then
    [p.sourceBank, p.targetBank, p.sourceId, p.targetId, some x.1.1.toList, some x.1.2.toList] ++ cs
  else cs

/-- One thing after another: what is printed, and the exception that ends it. -/
def andThen (a b : Text × Option Err) : Text × Option Err :=
  match a.2 with
  | some e => (a.1, some e)
  | none => (a.1 ++ b.1, b.2)

/-- pgc_extract_phrases.py:47-65: the alignments of a graph pair. -/
def printAll (d : Text) (verbose : Bool) (p : Pair) : List ((String × String) × String) → Text × Option Err
  | [] => ([], none)
  | x :: l => match line d (columns verbose p x) with
    | .error e => ([], some e)
    | .ok t => andThen (t ++ ['\n'], none) (printAll d verbose p l)

/-- pgc_extract_phrases.py:44-65: one graph pair. -/
def extractPair (d : Text) (verbose : Bool) (p : Pair) : Text × Option Err :=
  match GraphPair.alignments p.align none with
  | .error e => ([], some e)
  | .ok l => printAll d verbose p l

/-- pgc_extract_phrases.py:44-65: the graph pairs of a corpus. -/
def extractPairs (d : Text) (verbose : Bool) : List Pair → Text × Option Err
  | [] => ([], none)
  | p :: ps => andThen (extractPair d verbose p) (extractPairs d verbose ps)

/-- pgc_extract_phrases.py:41-65 `extract_phrases`, given the outcome of reading the corpus. -/
def extract (d : Text) (verbose : Bool) : Py (List Pair) → Text × Option Err
  | .error e => ([], some e)
  | .ok ps => extractPairs d verbose ps

/-- pgc_extract_phrases.py:92-93: the files in turn. -/
def main (d : Text) (verbose : Bool) : List (Py (List Pair)) → Text × Option Err
  | [] => ([], none)
  | f :: fs => andThen (extract d verbose f) (main d verbose fs)

end Verif.Phrases
