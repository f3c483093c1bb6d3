import Verif.Py
import Verif.PyDict
import Verif.PyNum
import Verif.Model.DaesoGraph

/-! Model of lib/daeso/pgc/pgcstats.py:74-279, lib/daeso/gb/gbstats.py:69-257 and of the sums and percentages of
lib/daeso/stats/table.py:192-215.
A row of a table is a function from column labels to numbers; numbers are exact. -/
namespace Verif.Stats
open Verif

/-- What the statistics read of a graph: gbstats.py:136-183, 186-199; pgcstats.py:161, 279.  Nodes have tokens
(None and [] are both empty). -/
structure SG where
  failed : Bool
  root : Option String
  tokens : List String
  nodes : AD String (List String)

/-- The attributes that the statistics leave on graphs and nodes (pgcstats.py:193-194, 207-211, 250-254); a missing count
is 0, a missing "root_aligned" is True. -/
structure Attrs where
  gFrom : Nat → Nat
  gTo : Nat → Nat
  rootOk : Nat → Bool
  nFrom : Nat → String → Nat
  nTo : Nat → String → Nat

/-- Graphs as they are read from file. -/
def pristine : Attrs := ⟨fun _ => 0, fun _ => 0, fun _ => true, fun _ _ => 0, fun _ _ => 0⟩

/-- A graph pair: the addresses of its graphs and its alignments, in the order of `alignments_iter`. -/
structure SPair where
  source : Nat
  target : Nat
  align : List ((String × String) × String)

/-- The keywords of pgcstats.py:95-101. -/
structure Flags where
  withEmpty : Bool := false
  withFailed : Bool := false
  withPunc : Bool := false
  withUnalignedRoots : Bool := false
  threshold : Int := 0
  withUnalignedGraphs : Bool := false

/-- A row of counts (table.py:49-55, 74-83). -/
abbrev Row := String → Nat

/-- `table[col][i] += 1`. -/
def inc (r : Row) (col : String) : Row := fun k => if k = col then r k + 1 else r k

/-- daesograph.py:109-111 `node_is_empty`. -/
def nodeEmpty (g : SG) (n : String) : Py Bool := match g.nodes.get n with
  | .error e => .error e
  | .ok l => .ok (l = [])

/-- daesograph.py:114-121 `node_is_punct`. -/
def nodePunct (g : SG) (n : String) : Py Bool := match g.nodes.get n with
  | .error e => .error e
  | .ok l => .ok (l ≠ [] ∧ l.all DaesoGraph.inPunct)

/-- `a or b`, lazily. -/
def orElse (a b : Py Bool) : Py Bool := match a with
  | .error e => .error e
  | .ok true => .ok true
  | .ok false => b

/-- pgcstats.py:223-231: is the alignment passed over? -/
def skipAlign (fl : Flags) (s t : SG) (a : String × String) : Py Bool :=
  orElse (if fl.withEmpty then .ok false else orElse (nodeEmpty s a.1) (nodeEmpty t a.2))
    (if fl.withPunc then .ok false else orElse (nodePunct s a.1) (nodePunct t a.2))

/-- pgcstats.py:236-247: the column of a relation. -/
def relColumn (r : String) : Py String :=
  if r = "equals" then .ok "CEQ"
  else if r = "restates" then .ok "CRE"
  else if r = "specifies" then .ok "CSPEC"
  else if r = "generalizes" then .ok "CGEN"
  else if r = "intersects" then .ok "CINT"
  else .error .assertionError

/-- pgcstats.py:250-254: count the alignment on both nodes. -/
def markNodes (gs gt : Nat) (a : String × String) (at' : Attrs) : Attrs :=
  { at' with
    nFrom := fun g n => if g = gs ∧ n = a.1 then at'.nFrom g n + 1 else at'.nFrom g n,
    nTo := fun g n => if g = gt ∧ n = a.2 then at'.nTo g n + 1 else at'.nTo g n }

/-- pgcstats.py:223-254: one alignment of a graph pair. -/
def nodeStep (fl : Flags) (W : Nat → SG) (p : SPair) (a : (String × String) × String) (st : Row × Attrs) :
    Py (Row × Attrs) :=
  match skipAlign fl (W p.source) (W p.target) a.1 with
  | .error e => .error e
  | .ok true => .ok st
  | .ok false =>
    match relColumn a.2 with
    | .error e => .error e
    | .ok c =>
      match (W p.source).nodes.get a.1.1 with
      | .error e => .error e
      | .ok _ =>
        match (W p.target).nodes.get a.1.2 with
        | .error e => .error e
        | .ok _ => .ok (inc (inc st.1 "CNP") c, markNodes p.source p.target a.1 st.2)

/-- pgcstats.py:216-254 `node_pair_stats`. -/
def nodePairStats (fl : Flags) (W : Nat → SG) (p : SPair) (st : Row × Attrs) : Py (Row × Attrs) :=
  Py.forIn p.align st (nodeStep fl W p)

/-- pgcstats.py:278-279 `roots_are_aligned`; a missing root is no node of an alignment. -/
def rootsAligned (W : Nat → SG) (p : SPair) : Bool := match (W p.source).root, (W p.target).root with
  | some r, some s => decide ((r, s) ∈ p.align.map Prod.fst)
  | _, _ => false

/-- pgcstats.py:193-194: mark the graphs of a pair with unaligned roots. -/
def markRoots (p : SPair) (at' : Attrs) : Attrs :=
  { at' with rootOk := fun g => if g = p.source ∨ g = p.target then false else at'.rootOk g }

/-- pgcstats.py:207-211: count the graph pair on both graphs. -/
def markGraphs (p : SPair) (at' : Attrs) : Attrs :=
  { at' with
    gFrom := fun g => if g = p.source then at'.gFrom g + 1 else at'.gFrom g,
    gTo := fun g => if g = p.target then at'.gTo g + 1 else at'.gTo g }

/-- pgcstats.py:185-211: a graph pair that is not passed over. -/
def countPair (fl : Flags) (W : Nat → SG) (p : SPair) (failed unaligned : Bool) (st : Row × Attrs) :
    Py (Row × Attrs) :=
  if fl.threshold ≠ 0 then .error .notImplemented
  else
    let r := inc st.1 "CGP"
    let r := if failed then inc r "CGPFP" else r
    let r := if unaligned then inc r "CGPUR" else r
    let at' := if unaligned then markRoots p st.2 else st.2
    let r := if !failed && !unaligned then inc r "CGPFU" else r
    match nodePairStats fl W p (r, at') with
    | .error e => .error e
    | .ok (r, at') => .ok (r, markGraphs p at')

/-- pgcstats.py:158-211: one graph pair. -/
def pairStep (fl : Flags) (W : Nat → SG) (p : SPair) (st : Row × Attrs) : Py (Row × Attrs) :=
  let failed := (W p.source).failed || (W p.target).failed
  if failed && !fl.withFailed then .ok st
  else
    let unaligned := !rootsAligned W p
    if unaligned && !fl.withUnalignedRoots then .ok st
    else countPair fl W p failed unaligned st

/-- pgcstats.py:145-213 `graph_pair_stats`, without the percentages. -/
def graphPairStats (fl : Flags) (W : Nat → SG) (pairs : List SPair) (st : Row × Attrs) : Py (Row × Attrs) :=
  Py.forIn pairs st (pairStep fl W)

/-! ### Graph banks -/

/-- gbstats.py:176-183 `count_tokens`. -/
def countTokens (g : SG) (withPunc : Bool) : Nat :=
  if withPunc then g.tokens.length else (g.tokens.filter fun t => !DaesoGraph.inPunct t).length

/-- gbstats.py:231-235 `node_is_aligned`. -/
def nodeAligned (at' : Attrs) (g : Nat) (n : String) : Bool := at'.nFrom g n ≠ 0 || at'.nTo g n ≠ 0

/-- gbstats.py:238-242 `graph_is_aligned`. -/
def graphAligned (at' : Attrs) (g : Nat) : Bool := at'.gFrom g ≠ 0 || at'.gTo g ≠ 0

/-- gbstats.py:245-249 `graph_is_single_aligned`. -/
def graphSingle (at' : Attrs) (g : Nat) : Bool := at'.gFrom g = 1 || at'.gTo g = 1

/-- gbstats.py:188-199: one node. -/
def bankNode (fl : Flags) (at' : Attrs) (g : Nat) (n : String × List String) (r : Row) : Row :=
  if !fl.withPunc && decide (n.2 ≠ [] ∧ n.2.all DaesoGraph.inPunct) then r
  else if !fl.withEmpty && decide (n.2 = []) then r
  else if nodeAligned at' g n.1 then inc (inc r "CN") "CNA" else inc (inc r "CN") "CNU"

/-- gbstats.py:137-169: one graph; the row as it is left and whether an exception was raised. -/
def bankStep (fl : Flags) (W : Nat → SG) (at' : Attrs) (g : Nat) (r : Row) : Py Row :=
  if (W g).failed && !fl.withFailed then .ok r
  else
    let r := if (W g).failed then inc r "CGFP" else r
    if !at'.rootOk g && !fl.withUnalignedRoots then .ok r
    else
      let r := if !at'.rootOk g then inc r "CGUR" else r
      if fl.threshold ≠ 0 then .error .userWarning
      else if !graphAligned at' g && !fl.withUnalignedGraphs then .ok r
      else
        let r := if !graphAligned at' g then inc r "CGU"
          else if graphSingle at' g then inc (inc r "CGA") "CGSA" else inc (inc r "CGA") "CGMA"
        let r := inc r "CG"
        let r : Row := fun k => if k = "CT" then r k + countTokens (W g) fl.withPunc else r k
        .ok ((W g).nodes.foldl (fun r n => bankNode fl at' g n r) r)

/-- gbstats.py:124-173 `graph_stats`, without the percentages; `bank` lists the graphs of the bank. -/
def graphStats (fl : Flags) (W : Nat → SG) (at' : Attrs) (bank : List Nat) (r : Row) : Py Row :=
  Py.forIn bank r (bankStep fl W at')

/-- An empty row (table.py:49-55). -/
def zeroRow : Row := fun _ => 0

/-- gbstats.py:110-118: the keywords for banks without corpus. -/
def bankFlags (withEmpty withFailed withPunc : Bool) (threshold : Int) : Flags :=
  ⟨withEmpty, withFailed, withPunc, true, threshold, true⟩

/-- gbstats.py:97-121 `gb_stats`: one row for each bank, all graphs included. -/
def gbStats (W : Nat → SG) (banks : List (List Nat)) (withEmpty withFailed withPunc : Bool) (threshold : Int) :
    Py (List Row) :=
  banks.mapM fun bank => graphStats (bankFlags withEmpty withFailed withPunc threshold) W pristine bank zeroRow

/-- A corpus as read: its graphs, its graph pairs and its graph banks (corpus.py:703-715, in any order). -/
structure SCorpus where
  graph : Nat → SG
  pairs : List SPair
  banks : List (List Nat)

/-- pgcstats.py:107-137: the row of a corpus and the rows of its graph banks. -/
def corpusStats (fl : Flags) (c : SCorpus) : Py (Row × List Row) :=
  match graphPairStats fl c.graph c.pairs (zeroRow, pristine) with
  | .error e => .error e
  | .ok (r, at') =>
    match c.banks.mapM (fun bank => graphStats fl c.graph at' bank zeroRow) with
    | .error e => .error e
    | .ok rs => .ok (r, rs)

/-- pgcstats.py:95-142 `pgc_stats`: the rows of both tables. -/
def pgcStats (fl : Flags) (cs : List SCorpus) : Py (List Row × List Row) :=
  match cs.mapM (corpusStats fl) with
  | .error e => .error e
  | .ok l => .ok (l.map Prod.fst, (l.map Prod.snd).flatten)

/-! ### Overalls and percentages -/

/-- table.py:198-201 `calc_count_overalls`. -/
def overall (rows : List Row) (col : String) : Nat := (rows.map fun r => r col).sum

/-- table.py:214-215 `percent`. -/
def percent (a b : Nat) : Py ℚ := match Py.div a b with
  | .error e => .error e
  | .ok q => .ok (q * 100)

/-- pgcstats.py:258-274 and 74-90; gbstats.py:69-86 and 202-221: the percentage of one column in another (else 0.0 in a
row; no overall percentage). -/
def share (a b : Nat) : Py ℚ := if b ≠ 0 then percent a b else .ok 0

/-- gbstats.py:89-92, 210-211: the average (or 0.0). -/
def average (a b : Nat) : Py ℚ := if b ≠ 0 then Py.div a b else .ok 0

end Verif.Stats
