#!/usr/bin/env python3
"""Writes /verif/DESIGN.md: hand-written text below, plus a table generated from properties.jsonl and MANIFEST.json."""
import json,os,re,glob
R='/verif'
HEAD=r'''# Formal model of emsrc/daeso-framework in Lean 4

(Generated by `tools/design.py`; the property table comes from `properties.jsonl` and `MANIFEST.json`.)

## 1. Layout
* `lean/Verif/Py.lean`, `PyNum.lean`, `PyDict.lean` – the fragment of Python that the model needs: exceptions as values
  (`Py α = Except Err α`), checked indexing, `for` and `while` loops, division, insertion-ordered dicts.
* `lean/Verif/Model/*.lean` – executable model, one file per Python module, function by function.  Every definition cites
  the file and lines of /repo that it models and says where it simplifies.
* `lean/Verif/Spec/*.lean` – small specifications that do not mention the model: edit scripts, alignments, matchings,
  recency lists, relations, windows, English-to-Lean readings of the properties.
* `lean/Verif/Lemmas/*.lean` – the proofs' helper lemmas and invariants; nothing in them has to be trusted or read.
* `lean/Verif/Props/*.lean` – the property theorems (the names in MANIFEST.json), each with an `example` beside it that
  meets the hypotheses on concrete, non-trivial data.
* `tools/` – generators (`props.py`, `claims.py`, `manifest.py`, `design.py`, `axioms.py`), coverage report
  (`coverage.py`) and the harness for seeded bugs (`seed.py`, `mutants/*.py`).
* `seeded/LOG.jsonl` – one line for every wrong program that was tried.

## 2. Trusted base
* Lean 4.33.0's kernel.  There are no axioms besides Lean's own three; `AXIOMS.md` lists for each theorem which of
  `propext`, `Classical.choice` and `Quot.sound` it uses (many need all three, because Mathlib's tactics and the real
  numbers do).  No `native_decide` or `bv_decide`; closed examples are evaluated by the kernel (`decide +kernel`, `rfl`).
* The model was written by reading the Python text; the code is not run.  What connects the two is the citation at every
  definition.  The statements in `Props` and the definitions in `Spec` and `Model` have to be read; `Lemmas` do not.

## 3. Modelling conventions
* **Python 2.**  `/` on integers rounds down, `map`/`zip`/`keys` are lists, dict order is unspecified.
* **Exceptions** are values of `Err`.  A function that can raise returns `Py α`; where the state after an exception is
  observable (caches, corpora, parsers, tables), the function returns state and error together.
* **Mutation** is state passing.  Where sharing is observable (attribute dictionaries, graph pairs, graph banks, relation
  lists, XML elements, entries of the LRU list) objects are addresses into an explicit heap.
* **Loops** are `forIn`/`forRange` with the loop body as a step function; `while` loops whose termination is not structural
  carry fuel, and the theorem states that enough fuel exists (`Err.fuel` never results) or that none suffices (divergence).
* **Numbers.**  Python integers are ℤ or ℕ.  Floats are exact (ℚ where only `+ - * /` occur, ℝ where `sqrt`/`log` occur) in
  the properties about formulas.  C79–C82 model the same functions with every operation followed by an arbitrary rounding
  function.  Overflow, underflow, `inf` and `nan` are not modelled.
* **Strings** are lists of characters; tests such as `isspace` are parameters where nothing but "the space is one" is used.
* **dicts** whose order is unspecified: either the result provably does not depend on it (the theorem quantifies over the
  order), or insertion order stands for it and the statement is about the set of results.
* **Threads.**  C62 interleaves at the level of Python statements that read or write the shared cache, under a re-entrant
  lock; C23–C26 treat operations as atomic, which C62 justifies.
* **Libraries outside /repo** (networkx DiGraph, xml.etree, expat, pickle, the file system, the clock) are modelled only as
  far as the code uses them, from their documented behaviour: DiGraph as ordered adjacency dicts; writing and reading XML as
  dropping empty texts; expat as the sequence of events of an element tree; files as their contents; clock readings as
  parameters.

## 4. What is modelled
| model | source | not modelled |
|---|---|---|
@MODULES@

## 5. What is not modelled
* `thirdparty/pexpect.py`, `setup.py`, `release.py`: a copy of another project that no other file imports, packaging.
* Of `thirdparty/argparse.py` what no tool uses: sub-commands, mutually exclusive groups, choices, arguments from files.
  Usage, help and error messages are modelled (C85, C86).  Parsing itself, with all options the tools declare, is modelled (C83).
* Messages of progress and warnings on stderr, `munkres.print_matrix`, `ODict.__repr__`.  The printed results that a user
  reads are modelled: score matrices and alignments, tables of evaluation, agreement and statistics, differences, phrases
  (C64, C65, C73, C75–C77).
* Overflow, underflow, `inf` and `nan` of floats.  Rounding is modelled in C79–C82 by an arbitrary rounding function with the
  properties stated there, of which rounding to 53 binary digits is proved to be an instance.
* Character encodings, except where an encoding error is part of a property (C40, C73, C77, C78).
* `string/median.py: generalized_median_string` (raises NotImplementedError), `decorators.py: verbose` (prints).
* Crash points inside a single file write, other than where the writer itself fails (C71, C74, C84: a file broken off at a
  missing attribute); the code has no transactional file updates for which more could be stated.

## 6. Method
* **Dynamic programming** (C01–C05, C14–C17): the table invariant says that each cell is the optimum over an inductively
  defined class of edit scripts or alignments of the prefixes; optimality by induction over that class.
* **Refinement** (C21–C27, C31–C33, C57, C62): an abstraction relation to a small specification (list of entries, multiset,
  recency list, finite relation) kept by every operation, hence for every history.
* **State machines over documents** (C38–C39, C47–C48, C61): simulation by structural induction over the element tree.
* **Loop invariants and counting** (C41–C46, C49–C55, C60, C63–C65).
* **Munkres** (C20): invariants of the step machine (covers, stars, primes, non-negative reduced costs), an alternating path
  argument, weak duality for optimality, and a lexicographic measure for termination.

Where the code violates what a user would expect, the property is stated as what does hold, and the violation is a theorem of
its own with a concrete program (`…_wrong`, `…_diverges`, `…_not_…` and so on); they are named in the notes of the table.

Each theorem is tested against wrong programs: `tools/seed.py` edits one definition of the model as a realistic bug would,
re-elaborates the modules concerned and reports which theorems fail.  An edit that falsifies the English claim while all
theorems still prove is a survivor; the theorem is then tightened and the tightening recorded in `seeded/LOG.jsonl`.

## 7. Properties
For each property: the modules of the model and the specification, how it is proved, the theorems, and limits.

@PROPS@
'''
NOTM={
'SimilarFloat':'overflow to inf and underflow; the limits of the exponent of floats',
'ArgHelp':'textwrap.wrap and % in help texts (parameters), groups of arguments of one\'s own, suppressed arguments, choices, tuples as metavars, indent increments other than 2, white space and capitals beyond ASCII',
'ArgDecls':'descriptions, epilogs and names of the tools (any)',
'CacheKey':'floats and objects of classes as arguments, functions that use the cache themselves, functions that are not deterministic, the recursion limit of repr, locks',
'MatrixPrint':'floats in matrices, the digits that log10 gives (a parameter), messages that cannot be encoded',
'MakeDirs':'limits on lengths of paths and names, null characters, modes and umask (whether entries can be made in a directory is a parameter, also for new ones), other processes',
'ArgExit':'what %r makes of a string (a parameter), a broken standard error, the text of errors of defaults (there are none)',
'Argparse':'mutually exclusive groups, sub-commands, choices, arguments from files, prefix characters other than -',
'EvalFloat':'overflow to inf and underflow; the limits of the exponent of floats',
'AlignFloat':'overflow to inf, nan and underflow; scores that mix integers and floats (a sum of integers is exact)',
'MunkresFloat':'overflow to inf, nan and underflow; matrices that mix integers and floats',
'FromPtc':'the command line; reading documents and graph banks (parameters)',
'Phrases':'the command line; the encoding as UTF-8',
'Agreement':'reading and pickling of tables (EvalPrint has printing)',
'AlignEval':'state after an exception (EvalPrint has printing)',
'CacheRun':'–','CacheThreads':'`keys` and the memoised function\'s own steps',
'Corpus':'`str`; the annotator accessors',
'Counter':'`__repr__`, doctests','Creation':'reading files',
'DaesoGraph':'printing','Etree':'parsing and writing files (`write` at the end)',
'GenericCache':'keys that are not strings, `Entry.__str__`, `Entry.__hash__`',
'Graph':'networkx methods that the package does not use',
'GraphPair':'–','Graphml':'expat; numbers and references in the text',
'HitaextDoc':'see section 5','IElemTree':'documents with attributes that begin with an underscore',
'LRUStock':'`__str__`','Munkres':'`print_matrix`, `pad_matrix` for matrices that are not rectangular',
'NeedlemanWunsch':'–','SmithWaterman':'–','AlignPrint':'`str` of elements (parameters)',
'Number':'negative numbers','ODict':'`__repr__`, pickling','Pgc':'the XML library; encodings',
'EvalPrint':'`sqrt` and `repr` (parameters); printing before `run_eval`','Pair':'objects other than None, integers, strings and pairs; `iter` half way','DiffPrint':'byte strings that are not ASCII in graphs; `repr` of lists and `int` (parameters)','PgcDiff':'headers, comments, node texts (DiffPrint has these)','PgcTools':'command lines, reading and writing (C38 covers these)',
'PtcDiff':'encodings; entries printed before an exception','PtcEval':'heads and number formats; rows printed before an exception',
'FileGlob':'classes [...] in patterns, patterns with directories','PgcCp':'printing, command lines, failing or interrupted writes other than at a missing attribute','SplitJoin':'messages to stderr, torn writes other than at a missing attribute, glob (an arbitrary list of files)','PgcZip':'printing, command lines, the zip format, warnings','RelPath':'the result of realpath for link loops, leading //','PtcConvert':'printing, command lines','PtcChdir':'printing, command lines','Similar':'–','Stats':'printing (C65), command lines','StatsCorpus':'pgc_stats (Model/Stats), printing, failing writes','StatsTable':'float literals with exponents, inf, nan',
'TextAlign':'the constructor\'s default functions apart from those in C55','TfIdf':'–','Threads':'–'}
def modules():
    out=[]
    for f in sorted(glob.glob(R+'/lean/Verif/Model/*.lean')):
        n=os.path.basename(f)[:-5]; s=open(f).read()
        h=re.search(r'/-!(.*?)-/',s,re.S)
        h=' '.join(h.group(1).split()) if h else ''
        src=sorted(set(re.findall(r'(?:lib/daeso/|bin/)[\w/]+\.py(?::[\d–,\- ]*\d)?',h)))
        cites=sorted(set(os.path.basename(x) for x in re.findall(r'[\w/]+\.py',s)))
        nd=len(re.findall(r'^(?:@\[[^\]]*\]\s*)?(?:noncomputable )?(?:def|structure|inductive|abbrev)\b',s,re.M))
        out.append('| %s (%d definitions) | %s | %s |'%(n,nd,', '.join(src) if src else ', '.join(cites),NOTM.get(n,'–')))
    return '\n'.join(out)
HOW={}
exec(open(R+'/tools/how.py').read())
def props():
    P=[json.loads(l) for l in open(R+'/properties.jsonl')]
    C={c['property']:c for c in json.load(open(R+'/MANIFEST.json'))['claims']}
    out=[]
    for p in P:
        c=C.get(p['id'])
        if not c: 
            out.append('### %s %s\nplanned: %s\n'%(p['id'],p['title'],HOW.get(p['id'],''))); continue
        mods={}
        for t in c['theorems']:
            a=t.split('.'); mods.setdefault(a[2],[]).append(a[3])
        th='; '.join('`Props.%s`: %s'%(m,', '.join('`%s`'%x for x in xs)) for m,xs in mods.items())
        out.append('### %s %s\n%s\n\n*Proof.* %s\n\n*Theorems* (%s). %s%s\n'%(p['id'],p['title'],p['statement'],HOW.get(p['id'],'?'),c['status'],th,('\n\n*Limits.* '+c['note']) if c['note'] else ''))
    return '\n'.join(out)
open(R+'/DESIGN.md','w').write(HEAD.replace('@MODULES@',modules()).replace('@PROPS@',props()))
