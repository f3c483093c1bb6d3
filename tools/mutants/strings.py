L="Levenshtein"
m("lev1","Model.Levenshtein","cell","let change := if c1 ≠ c2 then change + 1 else change","let change := if c1 ≠ c2 then change else change","a substitution costs nothing: the result is not the edit distance",L)
m("lev2","Model.Levenshtein","table","List.range (n + 1)) (row","List.replicate (n + 1) 0) (row","first row of zeros: deletions at the start are free",L)
m("lev3","Model.Levenshtein","cell","let delete := (← Py.get current (j - 1)) + 1","let delete := (← Py.get current (j - 1))","insertions are free",L)
m("lev4","Model.Levenshtein","normalized","let m := max s1.length s2.length","let m := min s1.length s2.length","normalised by the shorter: exceeds 1",L)
m("lev5","Model.Levenshtein","cell","Py.set current j (min (min add delete) change)","Py.set current j (min add change)","deletion forgotten",L)
m("lev6","Model.Levenshtein","levenshtein","then table s2 s1 else table s1 s2","then table s2 s1 else table s1 s1","swapped argument",L)
m("lev7","Model.Levenshtein","row","Py.forRange 1 (n + 1) (i ::","Py.forRange 1 n (i ::","last column not computed",L)
C="Lcs"
m("lcs1","Model.Lcs","fillCell","(t.set (i, j) (max u l))","(t.set (i, j) u)","only looks up: not longest",C)
m("lcs2","Model.Lcs","fill","Py.forRange 0 (seq2.length + 1) t","Py.forRange 0 seq2.length t","last column missing",C)
m("lcs3","Model.Lcs","tbBody","out := s.out ++ [x]","out := x :: s.out","result reversed",C)
m("lcs4","Model.Lcs","fillCell","(t.set (i, j) (v + 1))","(t.set (i, j) v)","matches do not count",C)
m("lcs5","Model.Lcs","tbBody","let x ← Py.getI seq1 i","let x ← Py.getI seq1 s.i","off by one in the traceback",C)
m("lcs6","Model.Lcs","normalized","Real.sqrt ((seq1.length * seq2.length : Nat) : ℝ)","Real.sqrt ((seq1.length + seq2.length : Nat) : ℝ)","normalised by the sum",C)
N="NGram"
m("ng1","Model.NGram","nGramSlices","  let padded := pad tokens padSize padString\n  (List.range (padded.length + 1 - n)).map fun i => slice padded i (i + n)","  let padded := pad tokens padSize padString\n  (List.range (padded.length - n)).map fun i => slice padded i (i + n)","last n-gram missing",N)
m("ng2","Model.NGram","nGramSlices","fun i => slice padded i (i + n)\n\n/-- ngram.py:40","fun i => slice padded i (i + n + 1)\n\n/-- ngram.py:40","n-grams of wrong length",N)
m("ng3","Model.NGram","pad","List.replicate padSize padString ++ tokens ++ List.replicate padSize padString","List.replicate padSize padString ++ tokens","padding only on the left",N)
m("ng4","Model.NGram","skipBigramSlices","(slice (t :: ts) 1 (2 + limit))","(slice (t :: ts) 1 (1 + limit))","distance limit off by one",N)
m("ng5","Model.NGram","skipBigramSlices","(slice (t :: ts) 1 (2 + limit))","(slice (t :: ts) 0 (2 + limit))","pairs an element with itself",N)
m("ng6","Model.NGram","nGramSlicesRange","nRange.map (· - 1)","nRange","default padding n instead of n-1",N)
m("ng7","Model.NGram","nGramStrings","sep.intercalate (slice","String.join (slice","separator ignored",N)
S="Similar"
m("sim1","Model.Similar","dice","(2 * (inter seq1 seq2).card)","((inter seq1 seq2).card)","factor 2 forgotten",S)
m("sim2","Model.Similar","jaccard","(((seq1.toFinset ∪ seq2.toFinset).card : Nat) : ℚ)","((seq1.length + seq2.length : Nat) : ℚ)","denominator sum instead of union",S)
m("sim3","Model.Similar","overlapMin","(min seq1.length seq2.length","(max seq1.length seq2.length","max instead of min",S)
m("sim4","Model.Similar","tanimoto","((seq1.length : ℚ) + seq2.length - (inter seq1 seq2).card)","((seq1.length : ℚ) + seq2.length)","intersection not subtracted",S)
m("sim5","Model.Similar","tokenMatch","(e ∈ seq2)","(e ∉ seq2)","negated membership",S)
m("sim6","Model.Similar","cosine","Py.catchZeroDiv 0 (Py.divR (inter seq1 seq2).card","(Py.divR (inter seq1 seq2).card","exception not caught for empty input",S)
m("sim7","Model.Similar","genDice","((s :: rest).length * r.2.card : Nat)","(rest.length * r.2.card : Nat)","number of sequences off by one",S)
m("sim8","Model.Similar","symTokenMatch","tokenMatch seq1 seq2 + tokenMatch seq2 seq1","tokenMatch seq1 seq2 + tokenMatch seq1 seq2","asymmetric",S)
m("sim9","Model.Similar","genJaccard","(acc.1 ∪ seq.toFinset, acc.2 ∩ seq.toFinset)","(acc.1 ∪ seq.toFinset, acc.2)","intersection not updated",S)
m("sim10","Model.Similar","typeMatch","Nat := (inter seq1 seq2).card","Nat := (seq1.filter (fun e => decide (e ∈ seq2))).length","counts tokens instead of types",S)
m("sim11","Model.Similar","genCosine","accumulate (· * ·)","accumulate (· + ·)","sum of lengths under the root",S)
R="Rouge"
m("rou1","Model.Rouge","rougeNgram","(refs.length : ℚ)","(cand.length : ℚ)","precision instead of recall",R)
m("rou2","Model.Rouge","rougeL","let recall ← Py.div c.length (ref.length : ℚ)\n  let precision ← Py.div c.length (cand.length : ℚ)","let recall ← Py.div c.length (cand.length : ℚ)\n  let precision ← Py.div c.length (ref.length : ℚ)","precision and recall exchanged",R)
m("rou3","Model.Rouge","fMeasure","(beta ^ 2 * precision + recall)","(beta ^ 2 * recall + precision)","beta weighs the wrong one",R)
m("rou4","Model.Rouge","rougeSU","rougeS (marker :: t1) (marker :: t2)","rougeS t1 t2","marker forgotten: no unigrams",R)
m("rou5","Model.Rouge","countMatch","(g ∈ refs)","(g ∉ refs)","negated membership",R)
m("rou6","Model.Rouge","rougeN","fun acc rt => acc ++ nGramSlices rt n 0 pad","fun _ rt => nGramSlices rt n 0 pad","only the last reference counts",R)
m("rou7","Model.Rouge","rougeSkipBigram","let precision ← Py.div m (b2.length : ℚ)","let precision ← Py.div m (b1.length : ℚ)","precision wrong denominator",R)
D="Median"
m("med1","Model.Median","addDist","  let b ← Py.get sod j\n  Py.set sod j (b + d)","  return sod","sum updated for one of the pair only",D)
m("med2","Model.Median","argminStep","if x < s.2 then","if x > s.2 then","maximum",D)
m("med3","Model.Median","argmin","Py.forRange 1 sod.length","Py.forRange 1 (sod.length - 1)","last string never considered",D)
m("med4","Model.Median","argminStep","if x < s.2 then","if x ≤ s.2 then","last minimum instead of first",D)
m("med5","Model.Median","argminStep",".ok (j, x)",".ok (j, s.2)","minimum not updated",D)
W="NeedlemanWunsch"
m("nw1","Model.NeedlemanWunsch","cell","(left.1 + gap y, .L)","(left.1 + gap x, .L)","wrong gap penalty",W)
m("nw2","Model.NeedlemanWunsch","cell","(diag.1 + sim x y, .D)","(diag.1 + sim x y, .U)","wrong trace of a match",W)
m("nw3","Model.NeedlemanWunsch","border","(t.set (i, 0) (gap x * i, .U))","(t.set (i, 0) (gap x, .U))","border gaps not accumulated",W)
m("nw4","Model.NeedlemanWunsch","cell","(cmax (cmax (up.1 + gap x, .U) (diag.1 + sim x y, .D)) (left.1 + gap y, .L))","(cmax (up.1 + gap x, .U) (diag.1 + sim x y, .D))","left move forgotten",W)
m("nw5","Model.NeedlemanWunsch","needlemanWunsch","{ i := seq1.length, j := seq2.length, alignment := [] }","{ i := seq2.length, j := seq1.length, alignment := [] }","traceback starts at the wrong cell",W)

# theorems stated or strengthened because the mutant broke only proofs, not a statement
tight={
 "rou2":["Rouge.rouge_l_value"],"rou3":["Rouge.rouge_l_value","Rouge.rouge_s_value"],
 "rou4":["Rouge.rouge_su_value"],"rou7":["Rouge.rouge_s_value"],
 "sim5":["Similar.coefficient_values"],"sim8":["Similar.coefficient_values"],
 "sim7":["Similar.gen_values"],"sim9":["Similar.gen_values"],"sim11":["Similar.gen_values"],
 "nw1":["NW.needleman_wunsch_valid"],"nw3":["NW.needleman_wunsch_valid"],
}
m("sim12","Model.Similar","genDice","Py.catchZeroDiv 0 (Py.div (((s :: rest).length * r.2.card : Nat) : ℚ) (r.1 : ℚ))",
  "Py.catchZeroDiv 0 (Py.div (((if rest.length = 2 then 2 else (s :: rest).length) * r.2.card : Nat) : ℚ) (r.1 : ℚ))",
  "wrong for three sequences only","Similar")
m("rou8","Model.Rouge","rougeSU","rougeS (marker :: t1) (marker :: t2) limit beta","rougeS (marker :: t1) (marker :: t2) (limit + 1) beta","limit off by one","Rouge")
