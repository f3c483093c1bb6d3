Z="Model.SimilarFloat"; T="SimilarFloat"
m("sf-ratio",Z,"ratioFl","divFl fl (fl a) (fl b)","divFl fl (fl b) (fl a)","the quotient rounded once",T)
m("sf-div0",Z,"divFl","if b = 0 then .error .zeroDivision","if b = 0 then .ok 1","ROUGE-L of an empty sequence raises ZeroDivisionError",T)
m("sf-divtwice",Z,"divFl",".ok (fl (a / b))",".ok (fl (a * fl (1 / b)))","the quotient is rounded once (a product with the rounded inverse is not)",T)
m("sf-root",Z,"rootRatioFl","divFl fl (fl a) (sq (fl b))","divFl fl (fl a) (fl b)","cosine divides by the root of the product",T)
m("sf-sym",Z,"symTokenMatchFl","(tokenMatch seq1 seq2 + tokenMatch seq2 seq1) 2","(tokenMatch seq1 seq2 + tokenMatch seq2 seq1) 1","the average of both matches",T)
m("sf-cos",Z,"cosineFl","sq (inter seq1 seq2).card (seq1.length * seq2.length)","sq (inter seq1 seq2).card (seq1.length + seq2.length)","cosine at most 1",T)
m("sf-coscatch",Z,"cosineFl","Py.catchZeroDiv 0 (rootRatioFl fl sq (inter seq1","(rootRatioFl fl sq (inter seq1","cosine of an empty sequence is 0",T)
m("sf-tan",Z,"tanimotoFl","seq1.length + seq2.length - (inter seq1 seq2).card","seq1.length + seq2.length","tanimoto of equal sets is 1",T)
m("sf-dice",Z,"diceFl","2 * (inter seq1 seq2).card","(inter seq1 seq2).card","dice of equal sets is 1",T)
m("sf-jac",Z,"jaccardFl","(seq1.toFinset ∪ seq2.toFinset).card","(seq1.length + seq2.length)","jaccard by the union",T)
m("sf-omin",Z,"overlapMinFl","min seq1.length","max seq1.length","overlap_min by the shorter sequence",T)
m("sf-omax",Z,"overlapMaxFl","max seq1.length","min seq1.length","overlap_max by the longer sequence",T)
m("sf-gcos",Z,"genCosineFl","accumulate (· * ·) s rest","accumulate (· + ·) s rest","generalized cosine by the product of lengths",T)
m("sf-lev",Z,"normLevenshteinFl","max s1.length s2.length","min s1.length s2.length","normalized Levenshtein at most 1",T)
m("sf-lcs",Z,"normLcsFl","c.length (seq1.length * seq2.length)","c.length (seq1.length * seq1.length)","normalized_lcs is symmetric",T)
m("sf-rn",Z,"rougeNgramFl","refs.length","cand.length","ROUGE-N is a recall",T)
m("sf-rnpad",Z,"rougeNFl","acc ++ NGram.nGramSlices rt n 0 pad","NGram.nGramSlices rt n 0 pad","ROUGE-N of all references",T)
m("sf-fbeta",Z,"fMeasureFl","fl (fl (fl (1 + b) * precision) * recall)","fl (fl (fl (1 + b) * precision) * precision)","F is symmetric with beta 1",T)
m("sf-fden",Z,"fMeasureFl","fl (fl (b * precision) + recall)","fl (fl (b * precision) - recall)","F divides by the sum",T)
m("sf-fnocatch",Z,"fMeasureFl","Py.catchZeroDiv 0 (divFl","(divFl","F without common elements is 0",T)
m("sf-rlp",Z,"rougeLFl","let precision ← ratioFl fl c.length cand.length","let precision ← ratioFl fl c.length ref.length","precision by the candidate",T)
m("sf-rlcatch",Z,"rougeLFl","let recall ← ratioFl fl c.length ref.length","let recall ← Py.catchZeroDiv 0 (ratioFl fl c.length ref.length)","an empty reference raises",T)
m("sf-rs",Z,"rougeSkipBigramFl","let recall ← ratioFl fl m b1.length","let recall ← ratioFl fl m b2.length","ROUGE-S is symmetric",T)
m("sf-rsu",Z,"rougeSUFl","rougeSFl fl (marker :: t1) (marker :: t2)","rougeSFl fl (marker :: t1) t2","ROUGE-SU is symmetric",T)
