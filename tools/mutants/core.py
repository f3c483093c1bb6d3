S="SmithWaterman"; D="Model.SmithWaterman"
m("sw1",D,"maxScore","(left.1 + gap y, .L)) (0, .T))","(left.1 + gap y, .L)) (-1, .T))","negative cells: not a local alignment",S)
m("sw2",D,"bestPair","decide (e.2.1 > 0)","decide (e.2.1 ≥ 0)","zero scores count as alignments",S)
m("sw3",D,"lastSorted","if entryLt best e then e else best","if entryLt e best then e else best","the smallest score is taken",S)
m("sw4",D,"traceAlignment",".ok (decide (c.1 > 0))) (traceStep t)",".ok (decide (c.1 > 1))) (traceStep t)","the traceback stops too early",S)
m("sw5",D,"border","fun i t => .ok (t.set (i, 0) (0, .U))","fun i t => .ok (t.set (i, 0) (-i, .U))","global instead of local borders",S)
m("sw6",D,"weBody","if best.1 = 0 then","if best.1 ≤ 1 then","stops too early: no alignment although one has a positive score",S)
m("sw7",D,"weBody","all := s.all ++ [al]","all := al :: s.all","alignments in reverse order: the first is not optimal",S)
m("sw8",D,"weCond","decide (s.all.length < limit)","decide (s.all.length ≤ limit)","one alignment too many",S)
m("sw9",D,"recalcPair","let t := t.set (i, j) (0, .T)","let t := t.set (i, j) (1, .T)","cells of an alignment are not cleared: it is found again",S)
m("sw10",D,"bestStep","if e.2.1 < best.1 then best\n","if e.2.1 > best.1 then best\n","the smallest score is taken",S)
m("sw11",D,"recalculate","Py.forIn al t (recalcPair seq1 seq2 sim gap)","Py.forIn al.tail t (recalcPair seq1 seq2 sim gap)","one cell of an alignment is not cleared",S)
T="TfIdf"; D="Model.TfIdf"
m("tf1",D,"incr","d.set t (c + 1)","d.set t c","occurrences counted once",T)
m("tf2",D,"idfWeight","let q ← Py.divR n f","let q ← Py.divR (n + 1) f","smoothing that the documentation does not mention",T)
m("tf3",D,"tf","(doc.length : Nat)","(freq.length : Nat)","normalised by the number of types",T)
m("tf4",D,"tfIdf",".ok (f * w)",".ok (f + w)","sum instead of product",T)
m("tf5",D,"normOf","if normalized then log docs.length else .ok 1","if normalized then log (docs.length + 1) else .ok 1","normalised by another constant",T)
m("tf6",D,"documentFrequencies","tf.keys.foldl incr d","tf.keys.tail.foldl incr d","one term of every document not counted",T)
m("tf7",D,"tf","if t ∈ doc then 1 else 0","if t ∈ doc then 0 else 1","indicator negated",T)
m("tf8",D,"termFrequencies","(s.1.keys.mergeSort (fun a b => decide (a ≤ b)), s.2)","(s.1.keys, s.2)","terms not sorted",T)
N="Number"; D="Model.Number"
m("nu1",D,"tripleToWord","(['0', '0', '3'], ['d', 'r', 'i', 'e'])","(['0', '0', '3'], ['v', 'i', 'e', 'r'])","three is spelled as four",N)
m("nu2",D,"tripleToWord","(['0', '5', '0'], ['v', 'i', 'j', 'f', 't', 'i', 'g'])","(['0', '5', '0'], ['v', 'i', 'j', 'f', 'i', 'g'])","fifty misspelled (still unlike the others)",N)
m("nu3",D,"tripleWords",".ok (words ++ u ++ t)",".ok (words ++ t ++ u)","twintig-een-en instead of een-en-twintig",N)
m("nu4",D,"hundredsWord","if d1 ∉ ['0', '1']","if d1 ∉ ['0']","eenhonderd",N)
m("nu5",D,"body","if st.i = 1 ∧ triple = ['0', '0', '1'] then do","if st.i = 2 ∧ triple = ['0', '0', '1'] then do","eenduizend, and a million without een",N)
m("nu6",D,"spell",".ok (a ++ ['h', 'o', 'n', 'd', 'e', 'r', 'd'] ++ b)",".ok (b ++ ['h', 'o', 'n', 'd', 'e', 'r', 'd'] ++ a)","swapped parts",N)
m("nu7",D,"modifiers","   [' ', 'm', 'i', 'l', 'j', 'o', 'e', 'n', ' '],\n   [' ', 'm', 'i', 'l', 'j', 'a', 'r', 'd', ' '],","   [' ', 'm', 'i', 'l', 'j', 'a', 'r', 'd', ' '],\n   [' ', 'm', 'i', 'l', 'j', 'o', 'e', 'n', ' '],","million and milliard swapped",N)
m("nu8",D,"spell",".ok (strip st.words)",".ok st.words","white space not stripped",N)
O="ODict"; D="Model.ODict"
m("od1",D,"setItem","o.keys else o.keys ++ [k]","o.keys.erase k ++ [k] else o.keys ++ [k]","overwriting moves the key to the end",O)
m("od2",D,"delItem","⟨o.keys.erase k, d'⟩","⟨o.keys, d'⟩","a deleted key is still listed",O)
m("od3",D,"popItem","match o.keys.getLast? with","match o.keys.head? with","popitem takes the first",O)
m("od4",D,"setDefault","| some w => (o, w)","| some w => (o, v)","setdefault returns the default though the key is present",O)
m("od5",D,"update","l.foldl (fun o e => setItem o e.1 e.2) o","l.foldr (fun e o => setItem o e.1 e.2) o","update in reverse order",O)
m("od6",D,"fromKeys","l.foldl (fun o k => setItem o k v) empty","l.reverse.foldl (fun o k => setItem o k v) empty","fromkeys reversed",O)
m("od7",D,"pop","| some v => .ok (o, v)\n    | none => .error .keyError","| some _ => .error .keyError\n    | none => .error .keyError","default of pop ignored",O)
C="Counter"; D="Model.Counter"
m("co1",D,"updateMap","((c.get? e.1).getD 0 + e.2)","e.2","update replaces instead of adding",C)
m("co2",D,"elements","List.replicate e.2.toNat e.1","List.replicate e.2.natAbs e.1","negative counts repeat elements",C)
m("co3",D,"combine","if n > 0 then r.set x n else r) []\n\n/-- counter.py:131","if n ≥ 0 then r.set x n else r) []\n\n/-- counter.py:131","zero counts kept",C)
m("co4",D,"unionKeys","c.keys ++ d.keys.filter (fun k => k ∉ c.keys)","c.keys","elements only in the second operand lost",C)
m("co5",D,"or","combine max c d","combine min c d","union is intersection",C)
m("co6",D,"mostCommon","decide (b.2 ≤ a.2)","decide (a.2 ≤ b.2)","least common first",C)
m("co7",D,"and","if c.length < d.length then andLoop d c else andLoop c d","if c.length < d.length then andLoop d d else andLoop c d","swapped argument",C)
m("co8",D,"delItem","if c.has x then c.del x else c","if c.has x then c.set x 0 else c","the element stays with count 0",C)
m("co9",D,"mostCommon","s.take n.toNat","s.take (n.toNat + 1)","one too many",C)
M_="Munkres"; D="Model.Munkres"
m("mu1",D,"step6","if s.colC j = false then x - m else x","if s.colC j = true then x - m else x","subtracts from covered columns",M_)
m("mu2",D,"rowMin","min m (s.C i j)","max m (s.C i j)","subtracts the row maximum",M_)
m("mu3",D,"step3","if a.2 ≥ s.n then 7 else 4","if a.2 + 1 ≥ s.n then 7 else 4","stops one short of a full assignment",M_)
m("mu4",D,"padMatrix","rows ++ List.replicate (total - rows.length) (List.replicate total 0)","rows","no rows added: assignment incomplete",M_)
m("mu5",D,"flip","if mark p.1 p.2 = 1 then 0 else 1","if mark p.1 p.2 = 1 then 1 else 1","old stars not removed: two per row",M_)
m("mu6",D,"compute","cells m.length row0.length).filter","cells m.length m.length).filter","wrong part of the matrix reported",M_)
m("mu7",D,"makeCostMatrix","m.map fun row => row.map f","m.map fun row => (row.map f).reverse","cost matrix reversed",M_)
m("mu8",D,"findSmallest","if s.rowC p.1 = false ∧ s.colC p.2 = false then","if s.rowC p.1 = false then","covered columns not skipped",M_)
m("mu9",D,"step4Loop","{ s1 with rowC := upd s1.rowC r true, colC := upd s1.colC c' false }","{ s1 with rowC := upd s1.rowC r true }","column not uncovered",M_)
L="LRUStock GenericCache"; D="Model.LRUStock"
m("lr1",D,"discard","let prev1 := upd s.prev (next1 node) (s.prev node)","let prev1 := s.prev","back link not repaired",L)
m("lr2",D,"add","let keys1 := s.keys.set k node","let keys1 := s.keys","key not registered",L)
m("lr3",D,"update","add (discard s k) k","add s k","a key is listed twice",L)
m("lr4",D,"pop","if s.next 0 = 0 then none else s.item (s.next 0)","if s.next 0 = 0 then none else s.item (s.prev 0)","the most recently used is chosen",L)
m("lr5",D,"clear","keys := [], next := upd s.next 0 0","keys := s.keys, next := upd s.next 0 0","keys kept by clear",L)
G_="GenericCache"; D="Model.GenericCache"
m("gc1",D,"hasExpired","decide (e.2 + c.expiry < now)","decide (e.2 + c.expiry > now)","fresh values expire",G_)
m("gc2",D,"shrink","c.values.length + nb > c.maxsize","c.values.length > c.maxsize","one value too many",G_)
m("gc3",D,"fetch","else ({ c with lru := LRUStock.update c.lru key }","else ({ c with lru := c.lru }","a fetch is not a use",G_)
m("gc4",D,"remove","lru := LRUStock.discard c.lru key, values := c.values.del key","values := c.values.del key","removed keys stay in the stock: shrink never ends",G_)
m("gc5",D,"store","c.values.set key (v, now)","c.values.set key (v, 0)","time stamp lost",G_)
m("gc6",D,"collectBody","if hasExpired c e now then remove c key else c","if hasExpired c e now then c else remove c key","collects the fresh values",G_)
m("gc7",D,"fetchWithGenerator","| .ok c2 => (c2, .ok v)","| .ok c2 => (c1, .ok v)","the generated value is not stored",G_)
m("gc8",D,"reconfigure","maxsize := maxsize, expiry := expiry","maxsize := maxsize","expiry not changed",G_)
m("gc9",D,"fetch","(remove c key, if fail then .error .keyError else .ok none)","(c, .ok (some e.1))","expired values are returned",G_)

tight={"nu2":["Number.spell_words"],"nu7":["Number.spell_words","Number.spell_words_hundreds"]}
