Z="Model.MunkresFloat"; T="MunkresFloat"
m("mf-s6neg",Z,"step6Fl","fl (x - m) else x","fl (m - x) else x","step 6 subtracts the smallest cost",T)
m("mf-s6row",Z,"step6Fl","if s.rowC i then fl (s.C i j + m)","if s.rowC i = false then fl (s.C i j + m)","step 6 adds to covered rows",T)
m("mf-s6col",Z,"step6Fl","if s.colC j = false then","if s.colC j = true then","step 6 subtracts from uncovered columns",T)
m("mf-s6noadd",Z,"step6Fl","fl (s.C i j + m) else s.C i j","s.C i j else s.C i j","step 6 adds to covered rows (dropped)",T)
m("mf-s6order",Z,"step6Fl","if s.colC j = false then fl (x - m) else x","if s.colC j = false then (if s.rowC i then s.C i j else fl (s.C i j - m)) else x","(equivalent in exact arithmetic) entries covered twice or never",T)
m("mf-s1",Z,"step1Fl","s.C i j - rowMin s i","s.C i j - rowMin s j","step 1 subtracts the minimum of the row",T)
m("mf-s1r",Z,"step1Fl","fl (s.C i j - rowMin s i)","fl (s.C i j)","step 1 is skipped",T)
m("mf-next6",Z,"runStepFl","(step6Fl fl a.1, 4)","(step6Fl fl a.1, 3)","after step 6 comes step 4",T)
m("mf-next1",Z,"runStepFl","(step1Fl fl a.1, 2)","(step1Fl fl a.1, 3)","after step 1 comes step 2",T)
m("mf-res",Z,"computeFl","(cells m.length row0.length)","(cells row0.length m.length)","the result has pairs (row, column)",T)
m("mf-mark",Z,"computeFl","a.1.mark p.1 p.2 = 1","a.1.mark p.2 p.1 = 1","the result has pairs (row, column) (swapped)",T)
m("mf-pad",Z,"computeFl","initSt (padMatrix m)","initSt m","the matrix is padded",T)
Y="Model.Munkres"
m("mf-small",Y,"findSmallest","if m > s.C p.1 p.2 then s.C p.1 p.2 else m","if m < s.C p.1 p.2 then s.C p.1 p.2 else m","the smallest uncovered cost",T)
m("mf-smallc",Y,"findSmallest","s.rowC p.1 = false ∧ s.colC p.2 = false then (if","s.colC p.2 = false then (if","only uncovered rows count",T)
m("mf-zero",Y,"findAZero","&& !s.colC j","","only uncovered columns count",T)
m("mf-s4u",Y,"step4Loop","colC := upd s1.colC c' false","colC := s1.colC","step 4 uncovers the column of the star",T)
m("mf-s3",Y,"step3","a.2 ≥ s.n","a.2 ≥ s.n - 1","step 3 stops with n stars",T)
m("mf-era",Y,"step5","erasePrimes (clearCovers","(clearCovers","step 5 erases the primes",T)
m("mf-s2c",Y,"step2Body","rowC := upd s.rowC p.1 true","rowC := s.rowC","step 2 stars one zero for a row",T)
m("mf-pad0",Y,"padMatrix","List.replicate (total - rows.length) (List.replicate total 0)","List.replicate (total - rows.length) (List.replicate total 1)","padding is with zeros",T)
