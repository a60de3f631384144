import Verif.Tri.Props

/-! # C364–C369: planar graphs, neighbours, edges, and the hand-over to the library -/

namespace Verif.Tri

variable {K : Type}

/-! ## C364: planar straight line graphs -/

theorem readSegments_spec (rows : List Row) (hne : rows ≠ []) (nb n : Nat) (hs : Sized rows 2 nb 0) (T M : List (List Int))
    (hT : Spells readInt (rows.map Row.a) T) (hM : Spells readInt (rows.map Row.b) M) (t1 t2 : Tok) (h1 : readNat t1 = some n)
    (h2 : readNat t2 = some nb) (extra : List Tok) (hn : Announced n rows extra) (s : State K) :
    readSegments ([t1, t2] ++ ((rows.map Row.toks).flatten ++ extra)) s
      = some (extra, ⟨s.zero, { s.data with
          segments := some (shift s.zero T)
          segmentMarkers := if 0 < nb then some M else s.data.segmentMarkers }⟩) := by
  unfold readSegments
  rw [header2 h1 h2]
  have hn0 : n ≠ 0 := by
    have : 0 < rows.length := List.length_pos_iff.2 hne
    rcases hn with h | ⟨h, _⟩ <;> omega
  have hd : ([t1, t2] ++ ((rows.map Row.toks).flatten ++ extra)).drop 2 = (rows.map Row.toks).flatten ++ extra := rfl
  simp only [if_neg hn0, hd]
  obtain ⟨e1, e2⟩ := take_table (1 + 2 + nb) n (rows.map Row.toks) extra hs.length (by simpa [Announced] using hn)
  have c1 := hs.colsA
  have c2 := hs.colsB
  have e3 := reshape_flatten (1 + 2 + nb) (by omega) _ hs.length
  simp only [show (3 : Nat) = 1 + 2 from rfl, e1, e2, e3, c1, c2, readAll_of_spells _ _ _ hT, readAll_of_spells _ _ _ hM]

theorem readHoles_spec (dbl : Tok → Option K) (rows : List Row) (hs : Sized rows 2 0 0) (H : List (List K))
    (hH : Spells dbl (rows.map Row.a) H) (t1 : Tok) (h1 : readNat t1 = some rows.length) (extra : List Tok) (s : State K) :
    readHoles dbl ([t1] ++ ((rows.map Row.toks).flatten ++ extra)) s
      = some (extra, if rows = [] then s else ⟨s.zero, { s.data with holes := some H }⟩) := by
  unfold readHoles
  rw [header1 h1]
  by_cases hne : rows = []
  · subst hne; simp
  · have hn0 : rows.length ≠ 0 := by rw [Ne, List.length_eq_zero_iff]; exact hne
    have hd : ([t1] ++ ((rows.map Row.toks).flatten ++ extra)).drop 1 = (rows.map Row.toks).flatten ++ extra := rfl
    simp only [if_neg hn0, hd, if_neg hne]
    obtain ⟨e1, e2⟩ := take_table 3 rows.length (rows.map Row.toks) extra hs.length (Or.inl (by simp))
    have c1 : cols 1 3 _ = _ := hs.colsA
    have e3 := reshape_flatten 3 (by omega) _ hs.length
    simp only [e1, e2, e3, c1, readAll_of_spells _ _ _ hH]

theorem readRegions_spec [Zero K] (dbl : Tok → Option K) (rows : List Row) (hne : rows ≠ []) (hs : Sized rows 3 0 0) (R : List (List K))
    (hR : Spells dbl (rows.map Row.a) R) (t1 : Tok) (h1 : readNat t1 = some rows.length) (extra : List Tok) (s : State K) :
    readRegions dbl ([t1] ++ ((rows.map Row.toks).flatten ++ extra)) s
      = some ⟨s.zero, { s.data with regions := some (R.map fun r => r.take 2 ++ [0] ++ (r.drop 2).take 1) }⟩ := by
  unfold readRegions
  rw [header1 h1]
  have hn0 : rows.length ≠ 0 := by rw [Ne, List.length_eq_zero_iff]; exact hne
  have hd : ([t1] ++ ((rows.map Row.toks).flatten ++ extra)).drop 1 = (rows.map Row.toks).flatten ++ extra := rfl
  simp only [if_neg hn0, hd]
  obtain ⟨e1, e2⟩ := take_table 4 rows.length (rows.map Row.toks) extra hs.length (Or.inl (by simp))
  have c1 : cols 1 4 _ = _ := hs.colsA
  have e3 := reshape_flatten 4 (by omega) _ hs.length
  simp only [e1, e3, c1, readAll_of_spells _ _ _ hR]

/-- The tokens of a poly file up to the holes. -/
structure PolyFile (dbl : Tok → Option K) (X H : List (List K)) (T M : List (List Int)) (nb : Nat) (vr sr hr : List Row)
    (toks : List Tok) : Prop where
  vne : vr ≠ []
  sne : sr ≠ []
  vs : Sized vr 2 0 0
  ss : Sized sr 2 nb 0
  hs : Sized hr 2 0 0
  hX : Spells dbl (vr.map Row.a) X
  hT : Spells readInt (sr.map Row.a) T
  hM : Spells readInt (sr.map Row.b) M
  hH : Spells dbl (hr.map Row.a) H
  eq : ∃ t1 t2 t3 t4 s1 s2 h1, readNat t1 = some vr.length ∧ readNat t2 = some 2 ∧ readNat t3 = some 0 ∧ readNat t4 = some 0 ∧
    readNat s1 = some sr.length ∧ readNat s2 = some nb ∧ readNat h1 = some hr.length ∧
    toks = [t1, t2, t3, t4] ++ ((vr.map Row.toks).flatten ++ ([s1, s2] ++ ((sr.map Row.toks).flatten ++ ([h1] ++ (hr.map Row.toks).flatten))))

theorem readPoly_front (dbl : Tok → Option K) {X H : List (List K)} {T M : List (List Int)} {nb : Nat} {vr sr hr : List Row}
    {toks : List Tok} (p : PolyFile dbl X H T M nb vr sr hr toks) (base : Int)
    (hb : (base = 0 ∧ (vr.head p.vne).num = ['0']) ∨ (base = 1 ∧ (vr.head p.vne).num = ['1'])) (extra : List Tok) :
    ((readVertices dbl (toks ++ extra) {}).bind fun r => (readSegments r.1 r.2).bind fun r => readHoles dbl r.1 r.2)
      = some (extra, ⟨base = 0, { vertices := some X, segments := some (T.map fun r => r.map fun i => i - base),
                                  segmentMarkers := if 0 < nb then some M else none, holes := if hr = [] then none else some H }⟩) := by
  obtain ⟨t1, t2, t3, t4, s1, s2, h1, a1, a2, a3, a4, a5, a6, a7, e⟩ := p.eq
  have e1 := readVertices_spec dbl vr p.vne 0 0 vr.length p.vs X _ _ p.hX (spells_nil vr dbl Row.b fun r hr => (p.vs r hr).2.1)
    (spells_nil vr readInt Row.c fun r hr => (p.vs r hr).2.2) t1 t2 t3 t4 a1 a2 a3 a4
    ([s1, s2] ++ ((sr.map Row.toks).flatten ++ ([h1] ++ ((hr.map Row.toks).flatten ++ extra)))) (Or.inl rfl) {}
  have e2 := fun s => readSegments_spec (K := K) sr p.sne nb sr.length p.ss T M p.hT p.hM s1 s2 a5 a6
    ([h1] ++ ((hr.map Row.toks).flatten ++ extra)) (Or.inl rfl) s
  have e3 := fun s => readHoles_spec dbl hr p.hs H p.hH h1 a7 extra s
  have e' : toks ++ extra = [t1, t2, t3, t4] ++ ((vr.map Row.toks).flatten ++ ([s1, s2] ++ ((sr.map Row.toks).flatten ++
      ([h1] ++ ((hr.map Row.toks).flatten ++ extra))))) := by rw [e]; simp only [List.append_assoc]
  rw [e', e1, Option.bind_some]
  simp only [e2, Option.bind_some, e3, Nat.lt_irrefl, if_false]
  rcases hb with ⟨rfl, h⟩ | ⟨rfl, h⟩ <;> by_cases hh : hr = [] <;> simp [h, shift, dec, hh]

/-- **C364** A poly file is read back: the vertices, the segments numbered from 0, their markers and the holes. -/
theorem C364_poly [Zero K] (dbl : Tok → Option K) {X H : List (List K)} {T M : List (List Int)} {nb : Nat} {vr sr hr : List Row}
    (text : Text) (p : PolyFile dbl X H T M nb vr sr hr (tokens (removeComments text))) (base : Int)
    (hb : (base = 0 ∧ (vr.head p.vne).num = ['0']) ∨ (base = 1 ∧ (vr.head p.vne).num = ['1'])) :
    loads dbl { poly := text } = some { vertices := some X, segments := some (T.map fun r => r.map fun i => i - base),
                                        segmentMarkers := if 0 < nb then some M else none, holes := if hr = [] then none else some H } := by
  have e := readPoly_front dbl p base hb []
  have hne : text ≠ [] := by
    obtain ⟨t1, t2, t3, t4, s1, s2, h1, _, _, _, _, _, _, _, e⟩ := p.eq
    exact text_ne e
  rw [List.append_nil] at e
  have : readPoly dbl text {} = some ⟨base = 0, { vertices := some X, segments := some (T.map fun r => r.map fun i => i - base), segmentMarkers := if 0 < nb then some M else none, holes := if hr = [] then none else some H }⟩ := by
    unfold readPoly
    cases h1 : readVertices dbl (tokens (removeComments text)) {} with
    | none => rw [h1] at e; simp at e
    | some r =>
      rw [h1, Option.bind_some] at e
      rw [Option.bind_some]
      cases h2 : readSegments r.1 r.2 with
      | none => rw [h2] at e; simp at e
      | some r2 =>
        rw [h2, Option.bind_some] at e
        rw [Option.bind_some, e, Option.bind_some, if_pos rfl]
  simp only [loads, given, if_neg hne, this, Option.bind_some, if_true, Option.map_some]

/-- **C364** Regions of four numbers (number, place, and one value) become rows of the place, a zero and the value. -/
theorem C364_regions [Zero K] (dbl : Tok → Option K) {X H : List (List K)} {T M : List (List Int)} {nb : Nat} {vr sr hr rr : List Row}
    (text : Text) (toks : List Tok) (p : PolyFile dbl X H T M nb vr sr hr toks) (base : Int)
    (hb : (base = 0 ∧ (vr.head p.vne).num = ['0']) ∨ (base = 1 ∧ (vr.head p.vne).num = ['1'])) (hrr : rr ≠ []) (hrs : Sized rr 3 0 0)
    (R : List (List K)) (hR : Spells dbl (rr.map Row.a) R) (r1 : Tok) (h1 : readNat r1 = some rr.length)
    (ht : tokens (removeComments text) = toks ++ ([r1] ++ (rr.map Row.toks).flatten)) :
    loads dbl { poly := text } = some { vertices := some X, segments := some (T.map fun r => r.map fun i => i - base),
                                        segmentMarkers := if 0 < nb then some M else none, holes := if hr = [] then none else some H,
                                        regions := some (R.map fun r => r.take 2 ++ [0] ++ (r.drop 2).take 1) } := by
  have e := readPoly_front dbl p base hb ([r1] ++ (rr.map Row.toks).flatten)
  have hne : text ≠ [] := by
    obtain ⟨t1, t2, t3, t4, s1, s2, h1, _, _, _, _, _, _, _, e⟩ := p.eq
    rw [e] at ht
    exact text_ne ht
  rw [← ht] at e
  have e4 := fun s => readRegions_spec dbl rr hrr hrs R hR r1 h1 [] s
  simp only [List.append_nil] at e4
  have : readPoly dbl text {} = some ⟨base = 0, { vertices := some X, segments := some (T.map fun r => r.map fun i => i - base), segmentMarkers := if 0 < nb then some M else none, holes := if hr = [] then none else some H, regions := some (R.map fun r => r.take 2 ++ [0] ++ (r.drop 2).take 1) }⟩ := by
    unfold readPoly
    cases h1 : readVertices dbl (tokens (removeComments text)) {} with
    | none => rw [h1] at e; simp at e
    | some r =>
      rw [h1, Option.bind_some] at e
      rw [Option.bind_some]
      cases h2 : readSegments r.1 r.2 with
      | none => rw [h2] at e; simp at e
      | some r2 =>
        rw [h2, Option.bind_some] at e
        rw [Option.bind_some, e, Option.bind_some, if_neg (by simp), e4]
  simp only [loads, given, if_neg hne, this, Option.bind_some, if_true, Option.map_some]

theorem tokensAux_append (c : Char) (hc : isBlank c = true) (x : Text) : ∀ (a : Text) (w : Tok),
    tokensAux w (a ++ c :: x) = tokensAux w a ++ tokensAux [] x := by
  intro a
  induction a with
  | nil =>
    intro w
    by_cases hw : w = []
    · simp [tokensAux, hc, hw]
    · simp [tokensAux, hc, hw]
  | cons d a ih =>
    intro w
    rw [List.cons_append, tokensAux, tokensAux]
    split_ifs <;> simp [ih]

theorem tokens_append (a x : Text) (c : Char) (hc : isBlank c = true) : tokens (a ++ c :: x) = tokens a ++ tokens x :=
  tokensAux_append c hc x a []

theorem tokensAux_cons (s : Text) : ∀ w, w ≠ [] → ∃ w' l, tokensAux w s = (w ++ w') :: l := by
  induction s with
  | nil => intro w hw; exact ⟨[], [], by simp [tokensAux, hw]⟩
  | cons c s ih =>
    intro w hw
    rw [tokensAux]
    by_cases hc : isBlank c = true
    · rw [if_pos hc, if_neg hw]; exact ⟨[], tokensAux [] s, by simp⟩
    · rw [if_neg hc]
      obtain ⟨w', l, e⟩ := ih (w ++ [c]) (by simp)
      exact ⟨c :: w', l, by rw [e]; simp⟩

theorem foldl_none (f : Nat → Char → Option Nat) (l : List Char) :
    l.foldl (fun a c => a.bind fun a => f a c) none = none := by
  induction l with
  | nil => rfl
  | cons c l ih => rw [List.foldl_cons, Option.bind_none, ih]

theorem readNat_hash (w : Tok) : readNat ('#' :: w) = none := by
  unfold readNat
  rw [if_neg (by simp), List.foldl_cons, Option.bind_some, if_neg (by decide)]
  exact foldl_none (fun a c => if c.isDigit then some (10 * a + (c.toNat - '0'.toNat)) else none) w

/-- **C364** (negation) A poly file without regions whose last line is a comment that does not end with a newline is refused. -/
theorem C364_comment_refuted [Zero K] (dbl : Tok → Option K) {X H : List (List K)} {T M : List (List Int)} {nb : Nat}
    {vr sr hr : List Row} (text b : Text) (htext : '#' ∉ text) (hbn : '\n' ∉ b) (p : PolyFile dbl X H T M nb vr sr hr (tokens text))
    (base : Int) (hb : (base = 0 ∧ (vr.head p.vne).num = ['0']) ∨ (base = 1 ∧ (vr.head p.vne).num = ['1'])) :
    loads dbl { poly := text ++ '\n' :: '#' :: b } = none := by
  have hrc : removeComments (text ++ '\n' :: '#' :: b) = text ++ '\n' :: '#' :: b := by
    have := C361_last_refuted (text ++ ['\n']) b (by simp [htext]) hbn
    simpa using this
  obtain ⟨w, l, hw⟩ := tokensAux_cons b ['#'] (by simp)
  have htok : tokens (text ++ '\n' :: '#' :: b) = tokens text ++ (('#' :: w) :: l) := by
    rw [tokens_append _ _ _ rfl]
    exact congrArg _ hw
  have e := readPoly_front dbl p base hb (('#' :: w) :: l)
  rw [← htok] at e
  have : readPoly dbl (text ++ '\n' :: '#' :: b) {} = none := by
    unfold readPoly
    rw [hrc]
    cases h1 : readVertices dbl (tokens (text ++ '\n' :: '#' :: b)) {} with
    | none => rfl
    | some r =>
      rw [h1, Option.bind_some] at e
      rw [Option.bind_some]
      cases h2 : readSegments r.1 r.2 with
      | none => rfl
      | some r2 =>
        rw [h2, Option.bind_some] at e
        rw [Option.bind_some, e, Option.bind_some, if_neg (by simp)]
        unfold readRegions
        have : header 1 ((('#' :: w) :: l).take 1) = none := by
          simp [header, readNat_hash]
        simp only [this]
  simp only [loads, given, this, Option.bind_some, if_true, List.append_eq_nil_iff, List.cons_ne_nil, and_false, if_false,
    Option.bind_none]

/-! ## C365: neighbours -/

theorem readNeigh_spec (rows : List Row) (hne : rows ≠ []) (nn : Nat) (hs : Sized rows nn 0 0) (T : List (List Int))
    (hT : Spells readInt (rows.map Row.a) T) (t1 t2 : Tok) (h1 : readNat t1 = some rows.length) (h2 : readNat t2 = some nn)
    (extra : List Tok) (s : State K) :
    readNeigh ([t1, t2] ++ ((rows.map Row.toks).flatten ++ extra)) s
      = some ⟨s.zero, { s.data with neighbors := some (shift s.zero T) }⟩ := by
  unfold readNeigh
  rw [header2 h1 h2]
  have hn0 : rows.length ≠ 0 := by rw [Ne, List.length_eq_zero_iff]; exact hne
  have hd : ([t1, t2] ++ ((rows.map Row.toks).flatten ++ extra)).drop 2 = (rows.map Row.toks).flatten ++ extra := rfl
  simp only [if_neg hn0, hd]
  obtain ⟨e1, e2⟩ := take_table (1 + nn) rows.length (rows.map Row.toks) extra hs.length (Or.inl (by simp))
  have c1 := hs.colsA
  have e3 := reshape_flatten (1 + nn) (by omega) _ hs.length
  simp only [e1, e3, c1, readAll_of_spells _ _ _ hT]

/-- What `loads` returns for a node and a neigh file. -/
theorem loads_neigh [Zero K] (dbl : Tok → Option K) (node neigh : Text) (vr tr : List Row) (hv : vr ≠ []) (ht : tr ≠ []) (nn : Nat)
    (sv : Sized vr 2 0 0) (st : Sized tr nn 0 0) (X : List (List K)) (T : List (List Int)) (hX : Spells dbl (vr.map Row.a) X)
    (hT : Spells readInt (tr.map Row.a) T) (t1 t2 t3 t4 u1 u2 : Tok) (h1 : readNat t1 = some vr.length) (h2 : readNat t2 = some 2)
    (h3 : readNat t3 = some 0) (h4 : readNat t4 = some 0) (k1 : readNat u1 = some tr.length) (k2 : readNat u2 = some nn)
    (extra extra' : List Tok)
    (hn : tokens (removeComments node) = [t1, t2, t3, t4] ++ ((vr.map Row.toks).flatten ++ extra))
    (he : tokens (removeComments neigh) = [u1, u2] ++ ((tr.map Row.toks).flatten ++ extra')) :
    loads dbl { node := node, neigh := neigh }
      = some { vertices := some X, neighbors := some (shift ((vr.head hv).num = ['0']) T) } := by
  have e1 := readVertices_spec dbl vr hv 0 0 vr.length sv X _ _ hX (spells_nil vr dbl Row.b fun r hr => (sv r hr).2.1)
    (spells_nil vr readInt Row.c fun r hr => (sv r hr).2.2) t1 t2 t3 t4 h1 h2 h3 h4 extra (Or.inl rfl) {}
  rw [← hn] at e1
  have e2 := fun s => readNeigh_spec (K := K) tr ht nn st T hT u1 u2 k1 k2 extra' s
  rw [← he] at e2
  simp only [loads, given, if_neg (text_ne hn), if_neg (text_ne he), e1, e2, Option.map_some, Option.bind_some, if_true, Nat.lt_irrefl,
    if_false]

/-- **C365** (part) For files that count from 0 the neighbours are those of the file.  Missing: files that count from 1, see
`C365_refuted`. -/
theorem C365_zero_partial [Zero K] (dbl : Tok → Option K) (node neigh : Text) (vr tr : List Row) (hv : vr ≠ []) (ht : tr ≠ []) (nn : Nat)
    (sv : Sized vr 2 0 0) (st : Sized tr nn 0 0) (X : List (List K)) (T : List (List Int)) (hX : Spells dbl (vr.map Row.a) X)
    (hT : Spells readInt (tr.map Row.a) T) (t1 t2 t3 t4 u1 u2 : Tok) (h1 : readNat t1 = some vr.length) (h2 : readNat t2 = some 2)
    (h3 : readNat t3 = some 0) (h4 : readNat t4 = some 0) (k1 : readNat u1 = some tr.length) (k2 : readNat u2 = some nn)
    (extra extra' : List Tok)
    (hn : tokens (removeComments node) = [t1, t2, t3, t4] ++ ((vr.map Row.toks).flatten ++ extra))
    (he : tokens (removeComments neigh) = [u1, u2] ++ ((tr.map Row.toks).flatten ++ extra')) (h0 : (vr.head hv).num = ['0']) :
    loads dbl { node := node, neigh := neigh } = some { vertices := some X, neighbors := some T } := by
  rw [loads_neigh dbl node neigh vr tr hv ht nn sv st X T hX hT t1 t2 t3 t4 u1 u2 h1 h2 h3 h4 k1 k2 extra extra' hn he]
  simp [h0, shift]

/-- **C365** (negation) In files that count from 1, where -1 stands for no neighbour as well, every -1 becomes -2. -/
theorem C365_refuted [Zero K] (dbl : Tok → Option K) (node neigh : Text) (vr tr : List Row) (hv : vr ≠ []) (ht : tr ≠ []) (nn : Nat)
    (sv : Sized vr 2 0 0) (st : Sized tr nn 0 0) (X : List (List K)) (T : List (List Int)) (hX : Spells dbl (vr.map Row.a) X)
    (hT : Spells readInt (tr.map Row.a) T) (t1 t2 t3 t4 u1 u2 : Tok) (h1 : readNat t1 = some vr.length) (h2 : readNat t2 = some 2)
    (h3 : readNat t3 = some 0) (h4 : readNat t4 = some 0) (k1 : readNat u1 = some tr.length) (k2 : readNat u2 = some nn)
    (extra extra' : List Tok)
    (hn : tokens (removeComments node) = [t1, t2, t3, t4] ++ ((vr.map Row.toks).flatten ++ extra))
    (he : tokens (removeComments neigh) = [u1, u2] ++ ((tr.map Row.toks).flatten ++ extra')) (h1' : (vr.head hv).num = ['1'])
    (i j : Nat) (hij : (T[i]?.bind fun r => r[j]?) = some (-1)) :
    ∃ N, loads dbl { node := node, neigh := neigh } = some { vertices := some X, neighbors := some N } ∧
      (N[i]?.bind fun r => r[j]?) = some (-2) := by
  refine ⟨dec T, ?_, ?_⟩
  · rw [loads_neigh dbl node neigh vr tr hv ht nn sv st X T hX hT t1 t2 t3 t4 u1 u2 h1 h2 h3 h4 k1 k2 extra extra' hn he]
    simp [h1', shift]
  · unfold dec
    rw [List.getElem?_map]
    cases h : T[i]? with
    | none => rw [h] at hij; simp at hij
    | some r =>
      rw [h, Option.bind_some] at hij
      simp [hij]

/-! ## C367: edges -/

theorem linesAux_append (x : Text) : ∀ (a w : Text), linesAux w (a ++ '\n' :: x) = linesAux w a ++ linesAux [] x := by
  intro a
  induction a with
  | nil => intro w; simp [linesAux]
  | cons c a ih => intro w; rw [List.cons_append, linesAux, linesAux]; split_ifs <;> simp [ih]

theorem lines_append (a x : Text) : lines (a ++ '\n' :: x) = lines a ++ lines x := linesAux_append x a []

theorem linesAux_one : ∀ (a w : Text), '\n' ∉ a → linesAux w a = [w ++ a] := by
  intro a
  induction a with
  | nil => intro w _; simp [linesAux]
  | cons c a ih =>
    intro w h
    simp only [List.mem_cons, not_or] at h
    rw [linesAux, if_neg (fun e => h.1 e.symm), ih _ h.2]; simp

theorem lines_one (a : Text) (h : '\n' ∉ a) : lines a = [a] := by
  have := linesAux_one a [] h
  rw [List.nil_append] at this
  exact this

/-- The edges and rays of a text of lines. -/
theorem readEdge_lines (dbl : Tok → Option K) (first : Text) (rest : Text) (s : State K) (hf : '\n' ∉ first) (ne nb : Nat) (hne : ne ≠ 0)
    (hh : header 2 (tokens first) = some [ne, nb]) :
    readEdge dbl (first ++ '\n' :: rest) s =
      (let tok := (lines rest).map tokens
       let edges := tok.filter fun x => x.length = 3 + nb
       let rays := tok.filter fun x => x.length = 5 + nb
       if edges = [] ∨ rays = [] then none
       else
         match readAll readInt (cols 1 3 edges), readAll readInt (cols 1 2 rays), readAll dbl (cols 3 (5 + nb) rays) with
         | some e, some o, some d =>
           some ⟨s.zero, { s.data with edges := some (shift s.zero e), rayOrigins := some (shift s.zero o), rayDirections := some d }⟩
         | _, _, _ => none) := by
  unfold readEdge
  rw [lines_append, lines_one first hf]
  simp only [List.singleton_append, hh, if_neg hne]
  rfl

/-- **C367** (negation) An edge file without rays, as every edge file that is not of a Voronoi diagram, is refused. -/
theorem C367_no_rays_refuted [Zero K] (dbl : Tok → Option K) (first rest : Text) (hf : '\n' ∉ first) (ne nb : Nat) (hne : ne ≠ 0)
    (hc : '#' ∉ first ++ '\n' :: rest) (hh : header 2 (tokens first) = some [ne, nb])
    (hr : ∀ l ∈ lines rest, (tokens l).length ≠ 5 + nb) : loads dbl { edge := first ++ '\n' :: rest } = none := by
  have : readEdge dbl (removeComments (first ++ '\n' :: rest)) ({} : State K) = none := by
    rw [C361_no_comment _ hc, readEdge_lines dbl first rest _ hf ne nb hne hh]
    have : ((lines rest).map tokens).filter (fun x => x.length = 5 + nb) = [] := by
      rw [List.filter_eq_nil_iff]
      intro x hx
      obtain ⟨l, hl, rfl⟩ := List.mem_map.1 hx
      simpa using hr l hl
    simp only [this, or_true, if_true]
  simp only [loads, given, if_true, Option.bind_some, List.append_eq_nil_iff, List.cons_ne_nil, and_false, if_false, this, Option.bind_none]

/-- **C367** (negation) A comment at the end of a line of an edge file swallows two edges: the result is that of the file without the line
and without the next one. -/
theorem C367_comment_refuted [Zero K] (dbl : Tok → Option K) (first pre l1 c l2 post : Text) (hf : '\n' ∉ first) (ne nb : Nat)
    (hne : ne ≠ 0) (hh : header 2 (tokens first) = some [ne, nb]) (h1 : '#' ∉ first) (h2 : '#' ∉ pre) (h3 : '#' ∉ l1)
    (h4 : '#' ∉ l2) (h5 : '#' ∉ post) (hc : '\n' ∉ c) (hl1 : '\n' ∉ l1) (hl2 : '\n' ∉ l2) (hb : ∃ l b, l1 = l ++ [b] ∧ isBlank b = true)
    (k1 : (tokens l1).length = 3 + nb) (k2 : (tokens l2).length = 3 + nb) :
    loads dbl { edge := first ++ '\n' :: (pre ++ '\n' :: (l1 ++ '#' :: (c ++ '\n' :: (l2 ++ '\n' :: post)))) }
      = loads dbl { edge := first ++ '\n' :: (pre ++ '\n' :: post) } := by
  have r1 : removeComments (first ++ '\n' :: (pre ++ '\n' :: (l1 ++ '#' :: (c ++ '\n' :: (l2 ++ '\n' :: post)))))
      = first ++ '\n' :: (pre ++ '\n' :: ((l1 ++ l2) ++ '\n' :: post)) := by
    have := C361_comment (first ++ '\n' :: (pre ++ '\n' :: l1)) c (l2 ++ '\n' :: post) (by simp [h1, h2, h3]) hc
    rw [C361_no_comment (l2 ++ '\n' :: post) (by simp [h4, h5])] at this
    simpa using this
  have r2 : removeComments (first ++ '\n' :: (pre ++ '\n' :: post)) = first ++ '\n' :: (pre ++ '\n' :: post) :=
    C361_no_comment _ (by simp [h1, h2, h5])
  have hlen : (tokens (l1 ++ l2)).length = 6 + 2 * nb := by
    obtain ⟨l, b, rfl, hb⟩ := hb
    rw [List.append_assoc, List.singleton_append, tokens_append _ _ _ hb, List.length_append, k2]
    have : tokens (l ++ [b]) = tokens l := by
      have := tokens_append l [] b hb
      simpa [tokens, tokensAux] using this
    rw [this] at k1
    omega
  have f : ∀ n, n = 3 + nb ∨ n = 5 + nb → ((lines (pre ++ '\n' :: ((l1 ++ l2) ++ '\n' :: post))).map tokens).filter (fun x => x.length = n)
      = ((lines (pre ++ '\n' :: post)).map tokens).filter fun x => x.length = n := by
    intro n hn
    rw [lines_append, lines_append, lines_append, lines_one (l1 ++ l2) (by simp [hl1, hl2])]
    simp only [List.map_append, List.filter_append, List.map_cons, List.map_nil]
    rw [List.filter_cons_of_neg (by simp [hlen]; omega)]
    simp
  have key : ∀ s : State K, readEdge dbl (removeComments (first ++ '\n' :: (pre ++ '\n' :: (l1 ++ '#' :: (c ++ '\n' :: (l2 ++ '\n' :: post)))))) s
      = readEdge dbl (removeComments (first ++ '\n' :: (pre ++ '\n' :: post))) s := by
    intro s
    rw [r1, r2, readEdge_lines dbl first _ s hf ne nb hne hh, readEdge_lines dbl first _ s hf ne nb hne hh]
    simp only [f (3 + nb) (Or.inl rfl), f (5 + nb) (Or.inr rfl)]
  simp only [loads, given, if_true, Option.bind_some, List.append_eq_nil_iff, List.cons_ne_nil, and_false, if_false, key]

/-- **C367** (part) In a file without comments that has edges as well as rays, the edges are the rows of `3 + nb` entries and the rays
those of `5 + nb` entries.  Missing: files without one of the two kinds, and files with comments inside of lines. -/
theorem C367_edges_partial [Zero K] (dbl : Tok → Option K) (first rest : Text) (hf : '\n' ∉ first) (ne nb : Nat) (hne : ne ≠ 0)
    (hc : '#' ∉ first ++ '\n' :: rest) (hh : header 2 (tokens first) = some [ne, nb]) (E O : List (List Int)) (D : List (List K))
    (hE : E ≠ []) (hO : O ≠ [])
    (sE : Spells readInt ((((lines rest).map tokens).filter fun x => x.length = 3 + nb).map fun r => (r.drop 1).take 2) E)
    (sO : Spells readInt ((((lines rest).map tokens).filter fun x => x.length = 5 + nb).map fun r => (r.drop 1).take 1) O)
    (sD : Spells dbl ((((lines rest).map tokens).filter fun x => x.length = 5 + nb).map fun r => (r.drop 3).take (2 + nb)) D) :
    loads dbl { edge := first ++ '\n' :: rest } = some { edges := some E, rayOrigins := some O, rayDirections := some D } := by
  have g1 : ((lines rest).map tokens).filter (fun x => x.length = 3 + nb) ≠ [] := by
    intro h; rw [h] at sE; cases sE; exact hE rfl
  have g2 : ((lines rest).map tokens).filter (fun x => x.length = 5 + nb) ≠ [] := by
    intro h; rw [h] at sO; cases sO; exact hO rfl
  have a1 := readAll_of_spells _ _ _ sE
  have a2 := readAll_of_spells _ _ _ sO
  have a3 := readAll_of_spells _ _ _ sD
  have : readEdge dbl (removeComments (first ++ '\n' :: rest)) ({} : State K)
      = some ⟨true, { edges := some E, rayOrigins := some O, rayDirections := some D }⟩ := by
    rw [C361_no_comment _ hc, readEdge_lines dbl first rest _ hf ne nb hne hh]
    simp only [g1, g2, or_self, if_false, cols, show 3 - 1 = 2 from rfl, show 2 - 1 = 1 from rfl, show 5 + nb - 3 = 2 + nb by omega,
      a1, a2, a3, shift, if_true]
  simp only [loads, given, if_true, Option.bind_some, List.append_eq_nil_iff, List.cons_ne_nil, and_false, if_false, this, Option.map_some]

/-! ## Examples -/

/-- Digits and a sign, as rationals. -/
def exDbl (t : Tok) : Option Rat := (readInt t).map fun n => (n : Rat)

example : loads exDbl { node := "3 2 0 1 # square\n1  0 0 1\n2 1 0 1\n 3 0 1 0\n# done\n".toList, ele := "1 3 0\n1 1 2 3\n".toList }
    = some { vertices := some [[0, 0], [1, 0], [0, 1]], vertexMarkers := some [[1], [1], [0]], triangles := some [[0, 1, 2]] } := by
  decide +kernel

example : loads exDbl { poly := "3 2 0 0\n0 0 0\n1 1 0\n2 0 1\n1 1\n0 0 2 7\n1\n0 5 6\n1\n0 3 4 9".toList }
    = some { vertices := some [[0, 0], [1, 0], [0, 1]], segments := some [[0, 2]], segmentMarkers := some [[7]],
             holes := some [[5, 6]], regions := some [[3, 4, 0, 9]] } := by decide +kernel

example : loads exDbl { poly := "3 2 0 0\n0 0 0\n1 1 0\n2 0 1\n1 0\n0 0 2\n0\n# end".toList } = none := by decide +kernel

example : loads exDbl { node := "9 2 0 0\n1 4 5\n2 6 7".toList, neigh := "1 3\n1 2 -1 -1".toList }
    = some { vertices := some [[4, 5], [6, 7]], neighbors := some [[1, -2, -2]] } := by decide +kernel

example : loads exDbl { edge := "3 0\n0 1 2\n1 2 3 # right\n2 3 4\n3 4 5\n4 4 -1 1 0".toList }
    = some { edges := some [[1, 2], [4, 5]], rayOrigins := some [[4]], rayDirections := some [[1, 0]] } := by decide +kernel

example : loads exDbl { edge := "1 0\n0 1 2\n".toList } = none := by decide +kernel

example : loads exDbl { node := "9 2 0 0\n1 4 5\n2 6".toList } = none := by decide +kernel

/-! ## C368, C369: the hand-over to the library -/

/-- One step of `fin`. -/
def finStep (d : String → Option (Nat × Nat)) (c : Option Counters) (f : Field) : Option Counters :=
  c.bind fun c => match d f.name with | none => some c | some s => setField f s c

theorem fin_eq (d : String → Option (Nat × Nat)) : fin d = fields.foldl (finStep d) (some fun _ => 0) := rfl

theorem finStep_none (d : String → Option (Nat × Nat)) (l : List Field) : l.foldl (finStep d) none = none := by
  induction l with
  | nil => rfl
  | cons f l ih => rw [List.foldl_cons]; exact ih

/-- Fields that do not store at a counter leave it. -/
theorem fold_keep (d : String → Option (Nat × Nat)) (k : String) (l : List Field) (hl : ∀ f ∈ l, f.rows ≠ k ∧ f.width ≠ .counter k) :
    ∀ c c', l.foldl (finStep d) (some c) = some c' → c' k = c k := by
  induction l with
  | nil => intro c c' h; simp only [List.foldl_nil, Option.some.injEq] at h; rw [h]
  | cons f l ih =>
    intro c c' h
    rw [List.foldl_cons] at h
    cases h1 : finStep d (some c) f with
    | none => rw [h1, finStep_none] at h; exact absurd h (by simp)
    | some c1 =>
      rw [h1] at h
      rw [ih (fun f hf => hl f (List.mem_cons_of_mem _ hf)) c1 c' h]
      obtain ⟨g1, g2⟩ := hl f List.mem_cons_self
      simp only [finStep, Option.bind_some] at h1
      cases hd : d f.name with
      | none => rw [hd] at h1; simp only [Option.some.injEq] at h1; rw [h1]
      | some s =>
        rw [hd] at h1
        simp only [setField] at h1
        split_ifs at h1
        cases hw : f.width with
        | const n =>
          rw [hw] at h1
          simp only at h1
          split_ifs at h1
          simp only [Option.some.injEq] at h1
          rw [← h1]; exact if_neg (Ne.symm g1)
        | counter name =>
          rw [hw] at h1 g2
          simp only [Option.some.injEq] at h1
          rw [← h1]
          simp only
          rw [if_neg (fun e => g2 (by rw [e])), if_neg (Ne.symm g1)]

/-- **C368** (negation) The number of points handed to the library is that of the markers, if there are any, whatever the number of
points: with more markers than vertices the library reads beyond the end of the vertices. -/
theorem C368_refuted (d : String → Option (Nat × Nat)) (c : Counters) (h : fin d = some c) (r w : Nat)
    (hm : d "pointmarkerlist" = some (r, w)) : c "numberofpoints" = r := by
  rw [fin_eq, ← List.take_append_drop 3 fields, List.foldl_append] at h
  cases h1 : (fields.take 3).foldl (finStep d) (some fun _ => 0) with
  | none => rw [h1, finStep_none] at h; exact absurd h (by simp)
  | some c1 =>
    rw [h1] at h
    rw [fold_keep d "numberofpoints" (fields.drop 3) (by simp [fields]) c1 c h]
    rw [show fields.take 3 = fields.take 2 ++ [⟨"pointmarkerlist", .intc, .intc, "numberofpoints", .const 1⟩] from rfl, List.foldl_append] at h1
    cases h2 : (fields.take 2).foldl (finStep d) (some fun _ => 0) with
    | none => rw [h2, finStep_none] at h1; exact absurd h1 (by simp)
    | some c2 =>
      rw [h2] at h1
      simp only [List.foldl_cons, List.foldl_nil, finStep, Option.bind_some, hm, setField, ne_eq, not_true, if_false] at h1
      split_ifs at h1
      simp only [Option.some.injEq] at h1
      rw [← h1]
      rfl

/-- Four vertices with ten markers: the library is told of ten points. -/
example : (fin fun k => if k = "pointlist" then some (4, 2) else if k = "pointmarkerlist" then some (10, 1) else none).map
    (fun c => c "numberofpoints") = some 10 := by decide +kernel

/-- **C368** (part) If all arrays that share a counter agree on it, the library is told the shapes of all arrays.  Missing: arrays that
disagree, which are not refused. -/
theorem C368_consistent_partial (d : String → Option (Nat × Nat)) (V : String → Nat) (hn : d "neighborlist" = none)
    (hV : ∀ f ∈ fields, ∀ s, d f.name = some s → s.1 = V f.rows ∧ s.2 = (match f.width with | .const n => n | .counter k => V k)) :
    ∃ c, fin d = some c ∧ ∀ f ∈ fields, ∀ s, d f.name = some s → c f.rows = s.1 ∧ ∀ k, f.width = .counter k → c k = s.2 := by
  have key : ∀ l : List Field, (∀ f ∈ l, f ∈ fields) → ∀ c : Counters, ∃ c', l.foldl (finStep d) (some c) = some c' ∧
      (∀ k, c k = V k → c' k = V k) ∧ ∀ f ∈ l, ∀ s, d f.name = some s → c' f.rows = V f.rows ∧ ∀ k, f.width = .counter k → c' k = V k := by
    intro l
    induction l with
    | nil => intro _ c; exact ⟨c, rfl, fun _ h => h, fun f hf => by simp at hf⟩
    | cons f l ih =>
      intro hl c
      have hstep : ∃ c1, finStep d (some c) f = some c1 ∧ (∀ k, c k = V k → c1 k = V k) ∧
          ∀ s, d f.name = some s → c1 f.rows = V f.rows ∧ ∀ k, f.width = .counter k → c1 k = V k := by
        cases hd : d f.name with
        | none => exact ⟨c, by simp only [finStep, Option.bind_some, hd], fun _ h => h, fun s hs => by simp at hs⟩
        | some s =>
          obtain ⟨v1, v2⟩ := hV f (hl f List.mem_cons_self) s hd
          have hty : f.dtype = f.buffer := by
            have hf := hl f List.mem_cons_self
            simp only [fields, List.mem_cons, List.not_mem_nil, or_false] at hf
            rcases hf with rfl | rfl | rfl | rfl | rfl | rfl | rfl | rfl | rfl | rfl | rfl | rfl | rfl | rfl
            all_goals first | rfl | (rw [hn] at hd; exact absurd hd (by simp))
          simp only [finStep, Option.bind_some, hd, setField, hty, ne_eq, not_true, if_false]
          cases hw : f.width with
          | const n =>
            rw [hw] at v2
            simp only at v2 ⊢
            rw [if_pos v2]
            refine ⟨_, rfl, fun k hk => ?_, fun _ _ => ⟨?_, fun k hk => by simp at hk⟩⟩
            · by_cases e : k = f.rows
              · simp only [e, if_true, v1]
              · simp only [e, if_false, hk]
            · simp only [if_true, v1]
          | counter name =>
            rw [hw] at v2
            simp only at v2 ⊢
            refine ⟨_, rfl, fun k hk => ?_, fun _ _ => ⟨?_, fun k hk => ?_⟩⟩
            · by_cases e : k = name
              · simp only [e, if_true, v2]
              · by_cases e' : k = f.rows
                · simp only [e, if_false, ← e']; rw [if_pos trivial, v1, e']
                · simp only [e, e', if_false, hk]
            · by_cases e : f.rows = name
              · simp only [e, if_true, v2]
              · simp only [e, if_false, if_true, v1]
            · simp only [Width.counter.injEq] at hk
              simp only [hk, if_true, v2]
      obtain ⟨c1, e1, m1, g1⟩ := hstep
      obtain ⟨c2, e2, m2, g2⟩ := ih (fun f hf => hl f (List.mem_cons_of_mem _ hf)) c1
      refine ⟨c2, by rw [List.foldl_cons, e1, e2], fun k hk => m2 k (m1 k hk), fun f' hf' s hs => ?_⟩
      rcases List.mem_cons.1 hf' with rfl | hf'
      · obtain ⟨a, b⟩ := g1 s hs
        exact ⟨m2 _ a, fun k hk => m2 _ (b k hk)⟩
      · exact g2 f' hf' s hs
  obtain ⟨c, e, -, g⟩ := key fields (fun _ h => h) fun _ => 0
  refine ⟨c, e, fun f hf s hs => ?_⟩
  obtain ⟨a, b⟩ := g f hf s hs
  obtain ⟨v1, v2⟩ := hV f hf s hs
  refine ⟨by rw [a, v1], fun k hk => ?_⟩
  rw [hk] at v2
  rw [b k hk, v2]

/-- Vertices with attributes and triangles: all counters are those of the arrays. -/
example : (fin fun k => if k = "pointlist" then some (4, 2) else if k = "pointattributelist" then some (4, 5)
    else if k = "trianglelist" then some (2, 3) else none).map
    (fun c => (c "numberofpoints", c "numberofpointattributes", c "numberoftriangles", c "numberofcorners")) = some (4, 5, 2, 3) := by
  decide +kernel

/-- **C369** Renaming the keys to those of the library and back gives the dictionary back. -/
theorem C369_rename {α : Type} (d e : List (String × α)) (h : toC d = some e) : fromC e = some d := by
  induction d generalizing e with
  | nil => simp only [toC, List.mapM_nil] at h; cases h; rfl
  | cons kv d ih =>
    simp only [toC, List.mapM_cons] at h
    cases hf : terms.find? (fun t => t.2 = kv.1) with
    | none => rw [hf] at h; simp at h
    | some t =>
      rw [hf] at h
      cases hd : toC d with
      | none => simp only [toC] at hd; rw [hd] at h; simp at h
      | some e' =>
        simp only [toC] at hd
        rw [hd] at h
        have he : (t.1, kv.2) :: e' = e := by simpa using h
        subst he
        have := ih e' (by simpa only [toC] using hd)
        simp only [fromC] at this ⊢
        rw [List.mapM_cons, this]
        have hm := List.mem_of_find?_eq_some hf
        have hk : t.2 = kv.1 := by simpa using List.find?_some hf
        have ht : terms.find? (fun t' => t'.1 = t.1) = some t := by
          simp only [terms, List.mem_cons, List.not_mem_nil, or_false] at hm
          rcases hm with rfl | rfl | rfl | rfl | rfl | rfl | rfl | rfl | rfl | rfl | rfl | rfl | rfl <;> rfl
        simp only [ht, Option.map_some]
        rw [hk]
        rfl

/-- **C369** (negation) A result with neighbours cannot be handed in again: they are converted to floats for a buffer of integers, and
the call raises whatever the other arrays are. -/
theorem C369_neighbors_refuted (d : String → Option (Nat × Nat)) (s : Nat × Nat) (h : d "neighborlist" = some s) : fin d = none := by
  rw [fin_eq, ← List.take_append_drop 7 fields, List.foldl_append]
  rw [show fields.take 7 = fields.take 6 ++ [⟨"neighborlist", .double, .intc, "numberoftriangles", .const 3⟩] from rfl, List.foldl_append]
  cases h2 : (fields.take 6).foldl (finStep d) (some fun _ => 0) with
  | none => rw [finStep_none, finStep_none]
  | some c =>
    simp only [List.foldl_cons, List.foldl_nil, finStep, Option.bind_some, h, setField]
    rw [if_pos (by decide)]
    exact finStep_none d _

example : toC [("vertices", 1), ("neighbors", 2)] = some [("pointlist", 1), ("neighborlist", 2)] ∧ toC [("regoins", 1)] = none := by
  decide +kernel

end Verif.Tri
