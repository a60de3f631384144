import Verif.Tri.Model
import Mathlib.Data.List.Forall2
import Mathlib.Tactic.Ring

/-! # C361–C366: the reader of Triangle's files -/

namespace Verif.Tri

variable {K : Type}

/-! ## C361: comments -/

/-- **C361** A text without `#` is left alone. -/
theorem C361_no_comment (s : Text) (h : '#' ∉ s) : removeComments s = s := by
  induction s with
  | nil => rfl
  | cons c s ih =>
    simp only [List.mem_cons, not_or] at h
    rw [removeComments, if_neg (fun e => h.1 e.symm), ih h.2]

theorem removeComments'_line (b s : Text) (hb : '\n' ∉ b) :
    removeComments.removeComments' (b ++ '\n' :: s) = removeComments s := by
  induction b with
  | nil => simp [removeComments.removeComments']
  | cons c b ih =>
    simp only [List.mem_cons, not_or] at hb
    rw [List.cons_append, removeComments.removeComments', if_neg (fun e => hb.1 e.symm), ih hb.2]

/-- **C361** A comment that ends with a newline is removed together with the newline, and nothing else is. -/
theorem C361_comment (a b s : Text) (ha : '#' ∉ a) (hb : '\n' ∉ b) :
    removeComments (a ++ '#' :: (b ++ '\n' :: s)) = a ++ removeComments s := by
  induction a with
  | nil =>
    rw [List.nil_append, removeComments, if_pos rfl, if_pos (by simp), removeComments'_line b s hb, List.nil_append]
  | cons c a ih =>
    simp only [List.mem_cons, not_or] at ha
    rw [List.cons_append, removeComments, if_neg (fun e => ha.1 e.symm), ih ha.2, List.cons_append]

/-- **C361** (negation) A comment at the end of the text without a newline stays. -/
theorem C361_last_refuted (a b : Text) (ha : '#' ∉ a) (hb : '\n' ∉ b) : removeComments (a ++ '#' :: b) = a ++ '#' :: b := by
  induction a with
  | nil => rw [List.nil_append, removeComments, if_pos rfl, if_neg hb]
  | cons c a ih =>
    simp only [List.mem_cons, not_or] at ha
    rw [List.cons_append, removeComments, if_neg (fun e => ha.1 e.symm), ih ha.2]

example : removeComments "1 2 # three\n4#5\n6".toList = "1 2 46".toList ∧ removeComments "1 # end".toList = "1 # end".toList := by decide

/-! ## Tables -/

/-- The tokens spell the values, entry by entry. -/
def Spells {α : Type} (f : Tok → Option α) : List (List Tok) → List (List α) → Prop :=
  List.Forall₂ (List.Forall₂ fun t x => f t = some x)

theorem mapM_of_forall₂ {α β : Type} (f : α → Option β) : ∀ (l : List α) (m : List β), List.Forall₂ (fun a b => f a = some b) l m →
    l.mapM f = some m := by
  intro l m h
  induction h with
  | nil => rfl
  | cons h _ ih => rw [List.mapM_cons, h, ih]; rfl

theorem readAll_of_spells {α : Type} (f : Tok → Option α) (l : List (List Tok)) (m : List (List α)) (h : Spells f l m) :
    readAll f l = some m :=
  mapM_of_forall₂ _ _ _ (h.imp fun _ _ h => mapM_of_forall₂ f _ _ h)

theorem spells_nil {β α : Type} (rows : List β) (f : Tok → Option α) (g : β → List Tok) (hg : ∀ r ∈ rows, (g r).length = 0) :
    Spells f (rows.map g) (rows.map fun _ => []) := by
  unfold Spells
  rw [List.forall₂_map_left_iff, List.forall₂_map_right_iff, List.forall₂_same]
  intro r hr
  rw [List.length_eq_zero_iff.1 (hg r hr)]
  exact List.Forall₂.nil

theorem flatten_length {α : Type} (w : Nat) (v : List (List α)) (h : ∀ r ∈ v, r.length = w) : v.flatten.length = v.length * w := by
  induction v with
  | nil => simp
  | cons r v ih =>
    rw [List.flatten_cons, List.length_append, ih fun r hr => h r (List.mem_cons_of_mem _ hr), h r List.mem_cons_self, List.length_cons]
    ring

theorem reshape_flatten {α : Type} (w : Nat) (hw : 0 < w) (v : List (List α)) (h : ∀ r ∈ v, r.length = w) :
    reshape w v.flatten = some v := by
  unfold reshape
  rw [flatten_length w v h, if_pos (Nat.mul_mod_left _ _), Nat.mul_div_cancel _ hw]
  congr 1
  induction v with
  | nil => rfl
  | cons r v ih =>
    have hr := h r List.mem_cons_self
    rw [List.length_cons, List.range_succ_eq_map, List.map_cons, List.map_map, List.flatten_cons]
    congr 1
    · rw [Nat.zero_mul, List.drop_zero, ← hr, List.take_left]
    · refine Eq.trans ?_ (ih fun r hr => h r (List.mem_cons_of_mem _ hr))
      apply List.map_congr_left
      intro i _
      simp only [Function.comp]
      rw [List.drop_append, List.drop_eq_nil_of_le (by rw [hr]; exact Nat.le_mul_of_pos_left _ (Nat.succ_pos i)), List.nil_append,
        hr, show i.succ * w - w = i * w by rw [Nat.succ_mul]; omega]

/-- The table at the front of the rest of the tokens is found, also if the header announces more rows than there are and nothing follows. -/
theorem take_table {α : Type} (w n : Nat) (v : List (List α)) (extra : List α) (h : ∀ r ∈ v, r.length = w)
    (hn : n = v.length ∨ (v.length ≤ n ∧ extra = [])) :
    (v.flatten ++ extra).take (n * w) = v.flatten ∧ (v.flatten ++ extra).drop (n * w) = extra := by
  have hl := flatten_length w v h
  rcases hn with rfl | ⟨hn, rfl⟩
  · rw [← hl]; exact ⟨List.take_left, List.drop_left⟩
  · have : v.flatten.length ≤ n * w := by rw [hl]; exact Nat.mul_le_mul_right w hn
    rw [List.append_nil]
    exact ⟨List.take_of_length_le this, List.drop_eq_nil_of_le this⟩

theorem cols_map {α β : Type} (l : List α) (f g : α → List β) (a b : Nat) (h : ∀ r ∈ l, ((f r).drop a).take (b - a) = g r) :
    cols a b (l.map f) = l.map g := by
  unfold cols
  rw [List.map_map]
  exact List.map_congr_left h

/-- A row of a file: the number, and three groups of entries. -/
structure Row where
  num : Tok
  a : List Tok
  b : List Tok
  c : List Tok

def Row.toks (r : Row) : List Tok := r.num :: (r.a ++ (r.b ++ r.c))

/-- Groups of the sizes `p`, `q`, `s`. -/
def Sized (rows : List Row) (p q s : Nat) : Prop := ∀ r ∈ rows, r.a.length = p ∧ r.b.length = q ∧ r.c.length = s

theorem Sized.length {rows : List Row} {p q s : Nat} (h : Sized rows p q s) : ∀ t ∈ rows.map Row.toks, t.length = 1 + p + q + s := by
  intro t ht
  obtain ⟨r, hr, rfl⟩ := List.mem_map.1 ht
  obtain ⟨h1, h2, h3⟩ := h r hr
  simp only [Row.toks, List.length_cons, List.length_append, h1, h2, h3]
  omega

theorem Sized.colsA {rows : List Row} {p q s : Nat} (h : Sized rows p q s) : cols 1 (1 + p) (rows.map Row.toks) = rows.map Row.a := by
  apply cols_map
  intro r hr
  obtain ⟨h1, h2, h3⟩ := h r hr
  rw [Row.toks, List.drop_one, List.tail_cons, show 1 + p - 1 = r.a.length by omega, List.take_left]

theorem Sized.colsB {rows : List Row} {p q s : Nat} (h : Sized rows p q s) :
    cols (1 + p) (1 + p + q) (rows.map Row.toks) = rows.map Row.b := by
  apply cols_map
  intro r hr
  obtain ⟨h1, h2, h3⟩ := h r hr
  rw [Row.toks, show 1 + p = r.a.length + 1 by omega, List.drop_succ_cons, List.drop_left,
    show r.a.length + 1 + q - (r.a.length + 1) = r.b.length by omega, List.take_left]

theorem Sized.colsC {rows : List Row} {p q s : Nat} (h : Sized rows p q s) :
    cols (1 + p + q) (1 + p + q + s) (rows.map Row.toks) = rows.map Row.c := by
  apply cols_map
  intro r hr
  obtain ⟨h1, h2, h3⟩ := h r hr
  rw [Row.toks, show 1 + p + q = r.a.length + r.b.length + 1 by omega, List.drop_succ_cons, List.drop_append,
    List.drop_eq_nil_of_le (by omega), List.nil_append, show r.a.length + r.b.length - r.a.length = r.b.length by omega, List.drop_left,
    List.take_of_length_le (by omega)]

theorem header4 {t1 t2 t3 t4 : Tok} {a b c d : Nat} (h1 : readNat t1 = some a) (h2 : readNat t2 = some b) (h3 : readNat t3 = some c)
    (h4 : readNat t4 = some d) (l : List Tok) : header 4 (([t1, t2, t3, t4] ++ l).take 4) = some [a, b, c, d] := by
  simp [header, h1, h2, h3, h4]

theorem header3 {t1 t2 t3 : Tok} {a b c : Nat} (h1 : readNat t1 = some a) (h2 : readNat t2 = some b) (h3 : readNat t3 = some c)
    (l : List Tok) : header 3 (([t1, t2, t3] ++ l).take 3) = some [a, b, c] := by
  simp [header, h1, h2, h3]

theorem header2 {t1 t2 : Tok} {a b : Nat} (h1 : readNat t1 = some a) (h2 : readNat t2 = some b) (l : List Tok) :
    header 2 (([t1, t2] ++ l).take 2) = some [a, b] := by
  simp [header, h1, h2]

theorem header1 {t1 : Tok} {a : Nat} (h1 : readNat t1 = some a) (l : List Tok) : header 1 (([t1] ++ l).take 1) = some [a] := by
  simp [header, h1]

/-! ## C362: vertices -/

/-- The announced number of rows is the number of rows, or larger at the end of the text. -/
def Announced (n : Nat) (rows : List Row) (extra : List Tok) : Prop := n = rows.length ∨ (rows.length ≤ n ∧ extra = [])

theorem readVertices_spec (dbl : Tok → Option K) (rows : List Row) (hne : rows ≠ []) (na nb n : Nat) (hs : Sized rows 2 na nb)
    (X A : List (List K)) (M : List (List Int)) (hX : Spells dbl (rows.map Row.a) X) (hA : Spells dbl (rows.map Row.b) A)
    (hM : Spells readInt (rows.map Row.c) M) (t1 t2 t3 t4 : Tok) (h1 : readNat t1 = some n) (h2 : readNat t2 = some 2)
    (h3 : readNat t3 = some na) (h4 : readNat t4 = some nb) (extra : List Tok) (hn : Announced n rows extra) (s : State K) :
    readVertices dbl ([t1, t2, t3, t4] ++ ((rows.map Row.toks).flatten ++ extra)) s
      = some (extra, ⟨(rows.head hne).num = ['0'], { s.data with
          vertices := some X
          vertexAttributes := if 0 < na then some A else s.data.vertexAttributes
          vertexMarkers := if 0 < nb then some M else s.data.vertexMarkers }⟩) := by
  unfold readVertices
  rw [header4 h1 h2 h3 h4]
  have hn0 : n ≠ 0 := by
    have : 0 < rows.length := List.length_pos_iff.2 hne
    rcases hn with h | ⟨h, _⟩ <;> omega
  have hd : ([t1, t2, t3, t4] ++ ((rows.map Row.toks).flatten ++ extra)).drop 4 = (rows.map Row.toks).flatten ++ extra := rfl
  simp only [if_neg hn0, hd]
  obtain ⟨e1, e2⟩ := take_table (1 + 2 + na + nb) n (rows.map Row.toks) extra hs.length (by simpa [Announced] using hn)
  rw [e1, e2, reshape_flatten _ (by omega) _ hs.length]
  have hh : (rows.map Row.toks).head?.bind (fun r => r.head?) = some (rows.head hne).num := by
    cases rows with
    | nil => exact absurd rfl hne
    | cons r rows => rfl
  have c1 := hs.colsA
  have c2 := hs.colsB
  have c3 := hs.colsC
  simp only [hh, show (3 : Nat) = 1 + 2 from rfl, c1, c2, c3, readAll_of_spells _ _ _ hX, readAll_of_spells _ _ _ hA,
    readAll_of_spells _ _ _ hM]

theorem text_ne {t : Text} {x : Tok} {l : List Tok} (h : tokens (removeComments t) = x :: l) : t ≠ [] := by
  rintro rfl; simp [removeComments, tokens, tokensAux] at h

/-- **C362** A node file is read back: whatever the layout, the comments, the numbering and the spelling of the numbers, and whatever
follows, `loads` returns the coordinates, attributes and markers of its rows. -/
theorem C362_node [Zero K] (dbl : Tok → Option K) (text : Text) (rows : List Row) (hne : rows ≠ []) (na nb : Nat)
    (hs : Sized rows 2 na nb) (X A : List (List K)) (M : List (List Int)) (hX : Spells dbl (rows.map Row.a) X)
    (hA : Spells dbl (rows.map Row.b) A) (hM : Spells readInt (rows.map Row.c) M) (t1 t2 t3 t4 : Tok)
    (h1 : readNat t1 = some rows.length) (h2 : readNat t2 = some 2) (h3 : readNat t3 = some na) (h4 : readNat t4 = some nb)
    (extra : List Tok) (ht : tokens (removeComments text) = [t1, t2, t3, t4] ++ ((rows.map Row.toks).flatten ++ extra)) :
    loads dbl { node := text } = some { vertices := some X, vertexAttributes := if 0 < na then some A else none,
                                        vertexMarkers := if 0 < nb then some M else none } := by
  have hr := readVertices_spec dbl rows hne na nb rows.length hs X A M hX hA hM t1 t2 t3 t4 h1 h2 h3 h4 extra (Or.inl rfl) {}
  rw [← ht] at hr
  simp only [loads, given, if_neg (text_ne ht), hr, Option.map_some, Option.bind_some, if_true]

/-- **C366** (negation) A file that was cut off after a full row is read without complaint: `loads` returns the rows that are left,
whatever number of vertices the header announces. -/
theorem C366_truncated_refuted [Zero K] (dbl : Tok → Option K) (text : Text) (rows : List Row) (hne : rows ≠ []) (n : Nat)
    (hn : rows.length < n) (hs : Sized rows 2 0 0) (X : List (List K)) (hX : Spells dbl (rows.map Row.a) X) (t1 t2 t3 t4 : Tok)
    (h1 : readNat t1 = some n) (h2 : readNat t2 = some 2) (h3 : readNat t3 = some 0) (h4 : readNat t4 = some 0)
    (ht : tokens (removeComments text) = [t1, t2, t3, t4] ++ (rows.map Row.toks).flatten) :
    loads dbl { node := text } = some { vertices := some X } := by
  have hr := readVertices_spec dbl rows hne 0 0 n hs X _ _ hX (spells_nil rows dbl Row.b fun r hr => (hs r hr).2.1)
    (spells_nil rows readInt Row.c fun r hr => (hs r hr).2.2) t1 t2 t3 t4 h1 h2 h3 h4 [] (Or.inr ⟨hn.le, rfl⟩) {}
  rw [List.append_nil, ← ht] at hr
  simp only [loads, given, if_neg (text_ne ht), hr, Option.map_some, Option.bind_some, if_true, Nat.lt_irrefl, if_false]

/-- **C366** A file of vertices that was cut off inside a row is refused. -/
theorem C366_inside_row_partial [Zero K] (dbl : Tok → Option K) (text : Text) (n dim na nb : Nat) (t1 t2 t3 t4 : Tok) (rest : List Tok)
    (h1 : readNat t1 = some n) (h2 : readNat t2 = some dim) (h3 : readNat t3 = some na) (h4 : readNat t4 = some nb)
    (ht : tokens (removeComments text) = [t1, t2, t3, t4] ++ rest) (hl : rest.length < n * (1 + dim + na + nb))
    (hm : rest.length % (1 + dim + na + nb) ≠ 0) : loads dbl { node := text } = none := by
  have hn0 : n ≠ 0 := by rintro rfl; simp at hl
  have hr : ∀ s : State K, readVertices dbl ([t1, t2, t3, t4] ++ rest) s = none := fun s => by
    unfold readVertices
    rw [header4 h1 h2 h3 h4]
    have hd : ([t1, t2, t3, t4] ++ rest).drop 4 = rest := rfl
    simp only [hd, if_neg hn0, List.take_of_length_le hl.le, reshape, if_neg hm]
  simp only [loads, given, if_neg (text_ne ht), ht, hr, Option.map_none, Option.bind_none]

/-! ## C363: triangles -/

theorem readEle_spec (dbl : Tok → Option K) (rows : List Row) (hne : rows ≠ []) (nn na n : Nat) (hs : Sized rows nn na 0)
    (T : List (List Int)) (A : List (List K)) (hT : Spells readInt (rows.map Row.a) T) (hA : Spells dbl (rows.map Row.b) A)
    (t1 t2 t3 : Tok) (h1 : readNat t1 = some n) (h2 : readNat t2 = some nn) (h3 : readNat t3 = some na)
    (extra : List Tok) (hn : Announced n rows extra) (s : State K) :
    readEle dbl ([t1, t2, t3] ++ ((rows.map Row.toks).flatten ++ extra)) s
      = some ⟨s.zero, { s.data with
          triangles := some (shift s.zero T)
          triangleAttributes := if 0 < na then some A else s.data.triangleAttributes }⟩ := by
  unfold readEle
  rw [header3 h1 h2 h3]
  have hn0 : n ≠ 0 := by
    have : 0 < rows.length := List.length_pos_iff.2 hne
    rcases hn with h | ⟨h, _⟩ <;> omega
  have hd : ([t1, t2, t3] ++ ((rows.map Row.toks).flatten ++ extra)).drop 3 = (rows.map Row.toks).flatten ++ extra := rfl
  simp only [if_neg hn0, hd]
  obtain ⟨e1, e2⟩ := take_table (1 + nn + na) n (rows.map Row.toks) extra hs.length (by simpa [Announced] using hn)
  rw [e1, reshape_flatten (1 + nn + na) (by omega) _ hs.length]
  have c1 := hs.colsA
  have c2 := hs.colsB
  simp only [Nat.add_comm nn 1, c1, c2, readAll_of_spells _ _ _ hT, readAll_of_spells _ _ _ hA]

/-- **C363** With the node file at hand, the triangles are numbered from 0, whether the files count from 0 or from 1. -/
theorem C363_triangles [Zero K] (dbl : Tok → Option K) (node ele : Text) (vr tr : List Row) (hv : vr ≠ []) (ht : tr ≠ []) (nn : Nat)
    (sv : Sized vr 2 0 0) (st : Sized tr nn 0 0) (X : List (List K)) (T : List (List Int)) (hX : Spells dbl (vr.map Row.a) X)
    (hT : Spells readInt (tr.map Row.a) T) (t1 t2 t3 t4 u1 u2 u3 : Tok) (h1 : readNat t1 = some vr.length) (h2 : readNat t2 = some 2)
    (h3 : readNat t3 = some 0) (h4 : readNat t4 = some 0) (k1 : readNat u1 = some tr.length) (k2 : readNat u2 = some nn)
    (k3 : readNat u3 = some 0) (extra extra' : List Tok)
    (hn : tokens (removeComments node) = [t1, t2, t3, t4] ++ ((vr.map Row.toks).flatten ++ extra))
    (he : tokens (removeComments ele) = [u1, u2, u3] ++ ((tr.map Row.toks).flatten ++ extra'))
    (base : Int) (hb : (base = 0 ∧ (vr.head hv).num = ['0']) ∨ (base = 1 ∧ (vr.head hv).num = ['1'])) :
    loads dbl { node := node, ele := ele } = some { vertices := some X, triangles := some (T.map fun r => r.map fun i => i - base) } := by
  have e1 := readVertices_spec dbl vr hv 0 0 vr.length sv X _ _ hX (spells_nil vr dbl Row.b fun r hr => (sv r hr).2.1)
    (spells_nil vr readInt Row.c fun r hr => (sv r hr).2.2) t1 t2 t3 t4 h1 h2 h3 h4 extra (Or.inl rfl) {}
  rw [← hn] at e1
  have e2 := fun s => readEle_spec dbl tr ht nn 0 tr.length st T _ hT (spells_nil tr dbl Row.b fun r hr => (st r hr).2.1) u1 u2 u3 k1 k2 k3
    extra' (Or.inl rfl) s
  rw [← he] at e2
  simp only [loads, given, if_neg (text_ne hn), if_neg (text_ne he), e1, e2, Option.map_some, Option.bind_some, if_true, Nat.lt_irrefl,
    if_false]
  rcases hb with ⟨rfl, h⟩ | ⟨rfl, h⟩
  · simp [h, shift]
  · simp [h, shift, dec]

/-- **C363** (negation) Without the node file the numbers are returned as they stand: triangles of a file that counts from 1 point to the
wrong vertices, the largest number to none. -/
theorem C363_alone_refuted [Zero K] (dbl : Tok → Option K) (ele : Text) (tr : List Row) (ht : tr ≠ []) (nn : Nat)
    (st : Sized tr nn 0 0) (T : List (List Int)) (hT : Spells readInt (tr.map Row.a) T) (u1 u2 u3 : Tok)
    (k1 : readNat u1 = some tr.length) (k2 : readNat u2 = some nn) (k3 : readNat u3 = some 0) (extra' : List Tok)
    (he : tokens (removeComments ele) = [u1, u2, u3] ++ ((tr.map Row.toks).flatten ++ extra')) :
    loads dbl { ele := ele } = some { triangles := some T } := by
  have e2 := fun s => readEle_spec dbl tr ht nn 0 tr.length st T _ hT (spells_nil tr dbl Row.b fun r hr => (st r hr).2.1) u1 u2 u3 k1 k2 k3
    extra' (Or.inl rfl) s
  rw [← he] at e2
  simp only [loads, given, if_neg (text_ne he), e2, Option.map_some, Option.bind_some, if_true, Nat.lt_irrefl,
    if_false, shift]

end Verif.Tri
