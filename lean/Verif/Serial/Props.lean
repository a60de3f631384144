import Verif.Serial.Model
import Mathlib.Tactic.SplitIfs
import Mathlib.Tactic.Common
import Mathlib.Data.List.Basic

/-! # C38: serialised curves; C112: pickled curves -/

set_option linter.unusedSectionVars false

namespace Verif.Serial

variable {D : Type}

theorem readU32_le32 (n : Nat) (h : n < 4294967296) (r : Bytes) :
    readU32 (le32 n ++ r) = .ok (n, r) := by
  simp only [le32, List.cons_append, List.nil_append, readU32]
  congr 2
  omega

theorem take_magic (r : Bytes) : (magic ++ r).take 4 = magic := rfl

theorem drop_magic (r : Bytes) : (magic ++ r).drop 4 = r := rfl

theorem toI32_toU32 (z : Int) (h1 : -2147483648 ≤ z) (h2 : z < 2147483648) : toI32 (toU32 z) = z := by
  unfold toI32 toU32
  split_ifs <;> omega

theorem toU32_lt (z : Int) : toU32 z < 4294967296 := by unfold toU32; omega

theorem rawBytes_succ (k : Codec D) (mem : Nat → D) (n : Nat) :
    rawBytes k mem (n + 1) = k.enc (mem 0) ++ rawBytes k (fun i => mem (i + 1)) n := by
  simp only [rawBytes, List.range_succ_eq_map, List.flatMap_cons, List.flatMap_map]

theorem rawBytes_length (k : Codec D) : ∀ (n : Nat) (mem : Nat → D),
    (rawBytes k mem n).length = 8 * n
  | 0, _ => rfl
  | n + 1, mem => by
    rw [rawBytes_succ, List.length_append, k.size, rawBytes_length k n]
    omega

theorem readDoubles_raw (k : Codec D) : ∀ (n : Nat) (mem : Nat → D) (r : Bytes),
    readDoubles k n (rawBytes k mem n ++ r) = .ok ((List.range n).map mem, r)
  | 0, mem, r => rfl
  | n + 1, mem, r => by
    rw [rawBytes_succ, List.append_assoc, readDoubles]
    have hl : ¬ (k.enc (mem 0) ++ (rawBytes k (fun i => mem (i + 1)) n ++ r)).length < 8 := by
      rw [List.length_append, k.size]; omega
    rw [if_neg hl, List.drop_append_of_le_length (Nat.le_of_eq (k.size _).symm),
      List.take_append_of_le_length (Nat.le_of_eq (k.size _).symm)]
    have h8 : (k.enc (mem 0)).drop 8 = [] := List.drop_eq_nil_of_le (Nat.le_of_eq (k.size _))
    have t8 : (k.enc (mem 0)).take 8 = k.enc (mem 0) := List.take_of_length_le (Nat.le_of_eq (k.size _))
    rw [h8, t8, List.nil_append, readDoubles_raw k n, k.inv]
    dsimp only
    rw [List.range_succ_eq_map, List.map_cons, List.map_map]
    rfl

theorem readDoubles_short (k : Codec D) : ∀ (n : Nat) (b : Bytes), b.length < 8 * n →
    readDoubles k n b = .error .outside
  | 0, b, h => absurd h (Nat.not_lt_zero _)
  | n + 1, b, h => by
    rw [readDoubles]
    split_ifs with c
    · rfl
    · rw [readDoubles_short k n (b.drop 8) (by rw [List.length_drop]; omega)]

theorem err_only (k : Codec D) : ∀ (n : Nat) (b : Bytes) (e : Err), readDoubles k n b = .error e →
    e ≠ .outside → False
  | 0, b, e, h, _ => by cases h
  | n + 1, b, e, h, he => by
    rw [readDoubles] at h
    split_ifs at h with c
    · cases h; exact he rfl
    · cases hr : readDoubles k n (b.drop 8) with
      | error e' => rw [hr] at h; cases h; exact err_only k n _ _ hr he
      | ok p => rw [hr] at h; cases h

/-- What is left after reading doubles. -/
theorem readDoubles_rest (k : Codec D) : ∀ (n : Nat) (b : Bytes) (l : List D) (r : Bytes),
    readDoubles k n b = .ok (l, r) → r = b.drop (8 * n) ∧ l.length = n ∧ 8 * n ≤ b.length
  | 0, b, l, r, h => by
    rw [readDoubles] at h
    cases h
    simp
  | n + 1, b, l, r, h => by
    rw [readDoubles] at h
    split_ifs at h with c
    cases hr : readDoubles k n (b.drop 8) with
    | error e => rw [hr] at h; cases h
    | ok p =>
      obtain ⟨l', r'⟩ := p
      rw [hr] at h
      cases h
      obtain ⟨h1, h2, h3⟩ := readDoubles_rest k n _ _ _ hr
      rw [List.length_drop] at h3
      refine ⟨?_, by simp [h2], by omega⟩
      rw [h1, List.drop_drop]
      congr 1
      omega

theorem rows4_range (n : Nat) : ∀ (mem : Nat → D),
    rows4 n ((List.range (n * 4)).map mem) =
      (List.range n).map fun i => (List.range 4).map fun j => mem (i * 4 + j) := by
  induction n with
  | zero => intro mem; rfl
  | succ n ih =>
    intro mem
    have e : (List.range ((n + 1) * 4)).map mem =
        [mem 0, mem 1, mem 2, mem 3] ++ (List.range (n * 4)).map fun i => mem (i + 4) := by
      rw [show (n + 1) * 4 = 4 + n * 4 by omega, List.range_add, List.map_append, List.map_map]
      congr 1
      apply List.map_congr_left
      intro a _
      simp only [Function.comp]
      congr 1
      omega
    have t4 : ∀ r : List D, ([mem 0, mem 1, mem 2, mem 3] ++ r).take 4 = [mem 0, mem 1, mem 2, mem 3] :=
      fun _ => rfl
    have d4 : ∀ r : List D, ([mem 0, mem 1, mem 2, mem 3] ++ r).drop 4 = r := fun _ => rfl
    rw [e, rows4, t4, d4, ih, List.range_succ_eq_map (n := n), List.map_cons,
      List.map_map]
    congr 1
    apply List.map_congr_left
    intro a _
    simp only [Function.comp]
    apply List.map_congr_left
    intro j _
    congr 1
    omega

/-- What a curve needs to be written and read back: contiguous arrays with four columns. -/
structure Plain (c : Curve D) : Prop where
  dim : c.ctrl.dim = 4
  row : c.ctrl.rowStride = 4
  col : c.ctrl.colStride = 1
  knots : c.knots.stride = 1

/-- Numbers in the range of the machine. -/
structure Small (c : Curve D) : Prop where
  lo : -2147483648 ≤ c.degree
  hi : c.degree < 2147483648
  rows : c.ctrl.rows < 536870912
  knots : c.knots.size < 2147483648

/-- What `deserialize` makes of a written curve whose array has four columns. -/
theorem deserialize_serialize (k : Codec D) (tail : Bytes) (c : Curve D) (hs : Small c)
    (hd : c.ctrl.dim = 4) :
    deserialize k (serialize k tail c) = .ok ⟨c.degree, c.periodic,
      (List.range c.ctrl.rows).map (fun i => (List.range 4).map fun j => c.ctrl.mem (i * 4 + j)),
      (List.range c.knots.size).map c.knots.mem⟩ := by
  unfold deserialize serialize
  have h4 : ∀ r : Bytes, ¬ (magic ++ r).length < 4 := by
    intro r; rw [List.length_append]; simp [magic]
  rw [if_neg (h4 _)]
  have ht : ∀ r : Bytes, (magic ++ r).take 4 = magic := fun r => List.take_left' rfl
  have hdr : ∀ r : Bytes, (magic ++ r).drop 4 = r := fun r => List.drop_left' rfl
  rw [if_neg (by rw [ht]; simp), hdr, readU32_le32 _ (by decide)]
  simp only [bind, Except.bind]
  rw [if_neg (by simp)]
  unfold readBody
  simp only [bind, Except.bind]
  rw [readU32_le32 _ (toU32_lt _)]
  dsimp only
  rw [readU32_le32 _ (by split_ifs <;> decide)]
  dsimp only
  rw [readU32_le32 _ (by have := hs.rows; omega)]
  dsimp only
  rw [readU32_le32 _ (by have := hs.knots; omega)]
  dsimp only
  rw [if_neg (by have := hs.rows; omega), if_neg (by have := hs.knots; omega), hd, readDoubles_raw]
  dsimp only
  rw [readDoubles_raw]
  dsimp only
  rw [toI32_toU32 _ hs.lo hs.hi, rows4_range]
  cases c.periodic <;> rfl

/-- A curve with contiguous arrays is read back as it was, whatever was in the uninitialised bytes.

`_partial`: for other memory layouts see `C38_strided_refuted` and `C38_columns_refuted`. -/
theorem C38_roundtrip_partial (k : Codec D) (tail : Bytes) (c : Curve D) (hs : Small c)
    (hp : Plain c) : deserialize k (serialize k tail c) = .ok c.val := by
  rw [deserialize_serialize k tail c hs hp.dim]
  simp [Curve.val, View.rowsOf, View1.items, hp.dim, hp.row, hp.col, hp.knots]

/-- Different curves are written differently. -/
theorem C38_injective_partial (k : Codec D) (t1 t2 : Bytes) (c1 c2 : Curve D) (h1 : Small c1)
    (h2 : Small c2) (p1 : Plain c1) (p2 : Plain c2) (hl : t1.length = t2.length)
    (h : serialize k t1 c1 = serialize k t2 c2) : c1.val = c2.val ∧ t1 = t2 := by
  have a := C38_roundtrip_partial k t1 c1 h1 p1
  have b := C38_roundtrip_partial k t2 c2 h2 p2
  rw [h] at a
  rw [a] at b
  refine ⟨by injection b, ?_⟩
  have hlen := congrArg List.length h
  unfold serialize at h
  simp only [← List.append_assoc] at h
  exact (List.append_inj' h hl).2

/-- Foreign data are rejected: another magic, another version. -/
theorem C38_rejects (k : Codec D) (b : Bytes) :
    (4 ≤ b.length → b.take 4 ≠ magic → deserialize k b = .error .magic) ∧
    (∀ n r, n < 4294967296 → n ≠ 1 → b = magic ++ (le32 n ++ r) →
      deserialize k b = .error .version) := by
  refine ⟨?_, ?_⟩
  · intro hl hm
    unfold deserialize
    rw [if_neg (by omega), if_pos hm]
  · intro n r hn h1 hb
    subst hb
    unfold deserialize
    rw [if_neg (by rw [List.length_append]; simp [magic]), take_magic, drop_magic]
    rw [if_neg (by simp), readU32_le32 _ hn]
    simp only [bind, Except.bind]
    exact if_pos h1

/-- Everything that is accepted has the magic and the version. -/
theorem C38_accepted (k : Codec D) (b : Bytes) (v : Val D) (h : deserialize k b = .ok v) :
    b.take 4 = magic ∧ ∃ r, readU32 (b.drop 4) = .ok (1, r) ∧ readBody k r = .ok v := by
  unfold deserialize at h
  by_cases c : b.length < 4
  · rw [if_pos c] at h; cases h
  rw [if_neg c] at h
  by_cases d : b.take 4 ≠ magic
  · rw [if_pos d] at h; cases h
  rw [if_neg d] at h
  refine ⟨not_not.mp d, ?_⟩
  cases hr : readU32 (b.drop 4) with
  | error e => rw [hr] at h; cases h
  | ok p =>
    obtain ⟨n, r⟩ := p
    rw [hr] at h
    simp only [bind, Except.bind] at h
    by_cases e : n ≠ version
    · rw [if_pos e] at h; cases h
    · rw [if_neg e] at h
      rw [not_not.mp e]
      exact ⟨r, rfl, h⟩

/-- The number of bytes: four more than the contents need. -/
theorem C38_length (k : Codec D) (tail : Bytes) (ht : tail.length = 4) (c : Curve D) :
    (serialize k tail c).length =
      24 + 8 * (c.ctrl.rows * c.ctrl.dim + c.knots.size) + 4 := by
  unfold serialize
  simp only [List.length_append, rawBytes_length, ht, magic, le32, List.length_cons, List.length_nil]
  omega

/-- The result is not a function of the curve: it ends with memory that was never written. -/
theorem C38_deterministic_refuted (k : Codec D) (t1 t2 : Bytes) (h : t1 ≠ t2) (c : Curve D) :
    serialize k t1 c ≠ serialize k t2 c := by
  intro e
  apply h
  unfold serialize at e
  simp only [List.append_cancel_left_eq] at e
  exact e

/-- A length is never checked: a curve whose data are cut off before the end of the knots, but after
the header, is not rejected with an error, memory behind the data is read. -/
theorem C38_truncated_refuted (k : Codec D) (tail : Bytes) (c : Curve D) (hs : Small c)
    (n : Nat) (hn : n < 24 + 8 * (c.ctrl.rows * c.ctrl.dim + c.knots.size)) (h24 : 24 ≤ n)
    (hd : c.ctrl.dim = 4) :
    deserialize k ((serialize k tail c).take n) = .error .outside := by
  obtain ⟨m, rfl⟩ : ∃ m, n = 24 + m := ⟨n - 24, by omega⟩
  have split : (serialize k tail c).take (24 + m) = magic ++ (le32 version ++ (le32 (toU32 c.degree) ++
      (le32 (if c.periodic then 1 else 0) ++ (le32 c.ctrl.rows ++ (le32 c.knots.size ++
      (rawBytes k c.ctrl.mem (c.ctrl.rows * c.ctrl.dim) ++
        (rawBytes k c.knots.mem c.knots.size ++ tail)).take m))))) := by
    rw [Nat.add_comm]
    rfl
  rw [split]
  unfold deserialize
  rw [if_neg (by rw [List.length_append]; simp [magic]), take_magic, drop_magic]
  rw [if_neg (by simp), readU32_le32 _ (by decide)]
  simp only [bind, Except.bind]
  rw [if_neg (by simp)]
  unfold readBody
  simp only [bind, Except.bind]
  rw [readU32_le32 _ (toU32_lt _)]
  dsimp only
  rw [readU32_le32 _ (by split_ifs <;> decide)]
  dsimp only
  rw [readU32_le32 _ (by have := hs.rows; omega)]
  dsimp only
  rw [readU32_le32 _ (by have := hs.knots; omega)]
  dsimp only
  rw [if_neg (by have := hs.rows; omega), if_neg (by have := hs.knots; omega)]
  generalize hb : (rawBytes k c.ctrl.mem (c.ctrl.rows * c.ctrl.dim) ++
        (rawBytes k c.knots.mem c.knots.size ++ tail)).take m = b
  have hlen : b.length ≤ m := by rw [← hb]; exact List.length_take_le _ _
  rw [hd] at hn
  cases hr : readDoubles k (c.ctrl.rows * 4) b with
  | error e =>
    by_cases hsh : b.length < 8 * (c.ctrl.rows * 4)
    · rw [readDoubles_short k _ _ hsh] at hr
      cases hr; rfl
    · exfalso
      have : ∀ (n : Nat) (b : Bytes), 8 * n ≤ b.length → ∀ e, readDoubles k n b ≠ .error e := by
        intro n
        induction n with
        | zero => intro b _ e h; cases h
        | succ n ih =>
          intro b hb e h
          rw [readDoubles, if_neg (by omega)] at h
          cases hq : readDoubles k n (b.drop 8) with
          | error e' => exact ih _ (by rw [List.length_drop]; omega) e' hq
          | ok p => rw [hq] at h; cases h
      exact this _ _ (by omega) _ hr
  | ok p =>
    obtain ⟨l, r⟩ := p
    obtain ⟨h1, _, _⟩ := readDoubles_rest k _ _ _ _ hr
    dsimp only
    rw [readDoubles_short k _ r (by rw [h1, List.length_drop]; omega)]

/-- Control points of three columns (assigned with `set`) are written but cannot be read. -/
theorem C38_columns_refuted (k : Codec D) (tail : Bytes) (ht : tail.length = 4) (c : Curve D)
    (hs : Small c) (hd : c.ctrl.dim = 3) (h1 : 0 < c.ctrl.rows) :
    deserialize k (serialize k tail c) = .error .outside := by
  unfold deserialize serialize
  rw [if_neg (by rw [List.length_append]; simp [magic]), take_magic, drop_magic]
  rw [if_neg (by simp), readU32_le32 _ (by decide)]
  simp only [bind, Except.bind]
  rw [if_neg (by simp)]
  unfold readBody
  simp only [bind, Except.bind]
  rw [readU32_le32 _ (toU32_lt _)]
  dsimp only
  rw [readU32_le32 _ (by split_ifs <;> decide)]
  dsimp only
  rw [readU32_le32 _ (by have := hs.rows; omega)]
  dsimp only
  rw [readU32_le32 _ (by have := hs.knots; omega)]
  dsimp only
  rw [if_neg (by have := hs.rows; omega), if_neg (by have := hs.knots; omega), hd]
  generalize hb : rawBytes k c.ctrl.mem (c.ctrl.rows * 3) ++
    (rawBytes k c.knots.mem c.knots.size ++ tail) = b
  have hlen : b.length = 8 * (c.ctrl.rows * 3) + (8 * c.knots.size + 4) := by
    rw [← hb]
    simp only [List.length_append, rawBytes_length, ht]
  cases hr : readDoubles k (c.ctrl.rows * 4) b with
  | error e =>
    cases e with
    | outside => rfl
    | magic =>
      exfalso
      exact err_only k _ _ _ hr (by simp)
    | version =>
      exfalso
      exact err_only k _ _ _ hr (by simp)
  | ok p =>
    obtain ⟨l, r⟩ := p
    obtain ⟨h2, _, _⟩ := readDoubles_rest k _ _ _ _ hr
    dsimp only
    rw [readDoubles_short k _ r (by rw [h2, List.length_drop]; omega)]

/-- Control points that are every `s`-th row of a larger array (assigned with `set`): the second point
read back is the row next to the first in memory. -/
theorem C38_strided_refuted (k : Codec D) (tail : Bytes) (c : Curve D) (hs : Small c)
    (hd : c.ctrl.dim = 4) (hc : c.ctrl.colStride = 1) (s : Nat) (hr : c.ctrl.rowStride = s * 4)
    (h2 : 2 ≤ c.ctrl.rows) (hne : c.ctrl.mem 4 ≠ c.ctrl.mem (s * 4)) :
    ∃ v, deserialize k (serialize k tail c) = .ok v ∧ v.ctrl ≠ c.val.ctrl := by
  refine ⟨_, deserialize_serialize k tail c hs hd, ?_⟩
  intro h
  obtain ⟨n, hn⟩ : ∃ n, c.ctrl.rows = 2 + n := ⟨c.ctrl.rows - 2, by omega⟩
  have h1 := congrArg (fun l => (l[1]?).bind (·[0]?)) h
  dsimp only [Curve.val, View.rowsOf] at h1
  rw [hd, hc, hr] at h1
  have hr1 : (List.range c.ctrl.rows)[1]? = some 1 := List.getElem?_range (by omega)
  rw [List.getElem?_map, List.getElem?_map, hr1] at h1
  simp at h1
  exact hne h1

/-! ## Pickling -/

variable (eq : D → D → Bool) (ofInt : Int → D)

/-- Rows of four numbers. -/
def Four (v : PVal D) : Prop := ∀ r ∈ v.ctrl, r.length = 4

theorem pad_four {pts : List (List D)} (h : ∀ r ∈ pts, r.length = 4) :
    pts.map (fun r => if r.length = 4 then r else r ++ [ofInt 1]) = pts := by
  have : ∀ r ∈ pts, (fun r : List D => if r.length = 4 then r else r ++ [ofInt 1]) r = id r := by
    intro r hr
    exact if_pos (h r hr)
  rw [List.map_congr_left this, List.map_id]

/-- Only the last of the compared rows counts. -/
theorem isPeriodic_last (p : Nat) (pts : List (List D)) (hp : p + 1 ≤ pts.length) :
    isPeriodic eq (p + 1) pts =
      rowEq eq (pts[p]'(by omega)) (pts[pts.length - 1]'(by omega)) := by
  have key : ∀ (l : List (List D × List D)) (x : List D × List D) (b : Bool),
      (l ++ [x]).foldl (fun _ p => rowEq eq p.1 p.2) b = rowEq eq x.1 x.2 := by
    intro l x b
    rw [List.foldl_append]
    rfl
  unfold isPeriodic
  dsimp only
  rw [if_neg (Nat.succ_ne_zero p)]
  have e1 : pts.take (p + 1) = pts.take p ++ [pts[p]'(by omega)] := by
    rw [List.take_append_getElem (by omega)]
  have hl : (pts.drop (pts.length - (p + 1))).length = p + 1 := by
    rw [List.length_drop]; omega
  have e2 : pts.drop (pts.length - (p + 1)) = (pts.drop (pts.length - (p + 1))).take p ++
      [pts[pts.length - 1]'(by omega)] := by
    conv_lhs => rw [← List.take_of_length_le (Nat.le_of_eq hl)]
    rw [← List.take_append_getElem (by omega : p < (pts.drop (pts.length - (p + 1))).length)]
    congr 2
    rw [List.getElem_drop]
    congr 1
    omega
  rw [e2, e1, List.zip_append (by simp; omega)]
  exact key _ _ _

/-- Pickling keeps every curve that is not marked periodic, and every curve marked periodic whose row
`degree - 1` equals its last row. -/
theorem C112_pickle_partial (v : PVal D) (h4 : Four v)
    (h : v.periodic = false ∨ isPeriodic eq v.degree v.ctrl = true) : pickle eq ofInt v = v := by
  unfold pickle init
  rw [pad_four ofInt h4]
  dsimp only
  rcases h with h | h
  · rw [h, if_neg (by simp), ← h]
  · split_ifs with c
    · rw [makePeriodic, if_pos h]
    · rfl

/-- A curve marked periodic in which these rows differ (its control points have been edited) comes back
with more control points and other knots. -/
theorem C112_pickle_refuted (v : PVal D) (p : Nat) (h4 : Four v) (hper : v.periodic = true)
    (hdeg : v.degree = p + 1) (hlen : p + 1 ≤ v.ctrl.length)
    (hne : rowEq eq (v.ctrl[p]'(by omega)) (v.ctrl[v.ctrl.length - 1]'(by omega)) = false) :
    (pickle eq ofInt v).ctrl = v.ctrl ++ v.ctrl.take v.degree ∧
    (pickle eq ofInt v).ctrl.length = v.ctrl.length + v.degree ∧
    (pickle eq ofInt v).knots = periodicKnots ofInt v.degree (v.ctrl.length + v.degree) := by
  have hf : isPeriodic eq v.degree v.ctrl = false := by
    rw [hdeg, isPeriodic_last eq p v.ctrl hlen, hne]
  have e : pickle eq ofInt v = ⟨v.degree, true, v.ctrl ++ v.ctrl.take v.degree,
      periodicKnots ofInt v.degree (v.ctrl ++ v.ctrl.take v.degree).length⟩ := by
    unfold pickle init
    rw [pad_four ofInt h4]
    dsimp only
    rw [if_pos hper, makePeriodic, if_neg (by rw [hf]; simp)]
  have hl : (v.ctrl ++ v.ctrl.take v.degree).length = v.ctrl.length + v.degree := by
    rw [List.length_append, List.length_take]; omega
  rw [e]
  exact ⟨rfl, hl, by rw [hl]⟩

/-- Assigning control points to a curve that was made periodic and pickling it: an edit of the last
row that leaves the other rows is such a case. -/
theorem C112_edit_refuted (v w : PVal D) (p : Nat) (pts : List (List D)) (hper : v.periodic = true)
    (hdeg : v.degree = p + 1) (h4 : ∀ r ∈ pts, r.length = 4) (hset : setCtrl ofInt v pts = some w)
    (hlen : p + 1 ≤ pts.length)
    (hne : rowEq eq (pts[p]'(by omega)) (pts[pts.length - 1]'(by omega)) = false) :
    w.ctrl = pts ∧ (pickle eq ofInt w).ctrl.length = v.ctrl.length + v.degree := by
  unfold setCtrl at hset
  split_ifs at hset with a b
  cases hset
  have hp := pad_four ofInt h4
  refine ⟨hp, ?_⟩
  have hw : ({ v with ctrl := pts.map fun r => if r.length = 4 then r else r ++ [ofInt 1] } : PVal D) =
      { v with ctrl := pts } := by rw [hp]
  rw [hw, (C112_pickle_refuted eq ofInt { v with ctrl := pts } p h4 hper hdeg hlen hne).2.1]
  rw [not_not.mp b]

/-! ## Examples -/

/-- Doubles replaced by a number in the first of eight bytes. -/
def codecEx : Codec (Fin 200) where
  enc d := [d.val, 0, 0, 0, 0, 0, 0, 0]
  dec b := Fin.ofNat 200 (b.headD 0)
  size _ := rfl
  inv d := by
    apply Fin.ext
    show d.val % 200 = d.val
    exact Nat.mod_eq_of_lt d.isLt

def curveEx : Curve (Fin 200) :=
  ⟨1, false, ⟨fun i => Fin.ofNat 200 (10 + i), 2, 4, 4, 1⟩, ⟨fun i => Fin.ofNat 200 i, 4, 1⟩⟩

example : Plain curveEx ∧ Small curveEx := ⟨⟨rfl, rfl, rfl, rfl⟩, ⟨by decide, by decide, by decide, by decide⟩⟩

example : (serialize codecEx [9, 9, 9, 9] curveEx).length = 124 := by decide

/-- Every second row of an array. -/
def stridedEx : Curve (Fin 200) := { curveEx with ctrl := ⟨fun i => Fin.ofNat 200 (10 + i), 2, 4, 8, 1⟩ }

example : Small stridedEx ∧ stridedEx.ctrl.rowStride = 2 * 4 ∧
    stridedEx.ctrl.mem 4 ≠ stridedEx.ctrl.mem (2 * 4) :=
  ⟨⟨by decide, by decide, by decide, by decide⟩, by decide, by decide⟩

def pvalEx : PVal Nat := ⟨2, true, [[0,0,0,1],[1,0,0,1],[2,2,0,1],[0,0,0,1],[1,0,0,1]], [0,1,2,3,4,5,6,7]⟩

example : isPeriodic (· == ·) pvalEx.degree pvalEx.ctrl = true ∧
    pickle (· == ·) Int.toNat pvalEx = pvalEx := ⟨by decide, rfl⟩

example : ∃ w, setCtrl Int.toNat pvalEx [[0,0,0,1],[1,0,0,1],[2,2,0,1],[0,0,0,1],[1,5,0,1]] = some w ∧
    (pickle (· == ·) Int.toNat w).ctrl.length = 7 := ⟨_, rfl, by decide⟩

end Verif.Serial
