import Verif.Col.Model
import Mathlib.Tactic.Linarith
import Mathlib.Tactic.NormNum
import Mathlib.Tactic.Ring
import Mathlib.Tactic.Push

/-! # C370–C373: colours -/

namespace Verif.Col

/-- The colour made of three integers. -/
theorem create_int (r g b : Int) : create [.int r, .int g, .int b] = some ⟨[r, g, b], r, g, b⟩ := by
  simp [create, Num.isInt, Num.val]

/-! ## C370 -/

/-- The two digits of a byte. -/
theorem byte_fmt : ∀ n : Fin 256, (fmt (n : Nat)).length = 2 ∧ hexNat (fmt (n : Nat)) = some (n : Nat) ∧ (fmt (n : Nat)).all (fun c => (hexVal c).isSome) := by
  decide +kernel

theorem byte {n : Int} (h0 : 0 ≤ n) (h1 : n ≤ 255) :
    ∃ a b x y, fmt n = [a, b] ∧ hexVal a = some x ∧ hexVal b = some y ∧ (16 * x + y : Int) = n := by
  obtain ⟨k, rfl⟩ := Int.eq_ofNat_of_zero_le h0
  obtain ⟨h2, h3, h4⟩ := byte_fmt ⟨k, by omega⟩
  simp only at h2 h3 h4
  obtain ⟨a, b, e⟩ : ∃ a b, fmt (k : Int) = [a, b] := by
    match h : fmt (k : Int), h2 with
    | [a, b], _ => exact ⟨a, b, rfl⟩
  rw [e] at h3 h4
  simp only [List.all_cons, List.all_nil, Bool.and_true, Bool.and_eq_true, Option.isSome_iff_exists] at h4
  obtain ⟨⟨x, hx⟩, ⟨y, hy⟩⟩ := h4
  refine ⟨a, b, x, y, e, hx, hy, ?_⟩
  simp [hexNat, hx, hy] at h3
  exact_mod_cast h3

theorem hexVal_ne {c : Char} {x : Nat} (h : hexVal c = some x) : c ≠ '-' ∧ c ≠ '+' ∧ c ≠ '#' := by
  have h1 : hexVal '-' = none := by decide
  have h2 : hexVal '+' = none := by decide
  have h3 : hexVal '#' = none := by decide
  refine ⟨?_, ?_, ?_⟩ <;> rintro rfl
  · rw [h1] at h; cases h
  · rw [h2] at h; cases h
  · rw [h3] at h; cases h

theorem hexInt_plain {c : Char} {s : List Char} (h1 : c ≠ '-') (h2 : c ≠ '+') : hexInt (c :: s) = (hexNat (c :: s)).map fun n : Nat => (n : Int) := by
  unfold hexInt
  split <;> simp_all

theorem hexInt_two {a b : Char} {x y : Nat} (ha : hexVal a = some x) (hb : hexVal b = some y) : hexInt [a, b] = some (16 * x + y : Int) := by
  rw [hexInt_plain (hexVal_ne ha).1 (hexVal_ne ha).2.1]
  simp [hexNat, ha, hb]

/-- **C370** The text of a colour with components 0–255 gives the colour back, with and without any number of `#` in front. -/
theorem C370_roundtrip (r g b : Int) (hr : 0 ≤ r ∧ r ≤ 255) (hg : 0 ≤ g ∧ g ≤ 255) (hb : 0 ≤ b ∧ b ≤ 255) (k : Nat) :
    fromHex (List.replicate k '#' ++ (⟨[r, g, b], r, g, b⟩ : Color).hex) = create [.int r, .int g, .int b] := by
  obtain ⟨a1, b1, x1, y1, e1, p1, q1, s1⟩ := byte hr.1 hr.2
  obtain ⟨a2, b2, x2, y2, e2, p2, q2, s2⟩ := byte hg.1 hg.2
  obtain ⟨a3, b3, x3, y3, e3, p3, q3, s3⟩ := byte hb.1 hb.2
  have hd : (List.replicate k '#' ++ [a1, b1, a2, b2, a3, b3]).dropWhile (· = '#') = [a1, b1, a2, b2, a3, b3] := by
    induction k with
    | zero => simp [(hexVal_ne p1).2.2]
    | succ k ih => rw [List.replicate_succ, List.cons_append, List.dropWhile_cons_of_pos (by simp), ih]
  simp only [fromHex, Color.hex, e1, e2, e3, List.cons_append, List.nil_append, hd, List.take_succ_cons, List.take_zero,
    List.drop_succ_cons, List.drop_zero, hexInt_two p1 q1, hexInt_two p2 q2, hexInt_two p3 q3, s1, s2, s3]

/-- **C370** The decimal form is `65536 r + 256 g + b`. -/
theorem C370_decimal (r g b : Int) (hr : 0 ≤ r ∧ r ≤ 255) (hg : 0 ≤ g ∧ g ≤ 255) (hb : 0 ≤ b ∧ b ≤ 255) :
    (⟨[r, g, b], r, g, b⟩ : Color).decimal = some (65536 * r + 256 * g + b) := by
  obtain ⟨a1, b1, x1, y1, e1, p1, q1, s1⟩ := byte hr.1 hr.2
  obtain ⟨a2, b2, x2, y2, e2, p2, q2, s2⟩ := byte hg.1 hg.2
  obtain ⟨a3, b3, x3, y3, e3, p3, q3, s3⟩ := byte hb.1 hb.2
  simp only [Color.decimal, Color.hex, e1, e2, e3, List.cons_append, List.nil_append]
  rw [hexInt_plain (hexVal_ne p1).1 (hexVal_ne p1).2.1]
  simp only [hexNat, List.foldl_cons, List.foldl_nil, Option.bind_some, p1, q1, p2, q2, p3, q3, Option.map_some,
    if_neg (List.cons_ne_nil _ _)]
  rw [← s1, ← s2, ← s3]
  rw [Option.some.injEq]
  push_cast
  ring

/-- **C370** Hence different colours have different decimal forms. -/
theorem C370_injective (c d : Int × Int × Int) (hc : (0 ≤ c.1 ∧ c.1 ≤ 255) ∧ (0 ≤ c.2.1 ∧ c.2.1 ≤ 255) ∧ (0 ≤ c.2.2 ∧ c.2.2 ≤ 255))
    (hd : (0 ≤ d.1 ∧ d.1 ≤ 255) ∧ (0 ≤ d.2.1 ∧ d.2.1 ≤ 255) ∧ (0 ≤ d.2.2 ∧ d.2.2 ≤ 255))
    (h : (⟨[c.1, c.2.1, c.2.2], c.1, c.2.1, c.2.2⟩ : Color).decimal = (⟨[d.1, d.2.1, d.2.2], d.1, d.2.1, d.2.2⟩ : Color).decimal) : c = d := by
  rw [C370_decimal _ _ _ hc.1 hc.2.1 hc.2.2, C370_decimal _ _ _ hd.1 hd.2.1 hd.2.2, Option.some.injEq] at h
  obtain ⟨a, b, e⟩ := c
  obtain ⟨a', b', e'⟩ := d
  simp only at *
  ext <;> simp only <;> omega

theorem hexVal_le {c : Char} {x : Nat} (h : hexVal c = some x) : x ≤ 15 := by
  unfold hexVal at h
  split_ifs at h with h1 h2 h3
  · simp only [Option.some.injEq] at h
    rw [Char.isDigit] at h1
    simp only [Bool.and_eq_true, decide_eq_true_eq] at h1
    have : c.toNat ≤ 57 := h1.2
    omega
  · simp only [Option.some.injEq] at h
    have : c.toNat ≤ 102 := h2.2
    omega
  · simp only [Option.some.injEq] at h
    have : c.toNat ≤ 70 := h3.2
    omega

theorem hexNat_le {s : List Char} (hs : s.length ≤ 2) {n : Nat} (h : hexNat s = some n) : n ≤ 255 := by
  match s, hs with
  | [], _ => simp [hexNat] at h
  | [a], _ =>
    cases ha : hexVal a with
    | none => simp [hexNat, ha] at h
    | some x =>
      simp [hexNat, ha] at h
      have := hexVal_le ha; omega
  | [a, b], _ =>
    cases ha : hexVal a with
    | none => simp [hexNat, ha] at h
    | some x =>
      cases hb : hexVal b with
      | none => simp [hexNat, ha, hb] at h
      | some y =>
        simp [hexNat, ha, hb] at h
        have := hexVal_le ha; have := hexVal_le hb; omega

theorem hexInt_le {s : List Char} (hs : s.length ≤ 2) {n : Int} (h : hexInt s = some n) : n ≤ 255 := by
  unfold hexInt at h
  split at h
  · cases hr : hexNat _ with
    | none => rw [hr] at h; simp at h
    | some k => rw [hr] at h; simp at h; omega
  · rename_i r
    cases hr : hexNat r with
    | none => rw [hr] at h; simp at h
    | some k =>
      rw [hr] at h; simp at h
      have := hexNat_le (by simp at hs; omega) hr
      omega
  · cases hr : hexNat s with
    | none => rw [hr] at h; simp at h
    | some k =>
      rw [hr] at h; simp at h
      have := hexNat_le hs hr
      omega

/-- **C370** (negation) Components above 255 are accepted but not written so that they can be read: whatever text is read, no component is
above 255, so the text of such a colour is never read as the colour. -/
theorem C370_large_refuted (r g b : Int) (h : 255 < r ∨ 255 < g ∨ 255 < b) (s : List Char) :
    create [.int r, .int g, .int b] = some ⟨[r, g, b], r, g, b⟩ ∧ fromHex s ≠ create [.int r, .int g, .int b] := by
  refine ⟨create_int r g b, fun e => ?_⟩
  rw [create_int] at e
  unfold fromHex at e
  simp only at e
  split at e
  · rename_i x y z h1 h2 h3
    rw [create_int, Option.some.injEq, Color.mk.injEq] at e
    have a1 := hexInt_le (by simp) h1
    have a2 := hexInt_le (by simp) h2
    have a3 := hexInt_le (by simp) h3
    obtain ⟨-, e1, e2, e3⟩ := e
    omega
  · exact absurd e (by simp)

example : (⟨[18, 255, 0], 18, 255, 0⟩ : Color).str = "#12ff00".toList ∧ (fromHex "#12FF00".toList).map Color.items = some [18, 255, 0]
    ∧ fromHex "#abc".toList = none ∧ (⟨[300, 0, 0], 300, 0, 0⟩ : Color).hex = "12c0000".toList
    ∧ (fromHex "12c0000".toList).map Color.items = some [18, 192, 0] := by decide +kernel

/-! ## C371 -/

theorem npRound_int (n : Int) : npRound n = n := by
  simp [npRound]

/-- `np.round` is at most one half away. -/
theorem npRound_near (x : Rat) : |(npRound x : Rat) - x| ≤ 1 / 2 := by
  have h1 := Int.floor_le x
  have h2 := Int.lt_floor_add_one x
  rw [abs_le]
  simp only [npRound]
  split_ifs <;> push_cast <;> constructor <;> linarith

/-- **C371** The unit components of a colour give the colour back. -/
theorem C371_unit_roundtrip (r g b : Int) : create (⟨[r, g, b], r, g, b⟩ : Color).unit = some ⟨[r, g, b], r, g, b⟩ := by
  simp [create, Color.unit, Num.isInt, Num.val, npRound_int]

/-- **C371** A colour given by floats is stored to within half a step of 1/255, and within 0–255 if the floats are within 0–1. -/
theorem C371_float (x y z : Rat) : ∃ c, create [.float x, .float y, .float z] = some c ∧
    |(c.r : Rat) / 255 - x| ≤ 1 / 510 ∧ |(c.g : Rat) / 255 - y| ≤ 1 / 510 ∧ |(c.b : Rat) / 255 - z| ≤ 1 / 510 := by
  refine ⟨⟨[npRound (x * 255), npRound (y * 255), npRound (z * 255)], npRound (x * 255), npRound (y * 255), npRound (z * 255)⟩,
    by simp [create, Num.isInt, Num.val], ?_, ?_, ?_⟩
  all_goals
    have h : ∀ t : Rat, |(npRound (t * 255) : Rat) / 255 - t| ≤ 1 / 510 := fun t => by
      have := npRound_near (t * 255)
      rw [abs_le] at this ⊢
      constructor <;> linarith [this.1, this.2]
    exact h _

/-- **C371** (negation) The components 0–255 as numpy gives them do not: every component is multiplied by 255. -/
theorem C371_bytes_refuted (r g b : Int) : create (⟨[r, g, b], r, g, b⟩ : Color).bytes
    = some ⟨[r * 255, g * 255, b * 255], r * 255, g * 255, b * 255⟩ := by
  have h : ∀ n : Int, npRound ((n : Rat) * 255) = n * 255 := fun n => by
    have := npRound_int (n * 255)
    push_cast at this; exact this
  simp [create, Color.bytes, Num.isInt, Num.val, h]

/-- **C371** (negation) The same numbers mean another colour if all of them are integers: full red given by integers is almost black. -/
theorem C371_type_refuted : create [.int 1, .int 0, .int 0] = some ⟨[1, 0, 0], 1, 0, 0⟩ ∧
    create [.int 1, .int 0, .float 0] = some ⟨[255, 0, 0], 255, 0, 0⟩ ∧ create [.float 1, .float 0, .float 0] = some ⟨[255, 0, 0], 255, 0, 0⟩ := by
  decide +kernel

/-! ## C372 -/

/-- Every colour starts with its three components. -/
theorem create_items (args : List Num) (c : Color) (h : create args = some c) : c.items.take 3 = [c.r, c.g, c.b] := by
  unfold create at h
  split_ifs at h with hi
  · simp only at h
    split at h
    · rename_i r g b e
      simp only [Option.some.injEq] at h
      subst h; exact e
    · exact absurd h (by simp)
  · simp only at h
    split at h
    · rename_i r g b e
      simp only [Option.some.injEq] at h
      subst h; simp [e]
    · exact absurd h (by simp)

/-- **C372** Equal colours have equal hashes, whatever the hash function. -/
theorem C372_hash {H : Type} (hash : List Int → H) (x y : List Num) (c d : Color) (hc : create x = some c) (hd : create y = some d)
    (h : c.eq d = true) : c.hash hash = d.hash hash := by
  have h : c.items = d.items := by simpa [Color.eq] using h
  have := create_items x c hc
  rw [h, create_items y d hd] at this
  unfold Color.hash
  rw [this]

/-- **C372** (negation) A colour of four integers is equal to the tuple of the four, but its hash is that of the first three: with any
hash function that tells the two apart, a dictionary does not find it. -/
theorem C372_tuple_refuted {H : Type} (hash : List Int → H) (r g b a : Int) (hh : hash [r, g, b, a] ≠ hash [r, g, b]) :
    ∃ c, create [.int r, .int g, .int b, .int a] = some c ∧ c.items = [r, g, b, a] ∧ c.hash hash ≠ hash c.items := by
  refine ⟨⟨[r, g, b, a], r, g, b⟩, by simp [create, Num.isInt, Num.val], rfl, ?_⟩
  exact fun e => hh e.symm

/-! ## C373 -/

/-- **C373** `ColorRGBA` has the components of the colour and the opacity it is given. -/
theorem C373_components (r g b : Int) (a : Rat) : createA (.int r) (.int g) (.int b) a = some ⟨⟨[r, g, b], r, g, b⟩, a⟩ := by
  rw [createA, create_int]; rfl

/-- **C373** (negation) Colours that differ in their opacity only are equal and have equal hashes. -/
theorem C373_opacity_refuted {H : Type} (hash : List Int → H) (r g b : Num) (a a' : Rat) (c d : ColorA) (hc : createA r g b a = some c)
    (hd : createA r g b a' = some d) : c.color.eq d.color = true ∧ c.color.hash hash = d.color.hash hash ∧ (a ≠ a' → c ≠ d) := by
  unfold createA at hc hd
  cases h : create [r, g, b] with
  | none => rw [h] at hc; simp at hc
  | some k =>
    rw [h] at hc hd
    simp only [Option.map_some, Option.some.injEq] at hc hd
    subst hc hd
    exact ⟨by simp [Color.eq], rfl, fun h e => h (by simpa using e)⟩

example : createA (.float (1 / 2)) (.float 0) (.float 1) (1 / 4) = some ⟨⟨[128, 0, 255], 128, 0, 255⟩, 1 / 4⟩ := by decide +kernel

end Verif.Col
