import Verif.Bvh.Model3
import Verif.Aabb.Props
import Mathlib.Algebra.Order.Archimedean.Basic
import Mathlib.Tactic.Ring
import Mathlib.Tactic.Linarith
import Mathlib.Tactic.FieldSimp
import Mathlib.Tactic.NormNum
import Mathlib.Tactic.LinearCombination

/-! # Segments, rays and the tests of boxes -/

set_option linter.unusedSectionVars false

namespace Verif.Bvh

open Verif.Aabb (Pt Box OnSegment InBox Proper)

variable {K V : Type} [Field K] [LinearOrder K] [IsStrictOrderedRing K]

theorem new_box (s e : Pt K) (v : Option V) (i : Nat) (hi : i < 3) :
    (Seg.new s e v).box.min i = min (s i) (e i) ∧ (Seg.new s e v).box.max i = max (s i) (e i) := by
  have h : i = 0 ∨ i = 1 ∨ i = 2 := by omega
  have hmin : ∀ a b : K, (if b < a then b else a) = min a b := fun a b => by
    rw [min_def]; split_ifs with h1 h2 h2 <;> first | rfl | (exfalso; linarith) | linarith
  have hmax : ∀ a b : K, (if a < b then b else a) = max a b := fun a b => by
    rw [max_def]; split_ifs with h1 h2 h2 <;> first | rfl | (exfalso; linarith) | linarith
  rcases h with rfl | rfl | rfl <;>
    simp [Seg.new, BB.mk', Aabb.aabb, Aabb.caabb, List.range_succ, Aabb.coordStep, Aabb.upd, ← hmin, ← hmax] <;>
    constructor <;> split_ifs <;> simp_all [Aabb.upd]

/-- **C475**, the box of a segment: it contains every point of the segment, and it is inside of every box that contains the two
ends. -/
theorem C475_box (s e : Pt K) (v : Option V) :
    (∀ x, OnSegment s e x → (Seg.new s e v).box.containsPoint x = true) ∧
    ∀ b : BB K, b.containsPoint s = true → b.containsPoint e = true →
      ∀ x, (Seg.new s e v).box.containsPoint x = true → b.containsPoint x = true := by
  obtain ⟨a0, b0⟩ := new_box s e v 0 (by decide)
  obtain ⟨a1, b1⟩ := new_box s e v 1 (by decide)
  obtain ⟨a2, b2⟩ := new_box s e v 2 (by decide)
  constructor
  · rintro x ⟨t, h0, h1, hx⟩
    have key : ∀ p q : K, min p q ≤ p + (q - p) * t ∧ p + (q - p) * t ≤ max p q := fun p q => by
      rcases le_total p q with h | h
      · rw [min_eq_left h, max_eq_right h]
        constructor <;> nlinarith
      · rw [min_eq_right h, max_eq_left h]
        constructor <;> nlinarith
    simp only [BB.containsPoint, a0, a1, a2, b0, b1, b2, hx 0 (by decide), hx 1 (by decide), hx 2 (by decide), Bool.and_eq_true,
      decide_eq_true_eq]
    exact ⟨⟨(key _ _).1, (key _ _).1, (key _ _).1⟩, ⟨(key _ _).2, (key _ _).2, (key _ _).2⟩⟩
  · intro b hs he x hx
    simp only [BB.containsPoint, a0, a1, a2, b0, b1, b2, Bool.and_eq_true, decide_eq_true_eq] at hs he hx ⊢
    obtain ⟨⟨s0, s1, s2⟩, s3, s4, s5⟩ := hs
    obtain ⟨⟨e0, e1, e2⟩, e3, e4, e5⟩ := he
    obtain ⟨⟨x0, x1, x2⟩, x3, x4, x5⟩ := hx
    exact ⟨⟨(le_min s0 e0).trans x0, (le_min s1 e1).trans x1, (le_min s2 e2).trans x2⟩,
      x3.trans (max_le s3 e3), x4.trans (max_le s4 e4), x5.trans (max_le s5 e5)⟩

/-- **C475**, subdividing.  For a parameter from 0 to 1 the two pieces join at the point of the segment at the parameter, together
they have exactly the points of the segment, and their lengths are the shares `t` and `1 - t`. -/
theorem C475_subdivide (s e : Pt K) (v : Option V) (t : K) (h0 : 0 ≤ t) (h1 : t ≤ 1) :
    let g := Seg.new s e v
    let p := g.subdivide t
    p.1.start = s ∧ p.1.stop = p.2.start ∧ p.2.stop = e ∧ p.1.stop = g.evaluate t ∧
    (∀ x, OnSegment s e x ↔ OnSegment p.1.start p.1.stop x ∨ OnSegment p.2.start p.2.stop x) ∧
    p.1.lengthSq = t ^ 2 * g.lengthSq ∧ p.2.lengthSq = (1 - t) ^ 2 * g.lengthSq := by
  refine ⟨rfl, rfl, rfl, rfl, fun x => ⟨?_, ?_⟩, ?_, ?_⟩
  · rintro ⟨r, r0, r1, hx⟩
    rcases le_total r t with hr | hr
    · left
      rcases eq_or_lt_of_le h0 with ht | ht
      · refine ⟨0, le_rfl, zero_le_one, fun i hi => ?_⟩
        have : r = 0 := le_antisymm (ht ▸ hr) r0
        rw [hx i hi, this]; simp [Seg.subdivide, Seg.new]
      · refine ⟨r / t, by positivity, (div_le_one ht).2 hr, fun i hi => ?_⟩
        rw [hx i hi]; simp only [Seg.subdivide, Seg.new]
        field_simp
        ring
    · right
      rcases eq_or_lt_of_le h1 with ht | ht
      · refine ⟨0, le_rfl, zero_le_one, fun i hi => ?_⟩
        have : r = 1 := le_antisymm r1 (ht ▸ hr)
        rw [hx i hi, this]; simp [Seg.subdivide, Seg.new, ht]
      · have hd : 0 < 1 - t := by linarith
        refine ⟨(r - t) / (1 - t), div_nonneg (by linarith) hd.le, (div_le_one hd).2 (by linarith), fun i hi => ?_⟩
        rw [hx i hi]; simp only [Seg.subdivide, Seg.new]
        have hm : (1 - t) * ((r - t) / (1 - t)) = r - t := mul_div_cancel₀ _ hd.ne'
        linear_combination (-(e i - s i)) * hm
  · rintro (⟨r, r0, r1, hx⟩ | ⟨r, r0, r1, hx⟩)
    · refine ⟨t * r, mul_nonneg h0 r0, mul_le_one₀ h1 r0 r1, fun i hi => ?_⟩
      rw [hx i hi]; simp only [Seg.subdivide, Seg.new]; ring
    · refine ⟨t + (1 - t) * r, by nlinarith, by nlinarith, fun i hi => ?_⟩
      rw [hx i hi]; simp only [Seg.subdivide, Seg.new]; ring
  · simp only [Seg.subdivide, Seg.new, Seg.lengthSq]; ring
  · simp only [Seg.subdivide, Seg.new, Seg.lengthSq]; ring

/-- The piece after `n` halvings, the first piece each time. -/
def halved (g : Seg K V) : Nat → Seg K V
  | 0 => g
  | n + 1 => ((halved g n).subdivide (1 / 2)).1

/-- **C475**, halving ends: after enough halvings `is_zero` holds, for every threshold above zero. -/
theorem C475_halving [Archimedean K] (tiny : K) (ht : 0 < tiny) (g : Seg K V) : ∃ n, ∀ m, n ≤ m → (halved g m).isZero tiny = true := by
  have hl : ∀ n, (halved g n).lengthSq = g.lengthSq * (1 / 4) ^ n := by
    intro n
    induction n with
    | zero => simp [halved]
    | succ n ih =>
      have : (halved g (n + 1)).lengthSq = (halved g n).lengthSq * (1 / 4) := by
        simp only [halved, Seg.subdivide, Seg.new, Seg.lengthSq]; ring
      rw [this, ih, pow_succ]; ring
  have hg : 0 ≤ g.lengthSq := by simp only [Seg.lengthSq]; nlinarith [mul_self_nonneg (g.dir 0), mul_self_nonneg (g.dir 1), mul_self_nonneg (g.dir 2)]
  obtain ⟨n, hn⟩ := exists_pow_lt_of_lt_one (K := K) (x := tiny / (g.lengthSq + 1)) (y := 1 / 4) (by positivity) (by norm_num)
  refine ⟨n, fun m hm => ?_⟩
  have h2 : (1 / 4 : K) ^ m ≤ (1 / 4) ^ n := pow_le_pow_of_le_one (by norm_num) (by norm_num) hm
  have h3 : g.lengthSq * (1 / 4) ^ m < tiny := by
    have hp : 0 < g.lengthSq + 1 := by linarith
    have h4 : (1 / 4 : K) ^ m * (g.lengthSq + 1) < tiny := by
      rw [← lt_div_iff₀ hp]; exact lt_of_le_of_lt h2 hn
    have h5 : 0 ≤ (1 / 4 : K) ^ m := by positivity
    nlinarith
  have h4 := hl m
  simp only [Seg.lengthSq] at h4
  simp only [Seg.isZero, decide_eq_true_eq]
  rw [h4]; exact h3

/-- **C475**, clipping to a box just built: exactly the part in the box, for a segment with no component of its direction between 0
and the tolerance. -/
theorem C475_clip_partial (tol : K) (htol : 0 < tol) (lo hi : Pt K) (hb : ∀ i, i < 3 → lo i ≤ hi i) (s e : Pt K) (v : Option V)
    (hd : ∀ i, i < 3 → e i - s i = 0 ∨ tol ≤ |e i - s i|) :
    let g := Seg.new s e v
    let b := BB.mk' lo hi
    (g.clip tol b = none → ∀ x, OnSegment s e x → b.containsPoint x = false) ∧
    ∀ c, g.clip tol b = some c → ∀ x, (OnSegment s e x ∧ b.containsPoint x = true) ↔ OnSegment c.start c.stop x := by
  have hin : ∀ x : Pt K, (BB.mk' lo hi).containsPoint x = true ↔ InBox 3 (⟨lo, hi⟩ : Box K) x := fun x => by
    unfold InBox
    rw [Aabb.lt3]
    simp only [BB.containsPoint, Bool.and_eq_true, decide_eq_true_eq]
    dsimp only [BB.mk']
    tauto
  obtain ⟨h1, h2⟩ := Aabb.C19_clip_exact tol htol (⟨lo, hi⟩ : Box K) hb s e hd
  have hc : Aabb.segmentClip tol (⟨lo, hi⟩ : Box K) s e = (Aabb.segmentAabb tol ⟨lo, hi⟩ s e).map
      (fun p => (fun i => s i + (e i - s i) * p.1, fun i => s i + (e i - s i) * p.2)) := by
    unfold Aabb.segmentClip Aabb.segmentAabb
    dsimp only
    split_ifs <;> rfl
  rw [hc] at h1 h2
  dsimp only
  have hbox : (BB.mk' lo hi).arr = ⟨lo, hi⟩ := rfl
  unfold Seg.clip
  rw [hbox]
  have hs : (Seg.new s e v).start = s := rfl
  have he : (Seg.new s e v).stop = e := rfl
  rw [hs, he]
  cases hq : Aabb.segmentAabb tol (⟨lo, hi⟩ : Box K) s e with
  | none =>
    rw [hq] at h1
    refine ⟨fun _ x hx => ?_, fun c h => (by cases h)⟩
    have := h1 rfl x hx
    rw [← hin] at this
    exact Bool.eq_false_iff.2 this
  | some p =>
    obtain ⟨t0, t1⟩ := p
    rw [hq] at h2
    refine ⟨fun h => (by cases h), fun c h x => ?_⟩
    obtain rfl : Seg.new _ _ none = c := Option.some.inj h
    rw [hin]
    exact h2 _ _ rfl x

/-- **C475**, clipping, refuted for a box that has grown: `clip` takes the corners the box was built with, so after `expand` it gives
what it gave before. -/
theorem C475_clip_expand_refuted (tol : K) (g : Seg K V) (a b : BB K) : g.clip tol (a.expand b) = g.clip tol a := rfl

/-- The segment is inside of the box after `expand`, and clipping gives nothing. -/
example : let a : BB ℚ := BB.mk' (Aabb.pt [0, 0, 0]) (Aabb.pt [1, 1, 1])
    let c := a.expand (BB.mk' (Aabb.pt [0, 0, 0]) (Aabb.pt [9, 9, 9]))
    let g : Seg ℚ Unit := Seg.new (Aabb.pt [3, 3, 3]) (Aabb.pt [4, 5, 6]) none
    c.containsPoint g.start = true ∧ c.containsPoint g.stop = true ∧ (g.clip (1 / 1000) c).isNone = true := by decide +kernel

/-- **C475**, values, refuted: the pieces of `subdivide` and of `clip` carry no value, whatever the value of the segment. -/
theorem C475_value_refuted (tol t : K) (g : Seg K V) (b : BB K) :
    (g.subdivide t).1.value = none ∧ (g.subdivide t).2.value = none ∧ ∀ c, g.clip tol b = some c → c.value = none := by
  refine ⟨rfl, rfl, fun c h => ?_⟩
  unfold Seg.clip at h
  split at h
  · obtain rfl := Option.some.inj h; rfl
  · cases h

/-- **C475**, rays: with a unit direction the ray has exactly the points at distance up to `MAX_FLOAT64` from its start. -/
theorem C475_ray (big : K) (hb : 0 < big) (unit : Pt K → Pt K) (s d : Pt K) (v : Option V) :
    let r := ray big unit s d v
    r.start = s ∧ ∀ x, OnSegment r.start r.stop x ↔ ∃ c, 0 ≤ c ∧ c ≤ big ∧ ∀ i, i < 3 → x i = s i + unit d i * c := by
  refine ⟨rfl, fun x => ⟨?_, ?_⟩⟩
  · rintro ⟨t, h0, h1, hx⟩
    refine ⟨big * t, by positivity, by nlinarith, fun i hi => ?_⟩
    rw [hx i hi]; simp only [ray, Seg.new]; ring
  · rintro ⟨c, h0, h1, hx⟩
    refine ⟨c / big, by positivity, (div_le_one hb).2 h1, fun i hi => ?_⟩
    rw [hx i hi]; simp only [ray, Seg.new]
    field_simp
    ring

/-- **C475**, rays, refuted: `evaluate(t)` is the point at distance `t * MAX_FLOAT64`; it is the point at distance `t` only at the
start (`MAX_FLOAT64` is not 1, and the direction is not zero). -/
theorem C475_ray_evaluate_refuted (big : K) (hb : big ≠ 1) (unit : Pt K → Pt K) (s d : Pt K) (v : Option V) (i : Nat)
    (hu : unit d i ≠ 0) (t : K) : (ray big unit s d v).evaluate t i = s i + unit d i * t ↔ t = 0 := by
  simp only [ray, Seg.evaluate, Seg.new]
  constructor
  · intro h
    have h2 : unit d i * ((big - 1) * t) = 0 := by linear_combination h
    rcases mul_eq_zero.1 h2 with h3 | h3
    · exact absurd h3 hu
    · rcases mul_eq_zero.1 h3 with h4 | h4
      · exact absurd (sub_eq_zero.1 h4) hb
      · exact h4
  · rintro rfl; ring

/-- **C475**, `is_valid`: the entries are finite and the box has a volume; the test of consistency adds nothing. -/
theorem C475_valid (fin : K → Bool) (b : BB K) :
    b.isValid fin = true ↔ ∀ i, i < 3 → fin (b.min i) = true ∧ fin (b.max i) = true ∧ b.min i < b.max i := by
  rw [Aabb.lt3]
  simp only [BB.isValid, BB.isFinite, BB.isNonZeroVolume, BB.isConsistency, List.all_cons, List.all_nil, Bool.and_true,
    Bool.and_eq_true, decide_eq_true_eq]
  constructor
  · tauto
  · rintro ⟨⟨h1, h2, h3⟩, ⟨h4, h5, h6⟩, h7, h8, h9⟩
    exact ⟨⟨⟨⟨h1, h4, h7⟩, h2, h5, h8⟩, h3, h6, h9⟩, h3.le, h6.le, h9.le⟩

/-- **C475**, `is_valid`, refuted for the boxes of objects: the box of a segment is valid exactly when no coordinate of its two ends
is the same, so no segment in a plane of coordinates has a valid box. -/
theorem C475_flat_refuted (s e : Pt K) (v : Option V) :
    (Seg.new s e v).box.isValid (fun _ => true) = true ↔ ∀ i, i < 3 → s i ≠ e i := by
  rw [C475_valid]
  refine forall_congr' fun i => forall_congr' fun hi => ?_
  obtain ⟨h1, h2⟩ := new_box s e v i hi
  rw [h1, h2]
  simp only [true_and]
  rw [min_lt_max]

/-- **C475**, many points at once: the answers of `contains_points` are those of `contains_point`. -/
theorem C475_contains (b : BB K) (pts : List (Pt K)) : b.containsPoints pts = pts.map b.containsPoint := by
  refine List.map_congr_left fun p _ => ?_
  rw [Bool.eq_iff_iff]
  simp only [BB.containsPoint, Bool.and_eq_true, decide_eq_true_eq]
  tauto

/-- A segment through the box: the hypotheses of clipping hold and the part is not empty. -/
example : ((Seg.new (Aabb.pt [-2, 1, 0]) (Aabb.pt [6, 1, 4]) none : Seg ℚ Unit).clip (1 / 1000)
    (BB.mk' (Aabb.pt [0, 0, 0]) (Aabb.pt [2, 2, 2]))).map (fun c => (c.start 0, c.stop 0)) = some (0, 2) := by decide +kernel

/-- Halving at a third: the point and the share of the length. -/
example : (((Seg.new (Aabb.pt [0, 0, 0]) (Aabb.pt [3, 6, 9]) none : Seg ℚ Unit).subdivide (1 / 3)).1.stop 1,
    ((Seg.new (Aabb.pt [0, 0, 0]) (Aabb.pt [3, 6, 9]) none : Seg ℚ Unit).subdivide (1 / 3)).2.lengthSq) = (2, 56) := by
  decide +kernel

/-- A ray along the first axis, a box that is valid, and one of a flat segment that is not. -/
example : (ray (1000 : ℚ) (fun d => d) (Aabb.pt [1, 0, 0]) (Aabb.pt [1, 0, 0]) (none : Option Unit)).evaluate 2 0 = 2001 ∧
    (BB.mk' (Aabb.pt [0, 0, 0]) (Aabb.pt [2, 2, 2]) : BB ℚ).isValid (fun _ => true) = true ∧
    ((Seg.new (Aabb.pt [0, 0, 0]) (Aabb.pt [3, 6, 0]) none : Seg ℚ Unit).box).isValid (fun _ => true) = false ∧
    (BB.mk' (Aabb.pt [0, 0, 0]) (Aabb.pt [2, 2, 2]) : BB ℚ).containsPoints [Aabb.pt [1, 2, 0], Aabb.pt [1, 3, 0]] = [true, false] := by
  decide +kernel

end Verif.Bvh
