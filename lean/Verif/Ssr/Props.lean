import Verif.Ssr.Model
import Verif.Mnm.Props

/-! # C443, C444, C445 -/

set_option linter.unusedSectionVars false

namespace Verif.Ssr

open Verif.Mnm Verif.Vec V3

variable {K : Type} [Field K] [LinearOrder K] [IsStrictOrderedRing K]

/-- **C443** refuted.  Both calls raise for all curves: `find_all_minima` hands a list to the compiled Newton method (`C419_raises_refuted`). -/
theorem C443_refuted (run : K × K → Option (K × K) × Hess K) (dist : K × K → K × K → K) (c1 c2 : K → V3 K) (i1 i2 : K × K) (tol tol2 : K)
    (fuel : Nat) : ccd (cnewton run) dist c1 c2 i1 i2 tol tol2 fuel = .error .typeError ∧
      proximity (cnewton run) dist c1 c2 i1 i2 tol tol2 fuel = .error (.minima .typeError) := by
  have h : ccd (cnewton run) dist c1 c2 i1 i2 tol tol2 fuel = .error .typeError :=
    C419_raises_refuted run dist (sqDist c1 c2) i1 i2 11 (by norm_num) tol tol2 fuel
  refine ⟨h, ?_⟩
  unfold proximity
  rw [h]

/-- The sum of the distances of the coordinates. -/
def taxi (p q : K × K) : K := |q.1 - p.1| + |q.2 - p.2|

theorem least_spec : ∀ (l : List ((K × K) × K)) (x : (K × K) × K), l.foldl (fun b y => if y.2 < b.2 then y else b) x ∈ x :: l ∧
    ∀ y ∈ x :: l, (l.foldl (fun b y => if y.2 < b.2 then y else b) x).2 ≤ y.2 := by
  intro l
  induction l with
  | nil => intro x; simp
  | cons z l ih =>
    intro x
    rw [List.foldl_cons]
    split_ifs with h
    · obtain ⟨h1, h2⟩ := ih z
      refine ⟨List.mem_cons_of_mem _ h1, fun y hy => ?_⟩
      rcases List.mem_cons.1 hy with rfl | hy
      · exact le_trans (h2 z (by simp)) h.le
      · exact h2 y hy
    · obtain ⟨h1, h2⟩ := ih x
      refine ⟨?_, fun y hy => ?_⟩
      · rcases List.mem_cons.1 h1 with h1 | h1
        · rw [h1]; simp
        · exact List.mem_cons_of_mem _ (List.mem_cons_of_mem _ h1)
      · rcases List.mem_cons.1 hy with rfl | hy
        · exact h2 y (by simp)
        · rcases List.mem_cons.1 hy with rfl | hy
          · exact le_trans (h2 x (by simp)) (not_lt.1 h)
          · exact h2 y (List.mem_cons_of_mem _ hy)

/-- **C443** (part), with a Newton method that takes lists.  What is returned is the squared distance at its parameters, and for every point of the grid
from which the method ends at a minimum there is an answer near to it that is not nearer.  Missing: minima at the ends of the curves and with a
singular Hessian, see below. -/
theorem C443_partial {newton : Arg K → Except Err (Option (K × K) × Hess K)} {run : K × K → Option (K × K) × Hess K}
    (hl : ∀ p, newton (.list p) = .ok (run p)) (dist : K × K → K × K → K) (h0 : ∀ p, dist p p = 0)
    (htri : ∀ p q r, dist p r ≤ dist p q + dist q r) (h1 : ∀ p q, dist p q ≤ |q.1 - p.1| + |q.2 - p.2|) (c1 c2 : K → V3 K) (i1 i2 : K × K)
    (tol tol2 : K) (ht : 0 < tol) (ht2 : 0 ≤ tol2) (fuel : Nat) (hf : 3 ≤ fuel) {r : (K × K) × K}
    (h : proximity newton dist c1 c2 i1 i2 tol tol2 fuel = .ok r) :
    r.2 = dot ((c1 r.1.1).sub (c2 r.1.2)) ((c1 r.1.1).sub (c2 r.1.2)) ∧
      ∀ g ∈ grid i1 i2 11, ∀ p H, run g = (some p, H) → PosDef H →
        ∃ q : K × K, dist p q ≤ tol2 + 3 * tol ∧ r.2 ≤ dot ((c1 q.1).sub (c2 q.2)) ((c1 q.1).sub (c2 q.2)) := by
  obtain ⟨R, e, -, h2, h3⟩ := C419_minima_partial hl dist (sqDist c1 c2) h0 htri h1 i1 i2 11 tol tol2 ht ht2 fuel hf
  unfold proximity ccd at h
  rw [e] at h
  rcases R with _ | ⟨x, l⟩
  · cases h
  · simp only [Except.ok.injEq] at h
    obtain ⟨m1, m2⟩ := least_spec l x
    rw [h] at m1 m2
    refine ⟨(h2 r m1).1, fun g hg p H hr hH => ?_⟩
    obtain ⟨q, hq, hd⟩ := h3 g hg p H hr hH
    refine ⟨q.1, hd, le_trans (m2 q hq) (le_of_eq (h2 q hq).1)⟩

/-- **C443** refuted, parallel lines.  The Hessian of the squared distance is singular everywhere, no minimum is found and the call raises, even with a
Newton method that takes lists. -/
theorem C443_parallel_refuted {newton : Arg K → Except Err (Option (K × K) × Hess K)} {run : K × K → Option (K × K) × Hess K}
    (hl : ∀ p, newton (.list p) = .ok (run p)) (dist : K × K → K × K → K) (h0 : ∀ p, dist p p = 0)
    (htri : ∀ p q r, dist p r ≤ dist p q + dist q r) (h1 : ∀ p q, dist p q ≤ |q.1 - p.1| + |q.2 - p.2|) (a b d : V3 K) (k : K) (i1 i2 : K × K)
    (tol tol2 : K) (ht : 0 < tol) (ht2 : 0 ≤ tol2) (fuel : Nat) (hf : 3 ≤ fuel)
    (hH : ∀ g, (run g).2 = ⟨2 * dot d d, -2 * dot d (smul k d), 2 * dot (smul k d) (smul k d)⟩) :
    proximity newton dist (fun t => a.add (smul t d)) (fun s => b.add (smul s (smul k d))) i1 i2 tol tol2 fuel = .error .empty := by
  obtain ⟨R, e, -, h2, -⟩ := C419_minima_partial hl dist (sqDist (fun t => a.add (smul t d)) (fun s => b.add (smul s (smul k d)))) h0 htri h1
    i1 i2 11 tol tol2 ht ht2 fuel hf
  unfold proximity ccd
  rw [e]
  rcases R with _ | ⟨x, l⟩
  · rfl
  · exfalso
    obtain ⟨-, g, -, p, H, hr, hp, -⟩ := h2 x (by simp)
    have hg := hH g
    rw [hr] at hg
    simp only at hg
    rw [hg] at hp
    have := hp k 1 (Or.inr one_ne_zero)
    simp only [dot, smul] at this
    linarith

/-- The Hessian above is the one of the squared distance: the second differences. -/
theorem hess_lines (a b d : V3 K) (k t s h : K) :
    sqDist (fun t => a.add (smul t d)) (fun s => b.add (smul s (smul k d))) (t + h, s) -
        2 * sqDist (fun t => a.add (smul t d)) (fun s => b.add (smul s (smul k d))) (t, s) +
        sqDist (fun t => a.add (smul t d)) (fun s => b.add (smul s (smul k d))) (t - h, s) = 2 * dot d d * h ^ 2 ∧
    sqDist (fun t => a.add (smul t d)) (fun s => b.add (smul s (smul k d))) (t, s + h) -
        2 * sqDist (fun t => a.add (smul t d)) (fun s => b.add (smul s (smul k d))) (t, s) +
        sqDist (fun t => a.add (smul t d)) (fun s => b.add (smul s (smul k d))) (t, s - h) = 2 * dot (smul k d) (smul k d) * h ^ 2 := by
  constructor <;> simp only [sqDist, dot, smul, add, sub] <;> ring

/-- The sum of the distances of the coordinates is such a distance. -/
theorem taxi_ok : (∀ p : K × K, taxi p p = 0) ∧ (∀ p q r : K × K, taxi p r ≤ taxi p q + taxi q r) ∧
    ∀ p q : K × K, taxi p q ≤ |q.1 - p.1| + |q.2 - p.2| := by
  refine ⟨fun p => by simp [taxi], fun p q r => ?_, fun p q => le_refl _⟩
  have h1 := abs_sub_le r.1 q.1 p.1
  have h2 := abs_sub_le r.2 q.2 p.2
  simp only [taxi]
  linarith

/-- The lines `(t, 0, 0)` and `(0, s, 1)`: nearest at `(0, 0)`, squared distance 1, the Hessian is `2·1`. -/
example : proximity (K := ℚ) (fun _ => .ok (some (0, 0), ⟨2, 0, 2⟩)) taxi (fun t => ⟨t, 0, 0⟩) (fun s => ⟨0, s, 1⟩) (-1, 1) (-1, 1)
    (1 / 1000) (1 / 1000) 3 = .ok ((0, 0), 1) := by decide +kernel

/-- The parallel lines `(t, 0, 0)` and `(t, 1, 0)`. -/
example : proximity (K := ℚ) (fun _ => .ok (some (0, 0), ⟨2, -2, 2⟩)) taxi (fun t => ⟨t, 0, 0⟩) (fun s => ⟨s, 1, 0⟩) (-1, 1) (-1, 1)
    (1 / 1000) (1 / 1000) 3 = .error .empty := by decide +kernel

/-! ## `ssx` -/

/-- **C444** (part).  One result for each curve, none if there is no intersection; for a curve with a terminator other than `LOOP` the three curves
are those through all of its points. -/
theorem C444_partial {C D : Type} (i3 : List (V3 K) → C) (i2 : List (K × K) → D) :
    ssx i3 i2 none = [] ∧ ∀ bs : List (Branch K), (ssx i3 i2 (some bs)).length = bs.length ∧
      ∀ (n : Nat) (b : Branch K), bs[n]? = some b → false ∈ b.loops → (ssx i3 i2 (some bs))[n]? = some (i3 b.pts, i2 b.uv1, i2 b.uv2) := by
  refine ⟨rfl, fun bs => ⟨by simp [ssx], fun n b hb hf => ?_⟩⟩
  have : ¬ b.loops.all id = true := by
    intro h
    exact absurd (List.all_eq_true.1 h false hf) (by simp)
  simp only [ssx, List.getElem?_map, hb, Option.map_some, curvesOf, if_neg this]

/-- **C444** refuted, loops.  `ends` are the ends of a curve, that of an interpolation being the first and the last point.  For a loop through
`p, ..., p` the curve in space is closed, but the curves on the surfaces end at the parameters of the last point but one. -/
theorem C444_loop_refuted {C D : Type} (i3 : List (V3 K) → C) (i2 : List (K × K) → D) (ends3 : C → V3 K × V3 K) (ends2 : D → (K × K) × (K × K))
    (h3 : ∀ x l y, ends3 (i3 (x :: (l ++ [y]))) = (x, y)) (h2 : ∀ x l y, ends2 (i2 (x :: (l ++ [y]))) = (x, y)) (p : V3 K) (mid : List (V3 K))
    (q q' w : K × K) (m : List (K × K)) (uv2 : List (K × K)) (loops : List Bool) (hl : ∀ b ∈ loops, b = true) :
    ∃ c d1 d2, ssx i3 i2 (some [⟨p :: (mid ++ [p]), q :: (m ++ [w] ++ [q']), uv2, loops⟩]) = [(c, d1, d2)] ∧ ends3 c = (p, p) ∧ ends2 d1 = (q, w) := by
  have hall : loops.all id = true := List.all_eq_true.2 (fun b hb => by simp [hl b hb])
  refine ⟨i3 (p :: (mid ++ [p])), i2 (q :: (m ++ [w])), i2 uv2.dropLast, ?_, h3 _ _ _, h2 _ _ _⟩
  have e : (q :: (m ++ [w] ++ [q'])).dropLast = q :: (m ++ [w]) := by
    rw [← List.cons_append, List.dropLast_concat]
  simp only [ssx, List.map_cons, List.map_nil, curvesOf, hall, if_true, e]

/-- Four points around a square: the curve in space is through five points, those on the surfaces through four. -/
example : ssx (C := List (V3 ℚ)) (D := List (ℚ × ℚ)) id id
    (some [⟨[⟨0, 0, 0⟩, ⟨1, 0, 0⟩, ⟨1, 1, 0⟩, ⟨0, 1, 0⟩, ⟨0, 0, 0⟩], [(0, 0), (1, 0), (1, 1), (0, 1), (0, 0)],
      [(0, 0), (2, 0), (2, 2), (0, 2), (0, 0)], [true, true]⟩]) =
    [([⟨0, 0, 0⟩, ⟨1, 0, 0⟩, ⟨1, 1, 0⟩, ⟨0, 1, 0⟩, ⟨0, 0, 0⟩], [(0, 0), (1, 0), (1, 1), (0, 1)], [(0, 0), (2, 0), (2, 2), (0, 2)])] := rfl

/-! ## `find_closest_points` -/

theorem starts_eq (b1 b2 : (K × K) × (K × K)) (solve : K × K → K × K → Option (Start K)) : ∀ (l : List ((K × K) × (K × K))) (acc : List (Start K)),
    starts b1 b2 solve l acc = acc ++ l.filterMap fun p => solve p.1 p.2 := by
  intro l
  induction l with
  | nil => intro acc; simp [starts]
  | cons p l ih =>
    intro acc
    obtain ⟨u, v⟩ := p
    unfold starts
    cases h : solve u v with
    | none => simp only; rw [ih, List.filterMap_cons]; simp [h]
    | some r => simp only [ite_self]; rw [ih, List.filterMap_cons]; simp [h]

/-- **C445** (part).  If the boxes do not meet there is no result; otherwise the starts are those of the pairs for which the solver has one, in their
order. -/
theorem C445_partial (b1 b2 : (K × K) × (K × K)) (solve : K × K → K × K → Option (Start K)) (pairs : List ((K × K) × (K × K))) :
    findClosest false b1 b2 solve pairs = .ok none ∧ ∀ r, findClosest true b1 b2 solve pairs = .ok (some r) ↔
      r ≠ [] ∧ r = pairs.filterMap fun p => solve p.1 p.2 := by
  refine ⟨rfl, fun r => ?_⟩
  unfold findClosest
  rw [if_pos rfl, starts_eq, List.nil_append]
  cases h : pairs.filterMap fun p => solve p.1 p.2 with
  | nil => simp only [reduceCtorEq, false_iff, not_and]; intro h1 h2; exact h1 h2
  | cons x l =>
    simp only [Except.ok.injEq, Option.some.injEq]
    constructor
    · rintro rfl; exact ⟨by simp, rfl⟩
    · rintro ⟨-, rfl⟩; rfl

/-- **C445** refuted, no start.  If the boxes meet and the solver has no solution for any pair (in particular if there are no pairs) the call raises
instead of giving no result. -/
theorem C445_empty_refuted (b1 b2 : (K × K) × (K × K)) (solve : K × K → K × K → Option (Start K)) (pairs : List ((K × K) × (K × K)))
    (h : ∀ p ∈ pairs, solve p.1 p.2 = none) : findClosest true b1 b2 solve pairs = .error () := by
  unfold findClosest
  rw [if_pos rfl, starts_eq, List.nil_append]
  have : (pairs.filterMap fun p => solve p.1 p.2) = [] := by
    rw [List.filterMap_eq_nil_iff]
    exact h
  rw [this]

/-- **C445** refuted, parameters.  A start outside of the intervals is among the results, for all intervals. -/
theorem C445_outside_refuted (b1 b2 : (K × K) × (K × K)) (solve : K × K → K × K → Option (Start K)) (pairs : List ((K × K) × (K × K)))
    (p : (K × K) × (K × K)) (hp : p ∈ pairs) (s : Start K) (hs : solve p.1 p.2 = some s) (_ho : outside s.2.1 b1 = true) :
    ∃ r, findClosest true b1 b2 solve pairs = .ok (some r) ∧ s ∈ r := by
  have hm : s ∈ pairs.filterMap fun p => solve p.1 p.2 := List.mem_filterMap.2 ⟨p, hp, hs⟩
  refine ⟨_, ((C445_partial b1 b2 solve pairs).2 _).2 ⟨?_, rfl⟩, hm⟩
  intro h
  rw [h] at hm
  simp at hm

/-- The interval `[0, 1]²` and a solution at `u = 2`. -/
example : outside ((2, 0) : ℚ × ℚ) ((0, 1), (0, 1)) = true ∧
    findClosest true ((0, 1), (0, 1)) ((0, 1), (0, 1)) (fun _ _ => some ((⟨0, 0, 0⟩, (2, 0), (0, 0)) : Start ℚ)) [((0, 0), (1, 1))] =
      .ok (some [(⟨0, 0, 0⟩, (2, 0), (0, 0))]) := ⟨by decide +kernel, rfl⟩

end Verif.Ssr
