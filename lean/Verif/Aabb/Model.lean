import Mathlib.Algebra.Order.Field.Basic
import Mathlib.Algebra.Order.Group.Abs

/-!
# Model of `mmcore/numeric/_aabb.pyx` (and the two tests of `mmcore/numeric/aabb.py`)

Points and box corners are coordinate functions `Nat → K`; the array width is a separate argument where the code reads
`shape[1]`.  `fmin`/`fmax` are `min`/`max` (no NaN).  Reading row 0 of an empty array, or writing past a `(2,3)` buffer,
is `none`.  The constants `1e-15` and `1e300` are the parameters `tol` and `huge`.
-/

namespace Verif.Aabb
variable {K : Type}

abbrev Pt (K : Type) := Nat → K

/-- A `(2, d)` array: row 0 and row 1. -/
structure Box (K : Type) where
  lo : Pt K
  hi : Pt K

/-- `v[i] = x`. -/
def upd (v : Pt K) (i : Nat) (x : K) : Pt K := fun j => if j = i then x else v j

section order
variable [LinearOrder K]

/-- Inner loop body of `caabb` for one point and one coordinate (_aabb.pyx:75-79). -/
def coordStep (pt : Pt K) (b : Box K) (i : Nat) : Box K :=
  let p := pt i
  let lo := if p < b.lo i then upd b.lo i p else b.lo
  let hi := if p > b.hi i then upd b.hi i p else b.hi
  ⟨lo, hi⟩

/-- `caabb` (_aabb.pyx:50-79) on `d` columns. -/
def caabb (d : Nat) (pts : List (Pt K)) (bb : Box K) : Option (Box K) :=
  match pts with
  | [] => none
  | p0 :: ps =>
    let init := (List.range d).foldl (fun (b : Box K) i => ⟨upd b.lo i (p0 i), upd b.hi i (p0 i)⟩) bb
    some (ps.foldl (fun b p => (List.range d).foldl (coordStep p) b) init)

/-- `aabb(pts)` without a buffer (_aabb.pyx:84-89): the buffer is `np.zeros((2,3))`. -/
def aabb [Zero K] (d : Nat) (pts : List (Pt K)) : Option (Box K) :=
  if d ≤ 3 then caabb d pts ⟨fun _ => 0, fun _ => 0⟩ else none

/-- `caabb_segm3d` (_aabb.pyx:20-31). -/
def caabbSegm3d (s e : Pt K) : Box K := ⟨fun i => min (s i) (e i), fun i => max (s i) (e i)⟩

/-- The loop of `caabb_intersect` (_aabb.pyx:94-100); `temp` is `none` while uninitialised. -/
def intersectLoop (a b : Box K) : List Nat → Option Bool → Option Bool
  | [], temp => temp
  | i :: is, _ =>
    let t := decide (a.lo i ≤ b.hi i) && decide (a.hi i ≥ b.lo i)
    if t = false then some t else intersectLoop a b is (some t)

/-- `caabb_intersect_3d` (_aabb.pyx:122-124), `aabb_intersect_fast_3d` (107-115), `aabb_overlap` for three columns
(aabb.py:49-56). -/
def intersect3d (a b : Box K) : Bool :=
  decide (a.lo 0 ≤ b.hi 0) && decide (a.hi 0 ≥ b.lo 0) && decide (a.lo 1 ≤ b.hi 1) && decide (a.hi 1 ≥ b.lo 1) &&
    decide (a.lo 2 ≤ b.hi 2) && decide (a.hi 2 ≥ b.lo 2)

/-- `aabb_overlap` for two columns (aabb.py:41-48). -/
def overlap2d (a b : Box K) : Bool :=
  decide (a.lo 0 ≤ b.hi 0) && decide (a.hi 0 ≥ b.lo 0) && decide (a.lo 1 ≤ b.hi 1) && decide (a.hi 1 ≥ b.lo 1)

/-- `aabb_intersect` (_aabb.pyx:131-137). -/
def aabbIntersect (d : Nat) (a b : Box K) : Option Bool :=
  if d = 3 then some (intersect3d a b) else intersectLoop a b (List.range d) none

/-- `aabb_intersection` (_aabb.pyx:143-177). -/
def aabbIntersection (a b : Box K) : Option (Box K) :=
  let lx := max (a.lo 0) (b.lo 0)
  let ly := max (a.lo 1) (b.lo 1)
  let lz := max (a.lo 2) (b.lo 2)
  let hx := min (a.hi 0) (b.hi 0)
  let hy := min (a.hi 1) (b.hi 1)
  let hz := min (a.hi 2) (b.hi 2)
  if lx > hx ∨ ly > hy ∨ lz > hz then none
  else some ⟨fun i => if i = 0 then lx else if i = 1 then ly else lz, fun i => if i = 0 then hx else if i = 1 then hy else hz⟩

/-- `point_in_aabb` (aabb.py:15-21). -/
def pointInAabb (d : Nat) (b : Box K) (p : Pt K) : Bool :=
  if d = 2 then decide (b.lo 0 ≤ p 0 ∧ p 0 ≤ b.hi 0 ∧ b.lo 1 ≤ p 1 ∧ p 1 ≤ b.hi 1)
  else decide (b.lo 0 ≤ p 0 ∧ p 0 ≤ b.hi 0 ∧ b.lo 1 ≤ p 1 ∧ p 1 ≤ b.hi 1 ∧ b.lo 2 ≤ p 2 ∧ p 2 ≤ b.hi 2)

end order

variable [Field K] [LinearOrder K]

/-- One axis of the slab loop (_aabb.pyx:207-229, 346-369): `none` is the early `return`. -/
def slabStep (tol : K) (bmin bmax o d : K) (tmin tmax : K) : Option (K × K) :=
  if |d| < tol then
    if o < bmin ∨ o > bmax then none else some (tmin, tmax)
  else
    let invD := 1 / d
    let t1 := (bmin - o) * invD
    let t2 := (bmax - o) * invD
    let (t1, t2) := if t1 > t2 then (t2, t1) else (t1, t2)
    let tmin := if t1 > tmin then t1 else tmin
    let tmax := if t2 < tmax then t2 else tmax
    if tmax < tmin then none else some (tmin, tmax)

/-- The loop `for i in range(3)`. -/
def slabLoop (tol : K) (b : Box K) (o d : Pt K) : List Nat → K → K → Option (K × K)
  | [], tmin, tmax => some (tmin, tmax)
  | i :: is, tmin, tmax =>
    match slabStep tol (b.lo i) (b.hi i) (o i) (d i) tmin tmax with
    | none => none
    | some (x, y) => slabLoop tol b o d is x y

/-- `_ray_aabb_intersect` (_aabb.pyx:187-251): the return value with `tmin_ref`, `tmax_ref`. -/
def rayRaw (tol huge : K) (b : Box K) (o d : Pt K) : K × K × K :=
  match slabLoop tol b o d [0, 1, 2] (-huge) huge with
  | none => (-1, -1, -1)
  | some (tmin, tmax) =>
    if tmax < 0 then (-1, -1, -1)
    else if tmin ≥ 0 then (tmin, tmin, tmax)
    else if tmax ≥ 0 then (tmax, tmin, tmax)
    else (-1, tmin, tmax)

/-- `ray_aabb_intersect` (_aabb.pyx:257-311). -/
def rayAabb (tol huge : K) (b : Box K) (o d : Pt K) : Option (K × K) :=
  let (t, tmin, tmax) := rayRaw tol huge b o d
  if t ≥ 0 then some (if tmin ≤ 0 then 0 else tmin, if tmax ≥ 1 then 1 else tmax) else none

/-- `_segment_aabb_intersect` (_aabb.pyx:318-387): the count and `out_t`. -/
def segRaw (tol : K) (b : Box K) (s e : Pt K) : Nat × K × K :=
  match slabLoop tol b s (fun i => e i - s i) [0, 1, 2] 0 1 with
  | none => (0, 0, 0)
  | some (tmin, tmax) =>
    if tmax < 0 ∨ tmin > 1 then (0, 0, 0)
    else
      let clipMin := if tmin > 0 then tmin else 0
      let clipMax := if tmax < 1 then tmax else 1
      if clipMax < clipMin then (0, tmin, tmax)
      else if |clipMin - clipMax| < tol then (1, tmin, tmax)
      else (2, tmin, tmax)

/-- `segment_aabb_intersect` (_aabb.pyx:394-448). -/
def segmentAabb (tol : K) (b : Box K) (s e : Pt K) : Option (K × K) :=
  let (n, t0, t1) := segRaw tol b s e
  if n > 0 then some (if t0 ≤ 0 then 0 else t0, if t1 ≥ 1 then 1 else t1) else none

/-- `segment_aabb_clip` (_aabb.pyx:454-495). -/
def segmentClip (tol : K) (b : Box K) (s e : Pt K) : Option (Pt K × Pt K) :=
  let (n, t0, t1) := segRaw tol b s e
  if n > 0 then
    let t0 := if t0 ≤ 0 then 0 else t0
    let t1 := if t1 ≥ 1 then 1 else t1
    some (fun i => s i + (e i - s i) * t0, fun i => s i + (e i - s i) * t1)
  else none

end Verif.Aabb
