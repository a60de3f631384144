import Mathlib.Algebra.Order.Field.Basic
import Mathlib.Algebra.Order.Group.Abs

/-!
# Model of mmcore/numeric/vectors.pyx, mmcore/numeric/plane and mmcore/numeric/algorithms/moller.pyx

Numbers are elements of an ordered field.  Division by zero in compiled code (`cdivision=True`) gives
infinities or NaN; where that can happen the model returns `none`.  Square roots are a parameter.
-/

namespace Verif.Vec

variable {K : Type} [Field K] [LinearOrder K]

/-- A vector with three components. -/
@[ext]
structure V3 (K : Type) where
  x : K
  y : K
  z : K
deriving DecidableEq

namespace V3

/-- Sum. -/
def add (a b : V3 K) : V3 K := ⟨a.x + b.x, a.y + b.y, a.z + b.z⟩
/-- Difference. -/
def sub (a b : V3 K) : V3 K := ⟨a.x - b.x, a.y - b.y, a.z - b.z⟩
/-- Multiple. -/
def smul (t : K) (a : V3 K) : V3 K := ⟨t * a.x, t * a.y, t * a.z⟩
/-- `scalar_dot` on three components (vectors.pyx:115-120), `dot3d` (603-606). -/
def dot (a b : V3 K) : K := a.x * b.x + a.y * b.y + a.z * b.z
/-- `scalar_cross` (vectors.pyx:351-359), `cross_product` (cplane.pyx:202-205) and `_mycross`
(plane/__init__.py:148-151). -/
def cross (a b : V3 K) : V3 K :=
  ⟨a.y * b.z - a.z * b.y, a.z * b.x - a.x * b.z, a.x * b.y - a.y * b.x⟩
/-- The zero vector. -/
def zero : V3 K := ⟨0, 0, 0⟩

end V3

open V3

/-! ## Small systems -/

/-- `solve2x2` (vectors.pyx:470-484, calgorithms.pxd:36-49): `none` for the return code 0. -/
def solve2x2 (a b c d y0 y1 : K) : Option (K × K) :=
  let det := a * d - b * c
  if det = 0 then none
  else some ((y0 * d - b * y1) / det, (a * y1 - y0 * c) / det)

/-- `cinvert_jacobian` (vectors.pyx:382-399): `none` for the return code -1. -/
def invertJacobian (a b c d : K) : Option ((K × K) × (K × K)) :=
  let det := a * d - b * c
  if det = 0 then none
  else some ((d / det, -b / det), (-c / det, a / det))

/-- `decompose_vector` (vectors.pyx:703-716).  The return code of the solver is not looked at: on
failure the freshly allocated result `u` is returned with whatever it holds. -/
def decomposeVector (u : K × K) (v a b : V3 K) : K × K :=
  (solve2x2 (dot a a) (dot a b) (dot a b) (dot b b) (dot a v) (dot b v)).getD u

/-! ## Projections -/

/-- `vector_projection` (vectors.pyx:431-438). -/
def vectorProjection (a b : V3 K) : V3 K :=
  let bn := b.x ^ 2 + b.y ^ 2 + b.z ^ 2
  ⟨a.x * b.x * b.x / bn + a.y * b.x * b.y / bn + a.z * b.x * b.z / bn,
   a.x * b.x * b.y / bn + a.y * b.y * b.y / bn + a.z * b.y * b.z / bn,
   a.x * b.x * b.z / bn + a.y * b.y * b.z / bn + a.z * b.z * b.z / bn⟩

/-- `closest_point_on_ray` (vectors.pyx:442-453). -/
def closestPointOnRay (start dir p : V3 K) : V3 K := vectorProjection (p.sub start) dir

/-- `closest_point_on_line` (vectors.pyx:457-466). -/
def closestPointOnLine (start stop p : V3 K) : V3 K :=
  vectorProjection (p.sub start) (stop.sub start)

/-- One row of `gram_schmidt` (vectors.pyx:253-258): after the inner loop `j` keeps its last value,
and the row is filled with the last component. -/
def gramSchmidtRow (a b : V3 K) : V3 K :=
  let d := dot b a
  ⟨b.z - a.z * d, b.z - a.z * d, b.z - a.z * d⟩

/-- `scalar_gram_schmidt` (vectors.pyx:496-500) with a result array of its own. -/
def scalarGramSchmidt (a b : V3 K) : V3 K := b.sub (smul (dot b a) a)

/-- `scalar_gram_schmidt(a, b, b)`: the result array is the second argument, so the product
overwrites `b` before the subtraction (vectors.pyx:499-500). -/
def scalarGramSchmidtInto (a b : V3 K) : V3 K :=
  let r := smul (dot b a) a
  r.sub r

/-- `scalar_gram_schmidt_emplace` (vectors.pyx:505-510): the new value of `vec_b`. -/
def gramSchmidtEmplace (a b : V3 K) : V3 K :=
  let d := dot b a
  ⟨b.x - a.x * d, b.y - a.y * d, b.z - a.z * d⟩

/-! ## Row-wise products -/

/-- The inner loop of the products: sum over the first `n` columns. -/
def rowDot (a b : Nat → K) : Nat → K
  | 0 => 0
  | n + 1 => rowDot a b n + a n * b n

/-- `dot` (vectors.pyx:100-110). -/
def dotRows (a b : Nat → Nat → K) (cols : Nat) (i : Nat) : K := rowDot (a i) (b i) cols

/-- `dot_array_x_array` (vectors.pyx:39-49): the result is allocated with `np.empty` (contents `u`)
and added to. -/
def dotArrayArray (u : Nat → K) (a b : Nat → Nat → K) (cols : Nat) (i : Nat) : K :=
  u i + rowDot (a i) (b i) cols

/-- `dot_vec_x_array` (vectors.pyx:73-82). -/
def dotVecArray (u : Nat → K) (a : Nat → K) (b : Nat → Nat → K) (cols : Nat) (i : Nat) : K :=
  u i + rowDot a (b i) cols

/-- `dot_array_x_vec` (vectors.pyx:86-95). -/
def dotArrayVec (u : Nat → K) (a : Nat → Nat → K) (b : Nat → K) (cols : Nat) (i : Nat) : K :=
  u i + rowDot (a i) b cols

/-- `matmul_array` for one pair of matrices (vectors.pyx:53-68). -/
def matmul (u : Nat → Nat → K) (a b : Nat → Nat → K) (inner : Nat) (i j : Nat) : K :=
  u i j + rowDot (a i) (fun k => b k j) inner

/-- `support_vector` (vectors.pyx:215-225): `none` for minus infinity. -/
def supportLoop (d : V3 K) : List (V3 K) → Option K → V3 K → V3 K
  | [], _, s => s
  | v :: vs, hi, s =>
    if (match hi with | none => true | some h => decide (dot v d > h)) then
      supportLoop d vs (some (dot v d)) v
    else supportLoop d vs hi s

/-- `support_vector` (vectors.pyx:215-225). -/
def supportVector (vs : List (V3 K)) (d : V3 K) : V3 K := supportLoop d vs none zero

/-- `cdet` (vectors.pyx:317-322). -/
def cdet : List (K × K) → K
  | p :: q :: rest => (q.1 - p.1) * (q.2 + p.2) + cdet (q :: rest)
  | _ => 0

/-- `points_order` (vectors.pyx:333-340). -/
def pointsOrder (ps : List (K × K)) : Int :=
  if cdet ps > 0 then 0 else if cdet ps < 0 then 1 else -1

/-! ## Planes -/

/-- A plane array: origin, x axis, y axis, normal. -/
structure Plane (K : Type) where
  o : V3 K
  x : V3 K
  y : V3 K
  n : V3 K
deriving DecidableEq

/-- `cevaluate_plane` (cplane.pyx:45-48). -/
def evaluatePlane (p : Plane K) (q : V3 K) : V3 K :=
  ⟨p.o.x + p.x.x * q.x + p.y.x * q.y + p.n.x * q.z,
   p.o.y + p.x.y * q.x + p.y.y * q.y + p.n.y * q.z,
   p.o.z + p.x.z * q.x + p.y.z * q.y + p.n.z * q.z⟩

/-- `cinverse_evaluate_plane` (cplane.pyx:54-59). -/
def inverseEvaluatePlane (p : Plane K) (q : V3 K) : V3 K :=
  let d := q.sub p.o
  ⟨dot d p.x, dot d p.y, dot d p.n⟩

/-! ### Gaussian elimination -/

/-- The loop of `find_max_row` (cplane.pyx:13-24, 29-40): a binary search on column `i`. -/
def findMaxLoop (m : Nat → Nat → K) (i : Nat) : Nat → Nat → Nat → Nat
  | 0, l, _ => l
  | k + 1, l, r =>
    if l < r then
      let mid := (l + r) / 2
      if |m mid i| > |m (mid + 1) i| then findMaxLoop m i k l mid
      else findMaxLoop m i k (mid + 1) r
    else l

/-- `find_max_row` (cplane.pyx:13-24); `n` rounds are more than enough. -/
def findMaxRow (m : Nat → Nat → K) (i n : Nat) : Nat := findMaxLoop m i n i (n - 1)

/-- Exchange of two indices. -/
def swapIdx (i p r : Nat) : Nat := if r = i then p else if r = p then i else r

/-- One round of the elimination (cplane.pyx:125-147, 166-188): exchange rows, then clear the column
below.  `none` when it divides by zero. -/
def elimStep (n : Nat) (i : Nat) (s : (Nat → Nat → K) × (Nat → K)) :
    Option ((Nat → Nat → K) × (Nat → K)) :=
  let p := findMaxRow s.1 i n
  let m := fun r c => s.1 (swapIdx i p r) c
  let v := fun r => s.2 (swapIdx i p r)
  if i + 1 < n ∧ m i i = 0 then none
  else some (fun r c => if i < r ∧ i ≤ c then m r c - m r i / m i i * m i c else m r c,
             fun r => if i < r then v r - m r i / m i i * v i else v r)

/-- The elimination loop, rounds `i`, `i + 1`, …, `n - 1`. -/
def elim (n : Nat) : Nat → Nat → (Nat → Nat → K) × (Nat → K) →
    Option ((Nat → Nat → K) × (Nat → K))
  | 0, _, s => some s
  | k + 1, i, s => (elimStep n i s).bind (elim n k (i + 1))

/-- Back substitution (cplane.pyx:149-154, 190-195), columns `k - 1` down to `0`.  `none` when it
divides by zero. -/
def backSub (m : Nat → Nat → K) : Nat → (Nat → K) → (Nat → K) → Option (Nat → K)
  | 0, _, x => some x
  | k + 1, v, x =>
    if m k k = 0 then none
    else
      let xk := v k / m k k
      backSub m k (fun j => if j < k then v j - m j k * xk else v j)
        (fun j => if j = k then xk else x j)

/-- `solve_system_3x3` and `solve_system_5x5` (cplane.pyx:119-154, 160-195) for `n = 3, 5`. -/
def solve (n : Nat) (m : Nat → Nat → K) (v : Nat → K) : Option (Nat → K) :=
  (elim n n 0 (m, v)).bind (fun s => backSub s.1 n s.2 (fun _ => 0))

/-- Component of a vector by index. -/
def comp (a : V3 K) : Nat → K
  | 0 => a.x
  | 1 => a.y
  | _ => a.z

/-- `plane_plane_plane_intersect` and `plane_plane_plane_intersect_points_and_normals`
(cplane.pyx:339-359, 362-389): origins and normals. -/
def intersect3 (o1 n1 o2 n2 o3 n3 : V3 K) : Option (V3 K) :=
  let m : Nat → Nat → K := fun r c => comp (match r with | 0 => n1 | 1 => n2 | _ => n3) c
  let v : Nat → K := fun r => match r with
    | 0 => dot o1 n1
    | 1 => dot o2 n2
    | _ => dot o3 n3
  (solve 3 m v).map (fun x => ⟨x 0, x 1, x 2⟩)

/-- The matrix of `plane_plane_intersect` (cplane.pyx:222-237). -/
def kktMatrix (n1 n2 : V3 K) (r c : Nat) : K :=
  match r, c with
  | 3, 3 => 0
  | 3, 4 => 0
  | 4, 3 => 0
  | 4, 4 => 0
  | r, 3 => comp n1 r
  | r, 4 => comp n2 r
  | 3, c => comp n1 c
  | 4, c => comp n2 c
  | r, c => if r = c then 2 else 0

/-- `plane_plane_intersect` (cplane.pyx:214-249): a point and a direction. -/
def intersect2 (o1 n1 o2 n2 : V3 K) : Option (V3 K × V3 K) :=
  let v : Nat → K := fun r => match r with
    | 3 => dot o1 n1
    | 4 => dot o2 n2
    | r => comp o1 r
  (solve 5 (kktMatrix n1 n2) v).map (fun x => (⟨x 0, x 1, x 2⟩, cross n1 n2))

/-! ### Rays, lines and triangles -/

/-- `_ray_plane_intersect` (cplane.pyx:499-541). -/
def rayPlane (eps : K) (po pn ro rd : V3 K) : Option (V3 K) :=
  let denom := dot pn rd
  if |denom| < eps then none
  else
    let t := dot pn (po.sub ro) / denom
    if t < 0 then none else some (ro.add (smul t rd))

/-- `_ray_param_plane_intersect` (cplane.pyx:589-687). -/
def rayParamPlane (eps : K) (po px py pn ro rd : V3 K) : Option (V3 K × (K × K)) :=
  match rayPlane eps po pn ro rd with
  | none => none
  | some i =>
    let d := i.sub po
    let a := dot px px
    let b := dot px py
    let c := dot py py
    let xd := dot px d
    let yd := dot py d
    let det := a * c - b * b
    if |det| < eps then none
    else some (i, ((xd * c - b * yd) / det, (-b * xd + a * yd) / det))

/-- `plane_line_intersection` (plane/__init__.py:181-193): the parameter and the point. -/
def planeLine (tol : K) (po pn lo ld : V3 K) : Option (K × V3 K) :=
  let nd := dot pn ld
  if |nd| < tol then none
  else
    let w := lo.sub po
    let si := -dot pn w / nd
    some (si, (w.add (smul si ld)).add po)

/-- `_intersect_triangle_segment` (moller.pyx:90-162): the parameters `u`, `v`, `t` and the point. -/
def triSeg (eps : K) (v0 v1 v2 s e : V3 K) : Option (K × K × K × V3 K) :=
  let d := e.sub s
  let e1 := v1.sub v0
  let e2 := v2.sub v0
  let h := cross d e2
  let a := dot e1 h
  if -eps < a ∧ a < eps then none
  else
    let f := 1 / a
    let w := s.sub v0
    let u := f * dot w h
    if u < -eps ∨ u > 1 + eps then none
    else
      let q := cross w e1
      let v := f * dot d q
      if v < -eps ∨ u + v > 1 + eps then none
      else
        let t := f * dot e2 q
        if t < -eps ∨ t > 1 + eps then none
        else some (u, v, t, s.add (smul t d))

/-- `_is_close` (moller.pyx:18-20). -/
def isClose (eps a b : K) : Bool := decide (|a - b| < eps)

/-- `_point_equals` (moller.pyx:24-26). -/
def pointEquals (eps : K) (p q : V3 K) : Bool :=
  isClose eps p.x q.x && isClose eps p.y q.y && isClose eps p.z q.z

/-- `_point_on_edge` (moller.pyx:30-60). -/
def pointOnEdge (eps : K) (p v0 v1 : V3 K) : Bool :=
  let vp := p.sub v0
  let ed := v1.sub v0
  let c := cross vp ed
  if isClose eps c.x 0 && isClose eps c.y 0 && isClose eps c.z 0 then
    !(decide (dot vp ed < -eps) || decide (dot vp ed > dot ed ed + eps))
  else false

/-- `_classify_intersection` (moller.pyx:64-85): 1 interior, 2 vertex, 3 edge. -/
def classify (eps : K) (p v0 v1 v2 : V3 K) : Nat :=
  if pointEquals eps p v0 then 2
  else if pointEquals eps p v1 then 2
  else if pointEquals eps p v2 then 2
  else if pointOnEdge eps p v0 v1 then 3
  else if pointOnEdge eps p v1 v2 then 3
  else if pointOnEdge eps p v2 v0 then 3
  else 1

/-- A triangle. -/
abbrev Tri (K : Type) := V3 K × V3 K × V3 K

/-- `intersect_triangles_segment_one` (moller.pyx:222-288): the first triangle that is hit. -/
def firstHit (eps : K) (s e : V3 K) : List (Tri K) → Option (V3 K)
  | [] => none
  | t :: ts =>
    match triSeg eps t.1 t.2.1 t.2.2 s e with
    | some r => some r.2.2.2
    | none => firstHit eps s e ts

/-- What `intersect_triangles_segment` (moller.pyx:292-353) writes for one triangle: the flag, and
the point when there is one. -/
def hitOf (eps : K) (s e : V3 K) (t : Tri K) : Nat × Option (V3 K) :=
  match triSeg eps t.1 t.2.1 t.2.2 s e with
  | some r => (classify eps r.2.2.2 t.1 t.2.1 t.2.2, some r.2.2.2)
  | none => (0, none)

/-! ### `intersect_triangles_segment_parallel` (moller.pyx:359-420)

The iterations run in a `prange`.  `exists` is a scalar assigned in the body, so each thread has its
own; `c_V0`, `c_V1`, `c_V2` and `c_I` are C arrays that are only assigned by element, so all threads
share them.  An iteration is taken as three steps: copy the triangle, intersect, classify and store. -/

/-- Where an iteration is. -/
inductive Pc
  | start
  | loaded
  | hit (b : Bool)
  | done
deriving DecidableEq

/-- The shared arrays, and per iteration the program counter and the outputs. -/
structure PState (K : Type) where
  buf : Tri K
  pt : V3 K
  pc : Nat → Pc
  flags : Nat → Option Nat
  outs : Nat → Option (V3 K)

/-- One step of iteration `i`. -/
def pstep (eps : K) (s e : V3 K) (tris : Nat → Tri K) (st : PState K) (i : Nat) : PState K :=
  match st.pc i with
  | .start => { st with buf := tris i, pc := fun j => if j = i then .loaded else st.pc j }
  | .loaded =>
    match triSeg eps st.buf.1 st.buf.2.1 st.buf.2.2 s e with
    | some r => { st with pt := r.2.2.2, pc := fun j => if j = i then .hit true else st.pc j }
    | none => { st with pc := fun j => if j = i then .hit false else st.pc j }
  | .hit true =>
    { st with
      flags := fun j => if j = i then
        some (classify eps st.pt st.buf.1 st.buf.2.1 st.buf.2.2) else st.flags j
      outs := fun j => if j = i then some st.pt else st.outs j
      pc := fun j => if j = i then .done else st.pc j }
  | .hit false =>
    { st with
      flags := fun j => if j = i then some 0 else st.flags j
      pc := fun j => if j = i then .done else st.pc j }
  | .done => st

/-- Run a schedule: the list says which iteration makes the next step. -/
def prun (eps : K) (s e : V3 K) (tris : Nat → Tri K) : List Nat → PState K → PState K
  | [], st => st
  | i :: is, st => prun eps s e tris is (pstep eps s e tris st i)

/-- The state before the loop. -/
def pinit (b : Tri K) (p : V3 K) : PState K :=
  ⟨b, p, fun _ => .start, fun _ => none, fun _ => none⟩

/-! ### Constructors of planes -/

/-- `scalar_unit` (vectors.pyx:363-375); `nrm` is the square root of the sum of squares.  `none` for
a division by zero. -/
def unit (nrm : V3 K → K) (v : V3 K) : Option (V3 K) :=
  if nrm v = 0 then none else some ⟨v.x / nrm v, v.y / nrm v, v.z / nrm v⟩

/-- `scalar_normalize` (vectors.pyx:149-162): the new contents and the return code. -/
def normalize (nrm : V3 K → K) (eps : K) (v : V3 K) : V3 K × Bool :=
  if nrm v > eps then (⟨v.x / nrm v, v.y / nrm v, v.z / nrm v⟩, true) else (v, false)

/-- `perp_to_vector` (plane/__init__.py:138-145). -/
def perpToVector (tol : K) (v : V3 K) : V3 K :=
  if dot v v ≥ tol then
    if |v.x| ≥ tol ∨ |v.y| ≥ tol then cross v ⟨0, 0, 1⟩ else cross v ⟨1, 0, 0⟩
  else zero

/-- `plane_from_normal2` (plane/__init__.py:74-81). -/
def planeFromNormal2 (nrm : V3 K → K) (tol : K) (o n : V3 K) : Option (Plane K) :=
  (if dot n n ≤ tol then some ⟨0, 0, 1⟩ else unit nrm n).bind fun n' =>
  (unit nrm (perpToVector tol n')).bind fun x =>
  (unit nrm (cross x n')).bind fun y => some ⟨o, x, y, n'⟩

/-- `plane_eq_from_pts` (plane/__init__.py:112-134). -/
def planeEq (p0 p1 p2 : V3 K) : K × K × K × K :=
  let x3 := p0.y * p1.z
  let x4 := p1.y * p2.z
  let x5 := p2.y * p0.z
  (x3 + x4 + x5 - p0.y * p2.z - p1.y * p0.z - p2.y * p1.z,
   -p0.x * p1.z + p0.x * p2.z + p1.x * p0.z - p1.x * p2.z - p2.x * p0.z + p2.x * p1.z,
   p0.x * p1.y - p0.x * p2.y - p1.x * p0.y + p1.x * p2.y + p2.x * p0.y - p2.x * p1.y,
   -p0.x * x4 + p0.x * p2.y * p1.z - p1.x * x5 + p1.x * p0.y * p2.z - p2.x * x3 +
     p2.x * p1.y * p0.z)

/-- `plane_signed_distance` for one point (plane/__init__.py:264-266). -/
def signedDistance (e : K × K × K × K) (p : V3 K) : K :=
  e.1 * p.x + e.2.1 * p.y + e.2.2.1 * p.z + e.2.2.2

/-- `plane_from_3pt` (plane/__init__.py:90-100), the frame. -/
def planeFrom3pt (nrm : V3 K → K) (p0 p1 p2 : V3 K) : Option (Plane K) :=
  let e := planeEq p0 p1 p2
  (unit nrm ⟨e.1, e.2.1, e.2.2.1⟩).bind fun n =>
  (unit nrm (p1.sub p0)).bind fun x => some ⟨p0, x, cross n x, n⟩

/-- `plane_from_eq` (plane/__init__.py:102-110): origin and normal. -/
def planeFromEq (nrm : V3 K → K) (e : K × K × K × K) : Option (V3 K × V3 K) :=
  (unit nrm ⟨e.1, e.2.1, e.2.2.1⟩).map fun n => (smul e.2.2.2 n, n)

/-- `project_point_by_normal` (plane/__init__.py:84-87) and `project` (224-235). -/
def projectPoint (p n o : V3 K) : V3 K := p.sub (smul (dot (p.sub o) n) n)

/-- `distance` (plane/__init__.py:34-43). -/
def distance (nrm : V3 K → K) (o n p : V3 K) : Option K :=
  if nrm n = 0 then none
  else some |n.x * (p.x - o.x) / nrm n + n.y * (p.y - o.y) / nrm n + n.z * (p.z - o.z) / nrm n|

/-- `plane_from_normal_origin` (plane/__init__.py:216-221). -/
def planeFromNormalOrigin (nrm : V3 K → K) (n o : V3 K) : Option (Plane K) :=
  let xa := (projectPoint zero n o).sub o
  if nrm xa = 0 then none
  else
    let x : V3 K := ⟨xa.x / nrm xa, xa.y / nrm xa, xa.z / nrm xa⟩
    some ⟨o, x, cross n x, n⟩

end Verif.Vec
