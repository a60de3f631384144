import Verif.Nurbs.Model

/-!
# Model of `NURBSSurface` (`mmcore/geom/nurbs.pyx:2256-2938`, `mmcore/geom/nurbs.pxd:302-344`)

The control points of a surface are homogeneous: columns 0, 1, 2 hold the coordinates multiplied by the weight, column 3
the weight.  The conventions are those of `Verif.Nurbs.Model`.
-/

namespace Verif.Nurbs
variable {K : Type} [Field K] [LinearOrder K]

/-- The data of a `NURBSSurface` (nurbs.pxd, nurbs.pyx:2256-2290): `P i j col`. -/
structure Surf (K : Type) where
  pu : Nat
  pv : Nat
  nu : Nat
  nv : Nat
  mu : Nat
  mv : Nat
  U : Nat → K
  V : Nat → K
  P : Nat → Nat → Nat → K

/-- The loop over `k` in `surface_point` (nurbs.pxd:321-327): `temp[l*4 + col]`. -/
def spRow (us p : Nat) (Nu : Nat → K) (P : Nat → Nat → Nat → K) (row col : Nat) : K :=
  (List.range (p + 1)).foldl (fun acc k => acc + Nu k * P (us - p + k) row col) 0

/-- The loop over `l` in `surface_point` (nurbs.pxd:329-333): `result[col]`, and `w` for `col = 3`. -/
def spSum (us vs p q : Nat) (Nu Nv : Nat → K) (P : Nat → Nat → Nat → K) (col : Nat) : K :=
  (List.range (q + 1)).foldl (fun acc l => acc + Nv l * spRow us p Nu P (vs - q + l) col) 0

/-- `surface_point` (nurbs.pxd:302-344). -/
def surfacePoint (fuel n p : Nat) (U : Nat → K) (m q : Nat) (V : Nat → K) (P : Nat → Nat → Nat → K) (u v : K)
    (perU perV : Bool) (col : Nat) : Option K :=
  match findSpan fuel n p u U perU, findSpan fuel m q v V perV with
  | some us, some vs =>
    let Nu := basisFuns us u p U (fun _ => 0)
    let Nv := basisFuns vs v q V (fun _ => 0)
    some (spSum us vs p q Nu Nv P col / spSum us vs p q Nu Nv P 3)
  | _, _ => none

/-- `NURBSSurface.cevaluate` (nurbs.pyx:2467-2468). -/
def Surf.evaluate (S : Surf K) (fuel : Nat) (u v : K) (col : Nat) : Option K :=
  surfacePoint fuel (S.nu - 1) S.pu S.U (S.nv - 1) S.pv S.V S.P u v false false col

/-- `NURBSSurface.bbox` (nurbs.pyx:2647-2653): `aabb` on the flat view of the control points, one column. -/
def Surf.bbox (S : Surf K) (col : Nat) : K × K :=
  aabbCol (S.nu * S.nv) (fun f c => S.P (f / S.nv) (f % S.nv) c) col

/-- `NURBSSurface.insert_knot_u` (nurbs.pyx:2598-2635).  `init`: content of the reallocated control point block, `junk`:
content of the temporary block of `knot_insertion`. -/
def Surf.insertU (S : Surf K) (fuel : Nat) (eps : K → K) (init junk : Nat → Nat → Nat → K) (t : K) (count : Nat) :
    Option (Surf K) :=
  match findSpan fuel (S.nu - 1) S.pu t S.U false with
  | none => none
  | some span =>
    let s := findMultiplicity eps t S.U S.mu
    some { S with
      nu := S.nu + count
      mu := S.mu + count
      U := knotInsertionKv S.U t span count
      P := fun i j c => knotInsertion S.pu S.U S.nu (fun a => S.P a j c) t count s span
        (fun a => init a j c) (fun a => junk a j c) i }

/-- `NURBSSurface.insert_knot_v` (nurbs.pyx:2658-2694). -/
def Surf.insertV (S : Surf K) (fuel : Nat) (eps : K → K) (init junk : Nat → Nat → Nat → K) (t : K) (count : Nat) :
    Option (Surf K) :=
  match findSpan fuel (S.nv - 1) S.pv t S.V false with
  | none => none
  | some span =>
    let s := findMultiplicity eps t S.V S.mv
    some { S with
      nv := S.nv + count
      mv := S.mv + count
      V := knotInsertionKv S.V t span count
      P := fun i j c => knotInsertion S.pv S.V S.nv (fun a => S.P i a c) t count s span
        (fun a => init i a c) (fun a => junk i a c) j }

/-- `split_surface_u` (nurbs.pyx:2707-2771).  Outer `none`: a loop does not end; inner `none`: `ValueError`. -/
def splitU (S : Surf K) (fuel : Nat) (eps : K → K) (tol : K) (init junk : Nat → Nat → Nat → K) (t : K) :
    Option (Option (Surf K × Surf K)) :=
  let a := S.U 0
  let b := S.U (S.mu - 1)
  if t ≤ a ∨ b ≤ t ∨ |t - a| ≤ tol ∨ |t - b| ≤ tol then some none
  else
    match findSpan fuel S.nu S.pu t S.U false with
    | none => none
    | some sp =>
      let ks := sp - S.pu + 1
      let s := findMultiplicity eps t S.U S.mu
      let r := S.pu - s
      match S.insertU fuel eps init junk t r with
      | none => none
      | some T =>
        match findSpan fuel T.nu S.pu t T.U false with
        | none => none
        | some sp2 =>
          let knotSpan := sp2 + 1
          some (some (
            { S with
              nu := ks + r
              mu := knotSpan + 1
              U := fun i => if i < knotSpan then T.U i else t
              P := T.P },
            { S with
              nu := T.nu - (ks + r - 1)
              mu := T.mu - knotSpan + (S.pu + 1)
              U := fun i => if i < S.pu + 1 then t else T.U (i - (S.pu + 1) + knotSpan)
              P := fun i => T.P (i + (ks + r - 1)) }))

/-- `split_surface_v` (nurbs.pyx:2777-2840). -/
def splitV (S : Surf K) (fuel : Nat) (eps : K → K) (tol : K) (init junk : Nat → Nat → Nat → K) (t : K) :
    Option (Option (Surf K × Surf K)) :=
  let a := S.V 0
  let b := S.V (S.mv - 1)
  if t ≤ a ∨ b ≤ t ∨ |t - a| ≤ tol ∨ |t - b| ≤ tol then some none
  else
    match findSpan fuel S.nv S.pv t S.V false with
    | none => none
    | some sp =>
      let ks := sp - S.pv + 1
      let s := findMultiplicity eps t S.V S.mv
      let r := S.pv - s
      match S.insertV fuel eps init junk t r with
      | none => none
      | some T =>
        match findSpan fuel T.nv S.pv t T.V false with
        | none => none
        | some sp2 =>
          let knotSpan := sp2 + 1
          some (some (
            { S with
              nv := ks + r
              mv := knotSpan + 1
              V := fun i => if i < knotSpan then T.V i else t
              P := T.P },
            { S with
              nv := T.nv - (ks + r - 1)
              mv := T.mv - knotSpan + (S.pv + 1)
              V := fun i => if i < S.pv + 1 then t else T.V (i - (S.pv + 1) + knotSpan)
              P := fun i j => T.P i (j + (ks + r - 1)) }))

/-- `subdivide_surface` with `normalize_knots=False` (nurbs.pyx:2846-2863): parts in the order of the returned tuple. -/
def subdivide (S : Surf K) (fuel : Nat) (eps : K → K) (tol : K) (init junk : Nat → Nat → Nat → K) (u v : K) :
    Option (Option (Surf K × Surf K × Surf K × Surf K)) :=
  match splitU S fuel eps tol init junk u with
  | none => none
  | some none => some none
  | some (some (s1, s2)) =>
    match splitV s1 fuel eps tol init junk v with
    | none => none
    | some none => some none
    | some (some (s11, s12)) =>
      match splitV s2 fuel eps tol init junk v with
      | none => none
      | some none => some none
      | some (some (s21, s22)) => some (some (s11, s12, s21, s22))

/-- `decompose_direction(srf, 0)` inside `decompose_surface` (nurbs.pyx:2889-2906) for a given sorted list of distinct inner
knots. -/
def decomposeU (fuel : Nat) (eps : K → K) (tol : K) (init junk : Nat → Nat → Nat → K) :
    Surf K → List K → Option (Option (List (Surf K)))
  | S, [] => some (some [S])
  | S, t :: ts =>
    match splitU S fuel eps tol init junk t with
    | none => none
    | some none => some none
    | some (some (s1, s2)) =>
      match decomposeU fuel eps tol init junk s2 ts with
      | none => none
      | some none => some none
      | some (some l) => some (some (s1 :: l))

/-- `decompose_direction(srf, 1)`. -/
def decomposeV (fuel : Nat) (eps : K → K) (tol : K) (init junk : Nat → Nat → Nat → K) :
    Surf K → List K → Option (Option (List (Surf K)))
  | S, [] => some (some [S])
  | S, t :: ts =>
    match splitV S fuel eps tol init junk t with
    | none => none
    | some none => some none
    | some (some (s1, s2)) =>
      match decomposeV fuel eps tol init junk s2 ts with
      | none => none
      | some none => some none
      | some (some l) => some (some (s1 :: l))

/-- One element added to a sorted list without repetition. -/
def insertSet (x : K) : List K → List K
  | [] => [x]
  | y :: ys => if x < y then x :: y :: ys else if x = y then y :: ys else y :: insertSet x ys

/-- `sorted(set(knots[degree + 1 : -(degree + 1)]))` (nurbs.pyx:2893). -/
def innerKnots (U : Nat → K) (m p : Nat) : List K :=
  ((List.range (m - 2 * (p + 1))).map (fun i => U (p + 1 + i))).foldr insertSet []

/-- The loop over the `u` strips of `decompose_surface` (nurbs.pyx:2928-2931). -/
def decomposeStrips (fuel : Nat) (eps : K → K) (tol : K) (init junk : Nat → Nat → Nat → K) :
    List (Surf K) → Option (Option (List (Surf K)))
  | [] => some (some [])
  | S :: l =>
    match decomposeV fuel eps tol init junk S (innerKnots S.V S.mv S.pv) with
    | none => none
    | some none => some none
    | some (some d) =>
      match decomposeStrips fuel eps tol init junk l with
      | none => none
      | some none => some none
      | some (some r) => some (some (d ++ r))

/-- `decompose_surface(surface, "uv")` (nurbs.pyx:2888-2932); the work is done on a copy, so the argument is unchanged. -/
def decomposeSurface (S : Surf K) (fuel : Nat) (eps : K → K) (tol : K) (init junk : Nat → Nat → Nat → K) :
    Option (Option (List (Surf K))) :=
  match decomposeU fuel eps tol init junk S (innerKnots S.U S.mu S.pu) with
  | none => none
  | some none => some none
  | some (some l) => decomposeStrips fuel eps tol init junk l

/-- `cnormalize_knots_u` (nurbs.pyx:2527-2535), `cnormalize_knots_v` (2540-2546) and `normalize_knots` (2558-2560): both
knot vectors mapped affinely to `[0, 1]`. -/
def normKnot (U : Nat → K) (m : Nat) (i : Nat) : K := (U i - U 0) / (U (m - 1) - U 0)

def Surf.normalizeKnots (S : Surf K) : Surf K :=
  { S with
    U := fun i => if i < S.mu then normKnot S.U S.mu i else S.U i
    V := fun i => if i < S.mv then normKnot S.V S.mv i else S.V i }

/-- `generate_knots_u` (nurbs.pyx:2403-2430) and `generate_knots_v` (2435-2462): `p+1` zeros, `1 .. n-p-1`, `p+1` times
`n-p`. -/
def generateKnots (n p : Nat) (i : Nat) : K :=
  if i < p + 1 then 0 else if i < n then ((i - p : Nat) : K) else ((n - p : Nat) : K)

/-- Entry `(i, j, col)` of the `control_points` property (nurbs.pyx:2338-2351): homogeneous coordinates divided by the
weight unless it is 1. -/
def Surf.controlPoints (S : Surf K) (i j col : Nat) : K :=
  if S.P i j 3 ≠ 1 then S.P i j col / S.P i j 3 else S.P i j col

end Verif.Nurbs
