import Verif.Vec.Model
import Mathlib.Data.List.Basic

/-!
# Model of the circles, lines, offsets and evaluators of mmcore/api and of parts of mmcore/geom/vec

Numbers are elements of an ordered field.  Arrays of three numbers (rows of a plane, the `_array` of a
vector object) live at addresses, vector objects refer to an address, so that two objects or an object and a
row of a plane can share memory.  Square roots, cosine and sine are parameters.  An exception is `none`.
-/

namespace Verif.Apc

open Verif.Vec (V3)
open Verif.Vec.V3

variable {K : Type} [Field K] [LinearOrder K]

/-! ## Circles in the plane -/

/-- The denominator in `circle2d_from_3pt` (curves.py:569): twice the signed area of the triangle. -/
def area2 (x1 y1 x2 y2 x3 y3 : K) : K := x1 * y2 - x1 * y3 - x2 * y1 + x2 * y3 + x3 * y1 - x3 * y2

/-- `circle2d_from_3pt` (curves.py:552-620); `none` is the division by zero. -/
def circle3pt (sqrt : K → K) (x1 y1 x2 y2 x3 y3 : K) : Option (K × K × K) :=
  let d := area2 x1 y1 x2 y2 x3 y3
  if d = 0 then none
  else
    let x := 1 / 2 * (x1 ^ 2 * y2 - x1 ^ 2 * y3 - x2 ^ 2 * y1 + x2 ^ 2 * y3 + x3 ^ 2 * y1 - x3 ^ 2 * y2
      + y1 ^ 2 * y2 - y1 ^ 2 * y3 - y1 * y2 ^ 2 + y1 * y3 ^ 2 + y2 ^ 2 * y3 - y2 * y3 ^ 2) / d
    let y := -(1 / 2) * (x1 ^ 2 * x2 - x1 ^ 2 * x3 - x1 * x2 ^ 2 + x1 * x3 ^ 2 - x1 * y2 ^ 2 + x1 * y3 ^ 2
      + x2 ^ 2 * x3 - x2 * x3 ^ 2 + x2 * y1 ^ 2 - x2 * y3 ^ 2 - x3 * y1 ^ 2 + x3 * y2 ^ 2) / d
    let r := 1 / 2 * sqrt ((x1 ^ 2 - 2 * x1 * x2 + x2 ^ 2 + y1 ^ 2 - 2 * y1 * y2 + y2 ^ 2)
      * (x1 ^ 2 - 2 * x1 * x3 + x3 ^ 2 + y1 ^ 2 - 2 * y1 * y3 + y3 ^ 2)
      * (x2 ^ 2 - 2 * x2 * x3 + x3 ^ 2 + y2 ^ 2 - 2 * y2 * y3 + y3 ^ 2)) / d
    some (x, y, max r (-r))

/-- A `Circle2D` (curves.py:633-636). -/
structure Circle2 (K : Type) where
  cx : K
  cy : K
  r : K

/-- `Circle2D.evaluate` (curves.py:642-650) where `c` and `s` are the cosine and the sine of the parameter. -/
def Circle2.eval (k : Circle2 K) (c s : K) : V3 K := ⟨k.r * c, k.r * s, 0⟩

/-! ## Circles in space -/

/-- Memory: the rows by address, the address each vector object refers to, and the first unused address. -/
structure Heap (K : Type) where
  arr : Nat → V3 K
  obj : Nat → Nat
  next : Nat

/-- The coordinates an object shows. -/
def Heap.get (h : Heap K) (o : Nat) : V3 K := h.arr (h.obj o)

/-- Writing through an object, as `p.x = ...`, `p.set_with_array(...)`, `p.scale(...)` do. -/
def Heap.put (h : Heap K) (o : Nat) (v : V3 K) : Heap K :=
  { h with arr := fun a => if a = h.obj o then v else h.arr a }

/-- `o._array = ...` -/
def Heap.rebind (h : Heap K) (o a : Nat) : Heap K := { h with obj := fun q => if q = o then a else h.obj q }

/-- A new array of four rows. -/
def Heap.alloc (h : Heap K) (p : V3 K × V3 K × V3 K × V3 K) : Heap K :=
  { h with
    arr := fun a => if a = h.next then p.1 else if a = h.next + 1 then p.2.1 else if a = h.next + 2 then p.2.2.1
      else if a = h.next + 3 then p.2.2.2 else h.arr a
    next := h.next + 4 }

/-- A `Circle3D`: the object of its center, the address of the first row of `_plane`, the radius. -/
structure Circle (K : Type) where
  center : Nat
  plane : Nat
  r : K

/-- `Circle3D.__init__` (curves.py:764-777) with the object `o` as center: the plane is a new array, and the array of the object is
replaced by its first row. -/
def newCircle (h : Heap K) (o : Nat) (r : K) (plane : Option (V3 K × V3 K × V3 K × V3 K)) : Heap K × Circle K :=
  let p := plane.getD (h.get o, ⟨1, 0, 0⟩, ⟨0, 1, 0⟩, ⟨0, 0, 1⟩)
  ((h.alloc p).rebind o h.next, ⟨o, h.next, r⟩)

/-- `Circle3D.evaluate` with `point_from_local_to_world` (curves.py:908-919, 530-538). -/
def Circle.eval (h : Heap K) (k : Circle K) (c s : K) : V3 K :=
  add (add (add (h.arr k.plane) (smul (k.r * c) (h.arr (k.plane + 1)))) (smul (k.r * s) (h.arr (k.plane + 2))))
    (smul 0 (h.arr (k.plane + 3)))

/-- `center` (curves.py:856-861). -/
def Circle.getCenter (h : Heap K) (k : Circle K) : V3 K := h.get k.center

/-- `normal` (curves.py:873-878). -/
def Circle.getNormal (h : Heap K) (k : Circle K) : V3 K := h.arr (k.plane + 3)

/-- `center = value` (curves.py:863-871). -/
def Circle.setCenter (h : Heap K) (k : Circle K) (o : Nat) : Heap K × Circle K :=
  let h1 : Heap K := { h with arr := fun a => if a = k.plane then h.get o else h.arr a }
  (h1.rebind o k.plane, { k with center := o })

/-- `normal = value` (curves.py:880-885). -/
def Circle.setNormal (h : Heap K) (k : Circle K) (n : V3 K) : Heap K :=
  { h with arr := fun a => if a = k.plane + 3 then n else h.arr a }

/-- `Circle3D.copy` (curves.py:823-830); `o` is the object made by `self._center.copy()`. -/
def Circle.copy (h : Heap K) (k : Circle K) (o : Nat) : Heap K × Circle K :=
  let h1 : Heap K := { h with
    arr := fun a => if a = h.next then h.get k.center else h.arr a
    obj := fun q => if q = o then h.next else h.obj q
    next := h.next + 1 }
  let (h2, k2) := newCircle h1 o k.r none
  let h3 := h2.alloc (h2.arr k.plane, h2.arr (k.plane + 1), h2.arr (k.plane + 2), h2.arr (k.plane + 3))
  (h3, { k2 with plane := h2.next })

/-- `Circle3D.create_by_center` (curves.py:787-800); `o` is the object made by `Point3D()`, at a new address. -/
def createByCenter (h : Heap K) (o : Nat) (_center _normal : V3 K) (_radius : K) : Heap K × Circle K :=
  let h1 : Heap K := { h with
    arr := fun a => if a = h.next then zero else h.arr a
    obj := fun q => if q = o then h.next else h.obj q
    next := h.next + 1 }
  newCircle h1 o 1 none

/-! ## Offset curves -/

/-- A curve: something with points and normals, or an `OffsetCurve` (curves.py:2501-2511). -/
inductive Cv (K : Type)
  | base (point normal : K → V3 K)
  | offset (parent : Cv K) (distance : K)

/-- `OffsetCurve.__init__` (curves.py:2505-2511). -/
def mkOffset (c : Cv K) (distance : K) : Cv K :=
  match c with
  | .offset parent d => .offset parent (d + distance)
  | .base p n => .offset (.base p n) distance

/-- `OffsetCurve.evaluate` (curves.py:2513-2514); the normal of an offset curve, which `BaseCurve.normal` takes from its derivatives, is the
parameter `nrm`. -/
def Cv.eval (nrm : Cv K → K → V3 K) : Cv K → K → V3 K
  | .base p _, t => p t
  | .offset c d, t =>
    let n := match c with
      | .base _ n => n t
      | c => nrm c t
    add (c.eval nrm t) (smul d n)

/-! ## Lines -/

/-- A class: the names it declares with `@abstractmethod` and the names it defines. -/
structure Cls where
  abs : List String
  defs : List String

/-- The abstract names of a class, given the chain of classes from it to its last base (`ABCMeta.__new__`). -/
def abstracts : List Cls → List String
  | [] => []
  | c :: rest => c.abs ++ (abstracts rest).filter (fun n => !(c.defs.contains n) && !(c.abs.contains n))

/-- Calling a class: `none` is the `TypeError` of a class with abstract methods. -/
def instantiate (chain : List Cls) : Option Unit := if (abstracts chain).isEmpty then some () else none

/-- `BaseCurve` (base.py:78-222). -/
def baseCurve : Cls :=
  ⟨["interval", "evaluate", "transform"], ["curve_type", "evaluator", "__init__", "normal", "tangent", "curvature", "plane_at",
    "derivative", "second_derivative", "add_derivative", "__call__", "intersect_with_curve"]⟩

/-- `Curve2D` (base.py:225-283). -/
def curve2D : Cls := ⟨[], ["transform", "interval", "evaluator"]⟩

/-- `Curve3D` (base.py:286-391). -/
def curve3D : Cls := ⟨[], ["transform", "curve_type", "intersect_with_curve", "interval", "evaluator"]⟩

/-- `BaseLine3D` (curves.py:156-249). -/
def baseLine3D : Cls :=
  ⟨["intersect_with_surface"], ["__init__", "is_colinear", "intersect_with_line", "intersect_with_curve", "__call__", "origin",
    "start_point", "end_point"]⟩

/-- `Line3D` (curves.py:365-523). -/
def line3D : Cls :=
  ⟨[], ["interval", "cast", "__init__", "create", "direction", "copy", "as_infinite_line", "as_line_2d", "is_colinear",
    "intersect_with_line", "evaluate_param", "evaluate_params", "intersect_with_surface", "get_data", "set", "start_point", "end_point",
    "as_nurbs_curve", "__call__"]⟩

/-- `InfiniteLine3D` (curves.py:252-333). -/
def infiniteLine3D : Cls :=
  ⟨[], ["interval", "__init__", "create", "copy", "intersect_with_surface", "get_data", "set", "direction", "end_point"]⟩

/-- `Line2D` (curves.py:68-150). -/
def line2D : Cls := ⟨[], ["__init__", "cast", "create", "copy", "get_data", "set", "start_point", "end_point", "as_nurbs_curve"]⟩

/-- `Circle3D` (curves.py:757-922). -/
def circle3D : Cls :=
  ⟨[], ["__init__", "plane", "cast", "create_by_center", "create_by_three_points", "copy", "get_data", "set", "center", "normal",
    "radius", "as_nurbs_curve", "evaluate", "interval"]⟩

/-- `line_line_tsz` (curves.py:38-65): `none` where a denominator is zero and the results are NaN or infinite. -/
def tsz (p1 p2 p3 p4 : V3 K) : Option (K × K × K) :=
  let c1 := p1.x * p3.y - p1.x * p4.y - p2.x * p3.y + p2.x * p4.y - p3.x * p1.y + p3.x * p2.y + p4.x * p1.y - p4.x * p2.y
  let c2 := p2.x * p3.y - p2.x * p4.y - p3.x * p2.y + p3.x * p4.y + p4.x * p2.y - p4.x * p3.y
  if c1 = 0 ∨ c2 = 0 then none
  else
    let s := (p1.x * p3.y - p1.x * p4.y - p3.x * p1.y + p3.x * p4.y + p4.x * p1.y - p4.x * p3.y) / c1
    let t := -(p1.x * p2.y - p1.x * p3.y - p2.x * p1.y + p2.x * p3.y + p3.x * p1.y - p3.x * p2.y) / c1
    let z0 := -(p1.x * p2.y * p3.z - p1.x * p2.y * p4.z - p1.x * p3.y * p2.z + p1.x * p3.y * p4.z + p1.x * p4.y * p2.z
      - p1.x * p4.y * p3.z - p2.x * p1.y * p3.z + p2.x * p1.y * p4.z - p2.x * p3.y * p4.z + p2.x * p4.y * p3.z
      + p3.x * p1.y * p2.z - p3.x * p1.y * p4.z + p3.x * p2.y * p4.z - p3.x * p4.y * p2.z - p4.x * p1.y * p2.z
      + p4.x * p1.y * p3.z - p4.x * p2.y * p3.z + p4.x * p3.y * p2.z) / c2
    some (t, s, z0)

/-! ## geom/vec -/

/-- The names `geom/vec/__init__.py` defines or imports. -/
def vecGlobals : List String :=
  ["os", "np", "vectors", "DEBUG_MODE", "angle", "angle3pt", "dot3pt", "norm_sq", "norm", "dist", "unit", "projection_length", "cross",
    "dot", "perp2d", "scale_vector", "add_multiply_vectors", "rotate_matrix", "gram_schmidt", "make_perpendicular", "clamp", "expand",
    "orthonormalize"]

/-- Calling a function by its name in a module: `none` is `NameError`. -/
def callName {α : Type} (globals : List String) (name : String) (value : α) : Option α :=
  if globals.contains name then some value else none

/-- `dot` (vec/__init__.py:154-163): calls `scalar_dot`. -/
def vdot (a b : V3 K) : Option K := callName vecGlobals "scalar_dot" (V3.dot a b)

/-- `projection_length` (vec/__init__.py:136-138). -/
def projectionLength (nrm : V3 K → K) (a b : V3 K) : Option K := (vdot a b).map (· / nrm b)

/-- `gram_schmidt` (vec/__init__.py:246-259), which is `make_perpendicular` for three components (263-267). -/
def gramSchmidt (unit : V3 K → V3 K) (v1 v2 : V3 K) : Option (V3 K) :=
  (vdot (unit v2) (unit v1)).map (fun d => sub (unit v2) (smul d (unit v1)))

/-- `angle` (vec/__init__.py:44-64) without `DEBUG_MODE`, `arccos` a parameter. -/
def angle (arccos : K → K) (a b : V3 K) : Option K :=
  if V3.dot a b < -1 ∨ 1 < V3.dot a b then none else some (arccos (V3.dot a b))

/-- What `orthonormalize` leaves: the tuple it returns, if it does not raise, and the arrays of its second and third argument. -/
structure Ortho (K : Type) where
  ret : Option (V3 K × V3 K × V3 K)
  v : V3 K
  w : V3 K

/-- `orthonormalize` (vec/__init__.py:285-322).  `-=` and `/=` work on the arrays of the caller.  For a zero vector `u` everything
becomes NaN, the comparison is false and the first error is raised. -/
def orthonormalize (nrm : V3 K → K) (eps : K) (u v w : V3 K) : Ortho K :=
  if nrm u = 0 then ⟨none, v, w⟩
  else
    let u := smul (1 / nrm u) u
    let v := sub v (smul (V3.dot u v) u)
    if eps < nrm v then
      let v := smul (1 / nrm v) v
      let w := sub w (smul (V3.dot u w) u)
      let w := sub w (smul (V3.dot v w) v)
      if eps < nrm w then
        let w := smul (1 / nrm w) w
        ⟨some (u, v, w), v, w⟩
      else ⟨none, v, w⟩
    else ⟨none, v, w⟩

/-! ## Evaluators -/

/-- What functions of a parameter give: a vector or the pair of a flag and a vector object. -/
inductive Val (K : Type)
  | vec (v : V3 K)
  | flagged (ok : Bool) (v : V3 K)

/-- Subtraction of values: `none` is the `TypeError` for tuples. -/
def Val.sub : Val K → Val K → Option (V3 K)
  | .vec a, .vec b => some (V3.sub a b)
  | _, _ => none

/-- `FDM.central` (fdm.py:239-240). -/
def fdm (h : K) (f : K → Option (Val K)) (t : K) : Option (Val K) := do
  let a ← f (t + h)
  let b ← f (t - h)
  let d ← Val.sub a b
  pure (.vec (smul (1 / (2 * h)) d))

/-- `get_first_derivative` (base.py:594-601): `Vector3D(...)` of a vector. -/
def firstDerivative (h : K) (curve : K → V3 K) (t : K) : Option (Val K) :=
  match fdm h (fun t => some (.vec (curve t))) t with
  | some (.vec v) => some (.flagged true v)
  | _ => none

/-- `_get_second_derivative` (base.py:448): the difference of the public method. -/
def secondRaw (h : K) (curve : K → V3 K) (t : K) : Option (Val K) := fdm h (firstDerivative h curve) t

/-- `get_second_derivative` (base.py:615-621). -/
def secondDerivative (h : K) (curve : K → V3 K) (t : K) : Option (Val K) :=
  match secondRaw h curve t with
  | some (.vec v) => some (.flagged true v)
  | _ => none

/-- `get_third_derivative` (base.py:449, 632-638). -/
def thirdDerivative (h : K) (curve : K → V3 K) (t : K) : Option (Val K) :=
  match fdm h (secondRaw h curve) t with
  | some (.vec v) => some (.flagged true v)
  | _ => none

/-- `get_tangent` (base.py:674-683): both derivatives are arguments of `evaluate_tangent`. -/
def tangent (evalTangent : V3 K → V3 K → V3 K × Bool) (h : K) (curve : K → V3 K) (t : K) : Option (Val K) :=
  match fdm h (fun t => some (.vec (curve t))) t, secondRaw h curve t with
  | some (.vec d1), some (.vec d2) => let r := evalTangent d1 d2; some (.flagged r.2 r.1)
  | _, _ => none

/-- The parameters of `get_strokes` (base.py:640-660): `np.linspace`. -/
def strokes (curve : K → V3 K) (a b : K) (count : Nat) : List (V3 K) :=
  (List.range count).map (fun i : Nat => curve (if count = 1 then a else a + (i : K) * ((b - a) / ((count : K) - 1))))

end Verif.Apc
