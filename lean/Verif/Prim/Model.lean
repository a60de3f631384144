import Mathlib.Analysis.Real.Sqrt

/-!
# Model of mmcore/geom/primitives.pyx

Numbers are reals.  A division by zero (compiled with `cdivision`, so it gives infinities or NaN) is `none`.
The compiled classes keep their numbers in fields; `Sphere`, `Cyl` and `Tube` below are those fields together with the
box `_bounds`.  `sin` and `cos` of the parameter are arguments.
-/

namespace Verif.Prim

/-- Three numbers. -/
@[ext]
structure P where
  x : ℝ
  y : ℝ
  z : ℝ

/-- `dot3d` (primitives.pyx:30-33). -/
def dot (a b : P) : ℝ := a.x * b.x + a.y * b.y + a.z * b.z

/-- `sub3d` (primitives.pyx:86-90). -/
def sub (a b : P) : P := ⟨a.x - b.x, a.y - b.y, a.z - b.z⟩

/-- `norm3d` (primitives.pyx:37-39). -/
noncomputable def norm (a : P) : ℝ := √(a.x ^ 2 + a.y ^ 2 + a.z ^ 2)

/-- `scalar_cross` (vectors.pyx:351-359). -/
def cross (a b : P) : P := ⟨a.y * b.z - a.z * b.y, a.z * b.x - a.x * b.z, a.x * b.y - a.y * b.x⟩

/-- Division of the three entries by one number: `/=` (primitives.pyx:139-141, 203-205, 295-297, 404, 415). -/
noncomputable def div (a : P) (n : ℝ) : Option P := if n = 0 then none else some ⟨a.x / n, a.y / n, a.z / n⟩

/-- The box `_bounds`: row 0 and row 1. -/
@[ext]
structure Box where
  lo : P
  hi : P

/-! ## The base class -/

/-- `Implicit3D.cgradient` (primitives.pyx:132-141) of a function of three coordinates, step `1e-3`. -/
noncomputable def gradient (f : P → ℝ) (p : P) : P :=
  let g : P := ⟨(f ⟨p.x + 1e-3, p.y, p.z⟩ - f ⟨p.x - 1e-3, p.y, p.z⟩) / 2 / 1e-3,
    (f ⟨p.x, p.y + 1e-3, p.z⟩ - f ⟨p.x, p.y - 1e-3, p.z⟩) / 2 / 1e-3,
    (f ⟨p.x, p.y, p.z + 1e-3⟩ - f ⟨p.x, p.y, p.z - 1e-3⟩) / 2 / 1e-3⟩
  let n := norm g
  if n > 0 then ⟨g.x / n, g.y / n, g.z / n⟩ else g

/-! ## Sphere -/

/-- The fields of `Sphere` (primitives.pyx:166-175). -/
structure Sphere where
  o : P
  radius : ℝ
  bounds : Box

/-- `Sphere._calculate_bounds` (primitives.pyx:182-188). -/
def Sphere.calcBounds (s : Sphere) : Sphere :=
  { s with bounds := ⟨⟨s.o.x - s.radius, s.o.y - s.radius, s.o.z - s.radius⟩,
      ⟨s.o.x + s.radius, s.o.y + s.radius, s.o.z + s.radius⟩⟩ }

/-- `Sphere.__init__` (primitives.pyx:169-175); `b0` is what `np.empty((2,3))` held. -/
def Sphere.init (b0 : Box) (origin : P) (radius : ℝ) : Sphere := Sphere.calcBounds ⟨origin, radius, b0⟩

/-- `Sphere.cimplicit` (primitives.pyx:192-194). -/
noncomputable def Sphere.implicit (s : Sphere) (p : P) : ℝ :=
  √((p.x - s.o.x) ^ 2 + (p.y - s.o.y) ^ 2 + (p.z - s.o.z) ^ 2) - s.radius

/-- `Sphere.cgradient` (primitives.pyx:197-205). -/
noncomputable def Sphere.gradient (s : Sphere) (p : P) : Option P :=
  let r : P := ⟨p.x - s.o.x, p.y - s.o.y, p.z - s.o.z⟩
  div r (norm r)

/-- The setters `radius` (primitives.pyx:222-225) and `origin` (236-242). -/
inductive Sphere.Op
  | radius (r : ℝ)
  | origin (o : P)

/-- One assignment to a property. -/
def Sphere.step (s : Sphere) : Sphere.Op → Sphere
  | .radius r => Sphere.calcBounds { s with radius := r }
  | .origin o => Sphere.calcBounds { s with o := o }

/-- A sequence of assignments. -/
def Sphere.run (s : Sphere) (ops : List Sphere.Op) : Sphere := ops.foldl Sphere.step s

/-! ## Cylinder, as an implicit surface -/

/-- `cylinder_aabb` (primitives.pyx:246-261): `none` for a direction of length 0. -/
noncomputable def cylinderAabb (pa pb a : P) (r : ℝ) : Option Box :=
  let axsq := a.x * a.x
  let aysq := a.y * a.y
  let azsq := a.z * a.z
  let nsq := axsq + aysq + azsq
  if nsq = 0 then none
  else
    let ex := r * √(1 - axsq / nsq)
    let ey := r * √(1 - aysq / nsq)
    let ez := r * √(1 - azsq / nsq)
    some ⟨⟨min (pa.x - ex) (pb.x - ex), min (pa.y - ey) (pb.y - ey), min (pa.z - ez) (pb.z - ez)⟩,
      ⟨max (pa.x + ex) (pb.x + ex), max (pa.y + ey) (pb.y + ey), max (pa.z + ez) (pb.z + ez)⟩⟩

/-- The fields of `ImplicitCylinder` (primitives.pyx:264-276); `bounds` is `none` for a box of NaN. -/
structure Cyl where
  o : P
  e : P
  d : P
  radius : ℝ
  bounds : Option Box

/-- `_calculate_direction` (primitives.pyx:301-304). -/
def Cyl.calcDirection (c : Cyl) : Cyl := { c with d := ⟨c.e.x - c.o.x, c.e.y - c.o.y, c.e.z - c.o.z⟩ }

/-- `_calculate_bounds` (primitives.pyx:307-308). -/
noncomputable def Cyl.calcBounds (c : Cyl) : Cyl := { c with bounds := cylinderAabb c.o c.e c.d c.radius }

/-- `ImplicitCylinder.__init__` (primitives.pyx:266-276). -/
noncomputable def Cyl.init (start stop : P) (radius : ℝ) : Cyl :=
  Cyl.calcBounds (Cyl.calcDirection ⟨start, stop, ⟨0, 0, 0⟩, radius, none⟩)

/-- `_normal_not_unit` (primitives.pyx:367-375): `none` for a direction of length 0. -/
noncomputable def Cyl.normalNotUnit (c : Cyl) (p : P) : Option P :=
  let ax := p.x - c.o.x
  let ay := p.y - c.o.y
  let az := p.z - c.o.z
  let bn := c.d.x ^ 2 + c.d.y ^ 2 + c.d.z ^ 2
  if bn = 0 then none
  else some
    ⟨p.x - (ax * c.d.x * c.d.x / bn + ay * c.d.x * c.d.y / bn + az * c.d.x * c.d.z / bn + c.o.x),
     p.y - (ax * c.d.x * c.d.y / bn + ay * c.d.y * c.d.y / bn + az * c.d.y * c.d.z / bn + c.o.y),
     p.z - (ax * c.d.x * c.d.z / bn + ay * c.d.y * c.d.z / bn + az * c.d.z * c.d.z / bn + c.o.z)⟩

/-- `ImplicitCylinder.cimplicit` (primitives.pyx:280-287); the three terms under the root are those of
`_normal_not_unit`. -/
noncomputable def Cyl.implicit (c : Cyl) (p : P) : Option ℝ :=
  (Cyl.normalNotUnit c p).map (fun v => √(v.x ^ 2 + v.y ^ 2 + v.z ^ 2) - c.radius)

/-- `ImplicitCylinder.cgradient` (primitives.pyx:291-297). -/
noncomputable def Cyl.gradient (c : Cyl) (p : P) : Option P :=
  (Cyl.normalNotUnit c p).bind (fun v => div v (norm v))

/-- The setters `start` (primitives.pyx:321-328), `end` (345-352) and `radius` (333-336). -/
inductive Cyl.Op
  | start (o : P)
  | stop (e : P)
  | radius (r : ℝ)

/-- One assignment to a property. -/
noncomputable def Cyl.step (c : Cyl) : Cyl.Op → Cyl
  | .start o => Cyl.calcBounds (Cyl.calcDirection { c with o := o })
  | .stop e => Cyl.calcBounds (Cyl.calcDirection { c with e := e })
  | .radius r => Cyl.calcBounds { c with radius := r }

/-- A sequence of assignments. -/
noncomputable def Cyl.run (c : Cyl) (ops : List Cyl.Op) : Cyl := ops.foldl Cyl.step c

/-! ## Tube -/

/-- `Tube.cimplicit` (primitives.pyx:472-485): `none` for a direction of length 0. -/
noncomputable def tubeImplicit (o d : P) (radius thickness : ℝ) (p : P) : Option ℝ :=
  let x0 := d.x ^ 2
  let x1 := d.y ^ 2
  let x2 := d.z ^ 2
  if x0 + x1 + x2 = 0 then none
  else
    let x3 := 1 / (x0 + x1 + x2)
    let x4 := x3 * (o.y - p.y)
    let x5 := d.x * d.y
    let x6 := x3 * (o.z - p.z)
    let x7 := d.z * x6
    let x8 := x3 * (o.x - p.x)
    some (-1 / 2 * thickness + |radius - √(
      (d.x * x7 - o.x + p.x + x0 * x8 + x4 * x5) ^ 2 + (d.y * x7 - o.y + x1 * x4 + x5 * x8 + p.y) ^ 2 +
        (d.x * d.z * x8 + d.y * d.z * x4 - o.z + x2 * x6 + p.z) ^ 2)|)

/-- `Tube.cgradient` (primitives.pyx:488-543): `none` for a direction of length 0. -/
noncomputable def tubeGradient (o d : P) (radius : ℝ) (p : P) : Option P :=
  let x0 := d.x ^ 2
  let x1 := d.y ^ 2
  let x2 := d.z ^ 2
  if x0 + x1 + x2 = 0 then none
  else
    let x3 := 1 / (x0 + x1 + x2)
    let x4 := d.y * x3
    let x5 := -o.x + p.x
    let x6 := x5 + 0.001
    let x7 := -x6
    let x8 := d.x * x7
    let x9 := o.z - p.z
    let x10 := d.z * x4
    let x11 := x10 * x9
    let x12 := o.y - p.y
    let x13 := x1 * x3
    let x14 := -o.y + p.y
    let x15 := x12 * x13 + x14
    let x16 := x11 + x15
    let x17 := d.z * x3
    let x18 := x10 * x12
    let x19 := x2 * x3
    let x20 := -o.z + p.z
    let x21 := x19 * x9 + x20
    let x22 := x18 + x21
    let x23 := x0 * x3
    let x24 := d.x * x17
    let x25 := x24 * x9
    let x26 := d.x * x4
    let x27 := x12 * x26
    let x28 := x25 + x27
    let x29 := o.x - p.x
    let x30 := x29 + 0.001
    let x31 := x14 + 0.001
    let x32 := -x31
    let x33 := x23 * x29 + x5
    let x34 := x25 + x33
    let x35 := x24 * x29
    let x36 := x21 + x35
    let x37 := x26 * x29
    let x38 := x11 + x37
    let x39 := x12 + 0.001
    let x40 := x20 + 0.001
    let x41 := -x40
    let x42 := x27 + x33
    let x43 := x15 + x37
    let x44 := x18 + x35
    let x45 := x9 + 0.001
    some ⟨-500 * |radius - √((x16 + x26 * x30) ^ 2 + (x22 + x24 * x30) ^ 2 + (x23 * x30 + x28 + x5 - 0.001) ^ 2)|
        + 500 * |radius - √((x16 + x4 * x8) ^ 2 + (x17 * x8 + x22) ^ 2 + (x23 * x7 + x28 + x6) ^ 2)|,
      500 * |radius - √((x10 * x32 + x36) ^ 2 + (x26 * x32 + x34) ^ 2 + (x13 * x32 + x31 + x38) ^ 2)|
        - 500 * |radius - √((x10 * x39 + x36) ^ 2 + (x26 * x39 + x34) ^ 2 + (x13 * x39 + x14 + x38 - 0.001) ^ 2)|,
      500 * |radius - √((x10 * x41 + x43) ^ 2 + (x24 * x41 + x42) ^ 2 + (x19 * x41 + x40 + x44) ^ 2)|
        - 500 * |radius - √((x10 * x45 + x43) ^ 2 + (x24 * x45 + x42) ^ 2 + (x19 * x45 + x20 + x44 - 0.001) ^ 2)|⟩

/-- The fields of `Tube`: those of `ImplicitCylinder` and `_thickness` (primitives.pyx:458-470). -/
structure Tube where
  o : P
  e : P
  d : P
  radius : ℝ
  thickness : ℝ
  bounds : Option Box

/-- `_calculate_direction` is inherited (primitives.pyx:301-304). -/
def Tube.calcDirection (c : Tube) : Tube := { c with d := ⟨c.e.x - c.o.x, c.e.y - c.o.y, c.e.z - c.o.z⟩ }

/-- `Tube._calculate_bounds` (primitives.pyx:545-546), which overrides that of the cylinder. -/
noncomputable def Tube.calcBounds (c : Tube) : Tube :=
  { c with bounds := cylinderAabb c.o c.e c.d (c.radius + c.thickness / 2) }

/-- `Tube.__init__` (primitives.pyx:465-468). -/
noncomputable def Tube.init (start stop : P) (radius thickness : ℝ) : Tube :=
  Tube.calcBounds (Tube.calcDirection ⟨start, stop, ⟨0, 0, 0⟩, radius, thickness, none⟩)

/-- `Tube.cimplicit`. -/
noncomputable def Tube.implicit (c : Tube) (p : P) : Option ℝ := tubeImplicit c.o c.d c.radius c.thickness p

/-- `Tube.cgradient`. -/
noncomputable def Tube.gradient (c : Tube) (p : P) : Option P := tubeGradient c.o c.d c.radius p

/-- One assignment to an inherited property (primitives.pyx:321-352). -/
noncomputable def Tube.step (c : Tube) : Cyl.Op → Tube
  | .start o => Tube.calcBounds (Tube.calcDirection { c with o := o })
  | .stop e => Tube.calcBounds (Tube.calcDirection { c with e := e })
  | .radius r => Tube.calcBounds { c with radius := r }

/-- A sequence of assignments. -/
noncomputable def Tube.run (c : Tube) (ops : List Cyl.Op) : Tube := ops.foldl Tube.step c

/-! ## Cylinder, as a parametric surface -/

/-- `np.allclose(D_hat, [1, 0, 0])` (primitives.pyx:408) with the default tolerances. -/
def closeToX (v : P) : Prop := |v.x - 1| ≤ 1e-8 + 1e-5 ∧ |v.y| ≤ 1e-8 ∧ |v.z| ≤ 1e-8

/-- The fields of `Cylinder` that `cevaluate` reads. -/
structure Surf where
  start : P
  dHat : P
  uHat : P
  v : P
  radius : ℝ
  dNorm : ℝ
  prim : Cyl

open Classical in
/-- `Cylinder.__init__` (primitives.pyx:393-418): `none` when an entry is NaN. -/
noncomputable def Surf.init (start stop : P) (radius : ℝ) : Option Surf := do
  let direction := sub stop start
  let dNorm := norm direction
  let dHat ← div direction dNorm
  let w : P := if closeToX dHat then ⟨0, 1, 0⟩ else ⟨1, 0, 0⟩
  let u := cross dHat w
  let uHat ← div u (norm u)
  return ⟨start, dHat, uHat, cross dHat uHat, radius, dNorm, Cyl.init start stop radius⟩

/-- `Cylinder.cevaluate` (primitives.pyx:438-445); `co`, `si` are `cos(u)` and `sin(u)`. -/
def Surf.evaluate (s : Surf) (co si v : ℝ) : P :=
  ⟨s.start.x + v * s.dHat.x + s.radius * (co * s.uHat.x + si * s.v.x),
   s.start.y + v * s.dHat.y + s.radius * (co * s.uHat.y + si * s.v.y),
   s.start.z + v * s.dHat.z + s.radius * (co * s.uHat.z + si * s.v.z)⟩

/-- `Cylinder.implicit` (primitives.pyx:430-432, 449-451). -/
noncomputable def Surf.implicit (s : Surf) (p : P) : Option ℝ := s.prim.implicit p

/-- Assignment to the public attribute `radius` (declared in line 385). -/
def Surf.setRadius (s : Surf) (r : ℝ) : Surf := { s with radius := r }

end Verif.Prim
