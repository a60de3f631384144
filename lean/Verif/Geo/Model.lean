import Verif.Vec.Model

/-! # Geodesics on surfaces: `mmcore/geom/surfaces/geodesic.py`

Numbers are elements of a field.  A surface is given by its five partial derivatives at a parameter, as the code asks for them
(`derivative_u`, `derivative_v`, `second_derivative_uu`, `second_derivative_uv`, `second_derivative_vv`).  `none` stands for the
NaNs after a division by zero.  Not modelled: the integrator `solve_ivp`, the search of an initial direction with `minimize`
(74-113), and that the module cannot be imported because the annotation `NURBSSurface` in line 12 is not defined. -/

namespace Verif.Geo

open Verif.Vec V3

variable {K : Type} [Field K] [LinearOrder K]

/-- The partial derivatives of a surface at one parameter. -/
structure Jet (K : Type) where
  ru : V3 K
  rv : V3 K
  ruu : V3 K
  ruv : V3 K
  rvv : V3 K

/-- `compute_metric` (geodesic.py:3-9). -/
def metric (j : Jet K) : K × K × K := (dot j.ru j.ru, dot j.ru j.rv, dot j.rv j.rv)

/-- The six numbers of `compute_metric_derivatives`. -/
structure MD (K : Type) where
  Eu : K
  Ev : K
  Fu : K
  Fv : K
  Gu : K
  Gv : K

/-- `compute_metric_derivatives` (geodesic.py:12-34). -/
def metricD (j : Jet K) : MD K where
  Eu := 2 * dot j.ruu j.ru
  Ev := 2 * dot j.ruv j.ru
  Fu := dot j.ruu j.rv + dot j.ru j.ruv
  Fv := dot j.ruv j.rv + dot j.ru j.rvv
  Gu := 2 * dot j.ruv j.rv
  Gv := 2 * dot j.rvv j.rv

/-- The six numbers of `compute_christoffel_symbols`. -/
structure Chr (K : Type) where
  g111 : K
  g112 : K
  g122 : K
  g211 : K
  g212 : K
  g222 : K

/-- `compute_christoffel_symbols` (geodesic.py:37-57). -/
def christoffel (j : Jet K) : Option (Chr K) :=
  let (E, F, G) := metric j
  let m := metricD j
  let denom := E * G - F ^ 2
  if denom = 0 then none
  else
    let i00 := G / denom
    let i01 := -F / denom
    let i10 := -F / denom
    let i11 := E / denom
    some
      { g111 := 1 / 2 * i00 * m.Eu + 1 / 2 * i01 * m.Ev
        g112 := 1 / 2 * i00 * m.Fu + 1 / 2 * i01 * m.Fv
        g122 := 1 / 2 * i00 * m.Gu + 1 / 2 * i01 * m.Gv
        g211 := 1 / 2 * i10 * m.Eu + 1 / 2 * i11 * m.Ev
        g212 := 1 / 2 * i10 * m.Fu + 1 / 2 * i11 * m.Fv
        g222 := 1 / 2 * i10 * m.Gu + 1 / 2 * i11 * m.Gv }

/-- `geodesic_equations` (geodesic.py:60-71): the right-hand side at the state `(u, v, p, q)`. -/
def equations (jet : K → K → Jet K) (y : K × K × K × K) : Option (K × K × K × K) :=
  let (u, v, p, q) := y
  match christoffel (jet u v) with
  | none => none
  | some c =>
    some (p, q, -(c.g111 * p ^ 2 + 2 * c.g112 * p * q + c.g122 * q ^ 2),
      -(c.g211 * p ^ 2 + 2 * c.g212 * p * q + c.g222 * q ^ 2))

end Verif.Geo
