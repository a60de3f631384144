import Mathlib.Algebra.BigOperators.Group.Finset.Basic
import Mathlib.Algebra.Field.Basic
import Mathlib.Order.Interval.Finset.Nat

/-!
# Model of Bezier and monomial forms

mmcore/numeric/binom.pyx, mmcore/numeric/monomial.py, `degree_elevation_bez` of
mmcore/geom/curves/knot.py.

Numbers are elements of a field.  An array of shape `(n, m, dim)` is a function of three indices
together with its shape.  `@` of numpy and loops with `+=` are sums over ranges.
-/

namespace Verif.Bez

open Finset

/-- `binomial_coefficients` (binom.pyx:8-968): the table of the file. -/
def table : List (List Nat) := [
  [1, 0, 0, 0, 0, 0, 0, 0, 0, 0, 0, 0, 0, 0, 0, 0, 0, 0, 0, 0, 0, 0, 0, 0, 0, 0, 0, 0, 0, 0, 0],
  [1, 1, 0, 0, 0, 0, 0, 0, 0, 0, 0, 0, 0, 0, 0, 0, 0, 0, 0, 0, 0, 0, 0, 0, 0, 0, 0, 0, 0, 0, 0],
  [1, 2, 1, 0, 0, 0, 0, 0, 0, 0, 0, 0, 0, 0, 0, 0, 0, 0, 0, 0, 0, 0, 0, 0, 0, 0, 0, 0, 0, 0, 0],
  [1, 3, 3, 1, 0, 0, 0, 0, 0, 0, 0, 0, 0, 0, 0, 0, 0, 0, 0, 0, 0, 0, 0, 0, 0, 0, 0, 0, 0, 0, 0],
  [1, 4, 6, 4, 1, 0, 0, 0, 0, 0, 0, 0, 0, 0, 0, 0, 0, 0, 0, 0, 0, 0, 0, 0, 0, 0, 0, 0, 0, 0, 0],
  [1, 5, 10, 10, 5, 1, 0, 0, 0, 0, 0, 0, 0, 0, 0, 0, 0, 0, 0, 0, 0, 0, 0, 0, 0, 0, 0, 0, 0, 0, 0],
  [1, 6, 15, 20, 15, 6, 1, 0, 0, 0, 0, 0, 0, 0, 0, 0, 0, 0, 0, 0, 0, 0, 0, 0, 0, 0, 0, 0, 0, 0, 0],
  [1, 7, 21, 35, 35, 21, 7, 1, 0, 0, 0, 0, 0, 0, 0, 0, 0, 0, 0, 0, 0, 0, 0, 0, 0, 0, 0, 0, 0, 0,
   0],
  [1, 8, 28, 56, 70, 56, 28, 8, 1, 0, 0, 0, 0, 0, 0, 0, 0, 0, 0, 0, 0, 0, 0, 0, 0, 0, 0, 0, 0, 0,
   0],
  [1, 9, 36, 84, 126, 126, 84, 36, 9, 1, 0, 0, 0, 0, 0, 0, 0, 0, 0, 0, 0, 0, 0, 0, 0, 0, 0, 0, 0,
   0, 0],
  [1, 10, 45, 120, 210, 252, 210, 120, 45, 10, 1, 0, 0, 0, 0, 0, 0, 0, 0, 0, 0, 0, 0, 0, 0, 0, 0,
   0, 0, 0, 0],
  [1, 11, 55, 165, 330, 462, 462, 330, 165, 55, 11, 1, 0, 0, 0, 0, 0, 0, 0, 0, 0, 0, 0, 0, 0, 0,
   0, 0, 0, 0, 0],
  [1, 12, 66, 220, 495, 792, 924, 792, 495, 220, 66, 12, 1, 0, 0, 0, 0, 0, 0, 0, 0, 0, 0, 0, 0,
   0, 0, 0, 0, 0, 0],
  [1, 13, 78, 286, 715, 1287, 1716, 1716, 1287, 715, 286, 78, 13, 1, 0, 0, 0, 0, 0, 0, 0, 0, 0,
   0, 0, 0, 0, 0, 0, 0, 0],
  [1, 14, 91, 364, 1001, 2002, 3003, 3432, 3003, 2002, 1001, 364, 91, 14, 1, 0, 0, 0, 0, 0, 0, 0,
   0, 0, 0, 0, 0, 0, 0, 0, 0],
  [1, 15, 105, 455, 1365, 3003, 5005, 6435, 6435, 5005, 3003, 1365, 455, 105, 15, 1, 0, 0, 0, 0,
   0, 0, 0, 0, 0, 0, 0, 0, 0, 0, 0],
  [1, 16, 120, 560, 1820, 4368, 8008, 11440, 12870, 11440, 8008, 4368, 1820, 560, 120, 16, 1, 0,
   0, 0, 0, 0, 0, 0, 0, 0, 0, 0, 0, 0, 0],
  [1, 17, 136, 680, 2380, 6188, 12376, 19448, 24310, 24310, 19448, 12376, 6188, 2380, 680, 136,
   17, 1, 0, 0, 0, 0, 0, 0, 0, 0, 0, 0, 0, 0, 0],
  [1, 18, 153, 816, 3060, 8568, 18564, 31824, 43758, 48620, 43758, 31824, 18564, 8568, 3060, 816,
   153, 18, 1, 0, 0, 0, 0, 0, 0, 0, 0, 0, 0, 0, 0],
  [1, 19, 171, 969, 3876, 11628, 27132, 50388, 75582, 92378, 92378, 75582, 50388, 27132, 11628,
   3876, 969, 171, 19, 1, 0, 0, 0, 0, 0, 0, 0, 0, 0, 0, 0],
  [1, 20, 190, 1140, 4845, 15504, 38760, 77520, 125970, 167960, 184756, 167960, 125970, 77520,
   38760, 15504, 4845, 1140, 190, 20, 1, 0, 0, 0, 0, 0, 0, 0, 0, 0, 0],
  [1, 21, 210, 1330, 5985, 20349, 54264, 116280, 203490, 293930, 352716, 352716, 293930, 203490,
   116280, 54264, 20349, 5985, 1330, 210, 21, 1, 0, 0, 0, 0, 0, 0, 0, 0, 0],
  [1, 22, 231, 1540, 7315, 26334, 74613, 170544, 319770, 497420, 646646, 705432, 646646, 497420,
   319770, 170544, 74613, 26334, 7315, 1540, 231, 22, 1, 0, 0, 0, 0, 0, 0, 0, 0],
  [1, 23, 253, 1771, 8855, 33649, 100947, 245157, 490314, 817190, 1144066, 1352078, 1352078,
   1144066, 817190, 490314, 245157, 100947, 33649, 8855, 1771, 253, 23, 1, 0, 0, 0, 0, 0, 0, 0],
  [1, 24, 276, 2024, 10626, 42504, 134596, 346104, 735471, 1307504, 1961256, 2496144, 2704156,
   2496144, 1961256, 1307504, 735471, 346104, 134596, 42504, 10626, 2024, 276, 24, 1, 0, 0, 0, 0,
   0, 0],
  [1, 25, 300, 2300, 12650, 53130, 177100, 480700, 1081575, 2042975, 3268760, 4457400, 5200300,
   5200300, 4457400, 3268760, 2042975, 1081575, 480700, 177100, 53130, 12650, 2300, 300, 25, 1,
   0, 0, 0, 0, 0],
  [1, 26, 325, 2600, 14950, 65780, 230230, 657800, 1562275, 3124550, 5311735, 7726160, 9657700,
   10400600, 9657700, 7726160, 5311735, 3124550, 1562275, 657800, 230230, 65780, 14950, 2600,
   325, 26, 1, 0, 0, 0, 0],
  [1, 27, 351, 2925, 17550, 80730, 296010, 888030, 2220075, 4686825, 8436285, 13037895, 17383860,
   20058300, 20058300, 17383860, 13037895, 8436285, 4686825, 2220075, 888030, 296010, 80730,
   17550, 2925, 351, 27, 1, 0, 0, 0],
  [1, 28, 378, 3276, 20475, 98280, 376740, 1184040, 3108105, 6906900, 13123110, 21474180,
   30421755, 37442160, 40116600, 37442160, 30421755, 21474180, 13123110, 6906900, 3108105,
   1184040, 376740, 98280, 20475, 3276, 378, 28, 1, 0, 0],
  [1, 29, 406, 3654, 23751, 118755, 475020, 1560780, 4292145, 10015005, 20030010, 34597290,
   51895935, 67863915, 77558760, 77558760, 67863915, 51895935, 34597290, 20030010, 10015005,
   4292145, 1560780, 475020, 118755, 23751, 3654, 406, 29, 1, 0],
  [1, 30, 435, 4060, 27405, 142506, 593775, 2035800, 5852925, 14307150, 30045015, 54627300,
   86493225, 119759850, 145422675, 155117520, 145422675, 119759850, 86493225, 54627300, 30045015,
   14307150, 5852925, 2035800, 593775, 142506, 27405, 4060, 435, 30, 1]]

variable {K : Type} [Field K]

/-- `binomial_coefficient_py` (binom.pyx:974-978): no bounds are checked (build.py:257-266), so element
`[i][j]` is element `31 i + j` of the memory of the table; `g` is the memory behind the table. -/
def binom (g : Nat → K) (i j : Nat) : K :=
  if 31 * i + j < 961 then ((table.flatten.getD (31 * i + j) 0 : Nat) : K) else g (31 * i + j)

/-- `bpmat` (monomial.py:11-25). -/
def bpmat (g : Nat → K) (n j k : Nat) : K :=
  if k ≤ j then (-1) ^ (j - k) * binom g n j * binom g j k else 0

/-- An array of shape `(n, m, dim)`; elements outside the shape have no meaning. -/
structure Arr (K : Type) where
  n : Nat
  m : Nat
  dim : Nat
  get : Nat → Nat → Nat → K

/-- `bezier_to_monomial` (monomial.py:29-63). -/
def bezierToMonomial (g : Nat → K) (P : Arr K) : Arr K :=
  ⟨P.n, P.m, P.dim, fun i j d => ∑ b ∈ range P.m, (∑ a ∈ range P.n, bpmat g (P.n - 1) i a * P.get a b d) *
    bpmat g (P.m - 1) j b⟩

/-- `monomial_to_bezier` (monomial.py:66-97); `inv n M` is `np.linalg.inv` of the `n × n` matrix `M`. -/
def monomialToBezier (g : Nat → K) (inv : Nat → (Nat → Nat → K) → Nat → Nat → K) (A : Arr K) : Arr K :=
  ⟨A.n, A.m, A.dim, fun i j d => ∑ b ∈ range A.m,
    (∑ a ∈ range A.n, inv A.n (bpmat g (A.n - 1)) i a * A.get a b d) *
      inv A.m (bpmat g (A.m - 1)) j b⟩

/-- `evaluate_bezier_patch` (monomial.py:136-145), with `comb` of scipy. -/
def evalBezier (P : Arr K) (u v : K) (d : Nat) : K :=
  ∑ i ∈ range P.n, ∑ j ∈ range P.m, P.get i j d *
    ((Nat.choose (P.n - 1) i : K) * u ^ i * (1 - u) ^ (P.n - 1 - i)) *
    ((Nat.choose (P.m - 1) j : K) * v ^ j * (1 - v) ^ (P.m - 1 - j))

/-- `evaluate_rational_bezier_patch` (monomial.py:147-167). -/
def evalRational (P : Arr K) (w : Nat → Nat → K) (u v : K) (d : Nat) : K :=
  (∑ i ∈ range P.n, ∑ j ∈ range P.m, P.get i j d *
    ((Nat.choose (P.n - 1) i : K) * u ^ i * (1 - u) ^ (P.n - 1 - i) *
    ((Nat.choose (P.m - 1) j : K) * v ^ j * (1 - v) ^ (P.m - 1 - j)) * w i j)) /
  ∑ i ∈ range P.n, ∑ j ∈ range P.m,
    (Nat.choose (P.n - 1) i : K) * u ^ i * (1 - u) ^ (P.n - 1 - i) *
    ((Nat.choose (P.m - 1) j : K) * v ^ j * (1 - v) ^ (P.m - 1 - j)) * w i j

/-- `evaluate_monomial2d` (monomial.py:169-177). -/
def evalMonomial (A : Arr K) (u v : K) (d : Nat) : K :=
  ∑ i ∈ range A.n, ∑ j ∈ range A.m, A.get i j d * u ^ i * v ^ j

/-- `homogeneous_monomial_to_rational_bezier` (monomial.py:101-131). -/
def homogeneousToRational (g : Nat → K) (inv : Nat → (Nat → Nat → K) → Nat → Nat → K) (A : Arr K) :
    Arr K :=
  let b := monomialToBezier g inv A
  ⟨A.n, A.m, 4, fun i j d => if d = 3 then b.get i j 3 else b.get i j d / b.get i j 3⟩

/-- `cross_product_monomial` (monomial.py:179-213): the products that are added to `[i, j]`. -/
def crossMonomial (A B : Arr K) : Arr K :=
  ⟨A.n + B.n - 1, A.m + B.m - 1, 3, fun i j d =>
    ∑ i1 ∈ range A.n, ∑ j1 ∈ range A.m, ∑ i2 ∈ range B.n, ∑ j2 ∈ range B.m,
      if i1 + i2 = i ∧ j1 + j2 = j then
        A.get i1 j1 ((d + 1) % 3) * B.get i2 j2 ((d + 2) % 3) -
          A.get i1 j1 ((d + 2) % 3) * B.get i2 j2 ((d + 1) % 3)
      else 0⟩

/-- `monomial_partial_derivatives` (monomial.py:217-242). -/
def partialU (A : Arr K) : Arr K := ⟨A.n - 1, A.m, A.dim, fun i j d => (i + 1 : Nat) * A.get (i + 1) j d⟩

def partialV (A : Arr K) : Arr K := ⟨A.n, A.m - 1, A.dim, fun i j d => (j + 1 : Nat) * A.get i (j + 1) d⟩

/-- `normal_vector_monomial` (monomial.py:245-258). -/
def normalMonomial (A : Arr K) : Arr K := crossMonomial (partialU A) (partialV A)

/-- `Monomial2D.from_bezier` (monomial.py:301-303): the control points become coefficients. -/
def fromBezier (P : Arr K) : Arr K := P

/-- `Monomial2D.to_bezier` (monomial.py:294-298): the coefficients become control points. -/
def toBezier (A : Arr K) : Arr K := A

/-! ## Degree elevation -/

/-- A point of a Bezier curve of the given degree, one coordinate. -/
def bez (degree : Nat) (P : Nat → K) (u : K) : K :=
  ∑ i ∈ range (degree + 1), (Nat.choose degree i : K) * u ^ i * (1 - u) ^ (degree - i) * P i

/-- `degree_elevation_bez` (curves/knot.py:907-946), one coordinate; `none` is the `ValueError`, `count` the
number of points.  The new points and the new degree. -/
def elevate (g : Nat → K) (count degree num : Nat) (P : Nat → K) : Option ((Nat → K) × Nat) :=
  if count ≠ degree + 1 then none
  else some (fun i => ∑ j ∈ Ico (i - num) (min degree i + 1),
    binom g degree j * binom g num (i - j) / binom g (degree + num) i * P j, degree + num)

end Verif.Bez
