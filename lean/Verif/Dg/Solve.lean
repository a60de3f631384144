import Verif.Dg.Model

set_option linter.unusedSectionVars false

/-!
# `solve3x2`, the curvature of a section, the normal at a singular point

Model of mmcore/numeric/numeric.py:241-331 and 392-509 over the real numbers.
-/

namespace Verif.Dg

open Verif.Prim

/-- The index that `np.argmax` gives: the first place of the largest value. -/
noncomputable def argmax : List ℝ → ℕ
  | [] => 0
  | x :: xs => open Classical in if ∀ y ∈ xs, y ≤ x then 0 else argmax xs + 1

/-- Entry `i` of a column, `i < 3`. -/
def ent (c : P) : ℕ → ℝ
  | 0 => c.x
  | 1 => c.y
  | _ => c.z

/-- The exchange of entry 0 with entry `i` (numeric.py:435-442). -/
def swapRow (i : ℕ) (c : P) : P :=
  match i with
  | 0 => c
  | 1 => ⟨c.y, c.x, c.z⟩
  | _ => ⟨c.z, c.y, c.x⟩

/-- What `solve3x2` returns, with the two lists as it leaves them; `err = none` is infinity. -/
structure Sol where
  code : ℕ
  x : ℝ
  y : ℝ
  err : Option ℝ
  ratio : ℝ
  col0 : P
  col1 : P

/-- The part of `solve3x2` after the exchange of the rows (numeric.py:444-469); `piv` is the pivot ratio so far. -/
noncomputable def eliminate (c0 c1 d : P) (piv : ℝ) : Sol :=
  open Classical in
  let e0 := c1.x / c0.x
  let d0 := d.x / c0.x
  let c1y := if c0.y ≠ 0 then c1.y + -c0.y * e0 else c1.y
  let d1 := if c0.y ≠ 0 then d.y + -c0.y * d0 else d.y
  let c1z := if c0.z ≠ 0 then c1.z + -c0.z * e0 else c1.z
  let d2 := if c0.z ≠ 0 then d.z + -c0.z * d0 else d.z
  if |c1z| < |c1y| then
    let y := d1 / c1y
    ⟨2, if e0 ≠ 0 then d0 + -e0 * y else d0, y, some (if c1z ≠ 0 then d2 + -c1z * y else d2),
      min piv |c1y| / max piv |c1y|, c0, ⟨e0, c1y, c1z⟩⟩
  else if c1z = 0 then ⟨1, 0, 0, none, piv, c0, ⟨e0, c1y, c1z⟩⟩
  else
    let y := d2 / c1z
    ⟨2, if e0 ≠ 0 then d0 + -e0 * y else d0, y, some (if c1y ≠ 0 then d1 + -c1y * y else d1),
      min piv |c1z| / max piv |c1z|, c0, ⟨e0, c1y, c1z⟩⟩

/-- The absolute values of the entries. -/
def entries (c : P) : List ℝ := [|c.x|, |c.y|, |c.z|]

/-- `solve3x2` (numeric.py:392-469) with lists: `col0 + col1` is the list of all six entries.  The exchange of `x` and
`y` (line 427) is that of two zeros. -/
noncomputable def solveLists (col0 col1 d : P) : Sol :=
  let all := entries col0 ++ entries col1
  let i := argmax all
  let a := if 3 ≤ i then col1 else col0
  let b := if 3 ≤ i then col0 else col1
  let piv := all.getD i 0
  if piv = 0 then ⟨0, 0, 0, none, 0, col0, col1⟩
  else
    let r := i % 3
    let s := eliminate (swapRow r a) (swapRow r b) (swapRow r d) piv
    if 3 ≤ i then { s with col0 := s.col1, col1 := s.col0 } else s

/-- `solve3x2` with arrays: `col0 + col1` is the sum of the columns, so that the place of its largest entry is looked for.
`none` when the pivot is zero: the divisions give infinities and NaN. -/
noncomputable def solveArrays (col0 col1 d : P) : Option Sol :=
  let all := entries (add col0 col1)
  let i := argmax all
  let piv := all.getD i 0
  if piv = 0 then some ⟨0, 0, 0, none, 0, col0, col1⟩
  else if ent col0 i = 0 then none
  else some (eliminate (swapRow i col0) (swapRow i col1) (swapRow i d) piv)

/-- The formulas of `evaluate_sectional_curvature` after the system has been solved (numeric.py:493-507): `S10`, `S01`
as the arrays are at that moment. -/
noncomputable def sectionK (small : ℝ) (D1 S10 S01 S20 S11 S02 n : P) (a b : ℝ) : Option P :=
  let M1 := cross (add (smul a S20) (smul b S11)) S01
  let M := add M1 (cross S10 (add (smul a S11) (smul b S02)))
  let D2 := cross M n
  let q := dot D1 D1
  if q ≤ small then none
  else
    let r := 1 / q
    let t := -r * dot D2 D1
    some (smul r (add D2 (smul t D1)))

/-- `evaluate_sectional_curvature` (numeric.py:472-509); `none` for NaN and for the flag False. -/
noncomputable def sectional (small : ℝ) (S10 S01 S20 S11 S02 n : P) : Option P := do
  let D1 := cross (cross S10 S01) n
  let s ← solveArrays S10 S01 D1
  if s.code < 2 then none
  else sectionK small D1 s.col0 s.col1 S20 S11 S02 n s.x s.y

/-- `evaluate_jacobian` (numeric.py:241-269) with `eps` for the machine epsilon and `root` for its square root. -/
noncomputable def jacobian (eps root uu uv vv : ℝ) : ℝ × Bool :=
  open Classical in
  let a := uu * vv
  let b := uv * uv
  let det := a - b
  (det, if uu ≤ vv * eps ∨ vv ≤ uu * eps then false else if |det| ≤ max a b * root then false else true)

/-- The signs of `limit_direction` (numeric.py:316-320). -/
def quadrant : ℕ → ℝ × ℝ
  | 2 => (-1, 1)
  | 3 => (-1, -1)
  | 4 => (1, -1)
  | _ => (1, 1)

/-- `evaluate_normal` (numeric.py:272-331); `none` is NaN. -/
noncomputable def evaluateNormal (eps root : ℝ) (du dv duu duv dvv : P) (limit : ℕ) : Option P :=
  if (jacobian eps root (dot du du) (dot du dv) (dot dv dv)).2 = true then some (cross du dv)
  else
    let c := quadrant limit
    let v := cross du (add (smul c.1 duv) (smul c.2 dvv))
    let u := cross (add (smul c.1 duu) (smul c.2 duv)) dv
    div (add v u) (norm (add v u))

end Verif.Dg
