import Verif.Vec.Model
import Mathlib.Algebra.Order.Field.Rat

/-! # Candidates for intersections of two surfaces by quartering

`find_intersections`, `bounding_boxes_intersect`, `bounding_boxes_intersection` and `bbox` of `mmcore/numeric/intersection/ssx/dqr.py`.  Numbers are
elements of an ordered field.  (`dqr4.py` imports `mmcore.collision`, which does not exist, and `cydqr.pyx` is not compiled, build.py:94-95.) -/

namespace Verif.Dqr

open Verif.Vec V3

variable {K : Type} [Field K] [LinearOrder K]

/-- A range of one parameter; a cell is a range of `u` and one of `v`. -/
abbrev Rng (K : Type) := K × K
abbrev Cell (K : Type) := Rng K × Rng K

/-- The middle of a range. -/
def mid (r : Rng K) : K := (r.1 + r.2) / 2

/-- `bbox` (dqr.py:166-177): the box of the middle and the four corners. -/
def bbox (ev : K → K → V3 K) (c : Cell K) : V3 K × V3 K :=
  let p := [ev ((c.1.1 + c.1.2) * (1 / 2)) ((c.2.1 + c.2.2) * (1 / 2)), ev c.1.1 c.2.1, ev c.1.2 c.2.2, ev c.1.1 c.2.2, ev c.1.2 c.2.1]
  let o := ev ((c.1.1 + c.1.2) * (1 / 2)) ((c.2.1 + c.2.2) * (1 / 2))
  (p.foldl (fun a q => ⟨min a.x q.x, min a.y q.y, min a.z q.z⟩) o, p.foldl (fun a q => ⟨max a.x q.x, max a.y q.y, max a.z q.z⟩) o)

/-- `bounding_boxes_intersect` (dqr.py:127-136). -/
def boxesIntersect (a b : V3 K × V3 K) : Bool :=
  decide (a.2.x ≥ b.1.x ∧ a.1.x ≤ b.2.x ∧ a.2.y ≥ b.1.y ∧ a.1.y ≤ b.2.y ∧ a.2.z ≥ b.1.z ∧ a.1.z ≤ b.2.z)

/-- `bounding_boxes_intersection` (dqr.py:139-163). -/
def boxesIntersection (a b : V3 K × V3 K) : Option (V3 K × V3 K) :=
  let lo : V3 K := ⟨max a.1.x b.1.x, max a.1.y b.1.y, max a.1.z b.1.z⟩
  let hi : V3 K := ⟨min a.2.x b.2.x, min a.2.y b.2.y, min a.2.z b.2.z⟩
  if lo.x > hi.x ∨ lo.y > hi.y ∨ lo.z > hi.z then none else some (lo, hi)

/-- The cells of the first surface (dqr.py:51-56). -/
def cells1 (u v : Rng K) : List (Cell K) :=
  [((u.1, mid u), (v.1, mid v)), ((mid u, u.2), (v.1, mid v)), ((mid u, u.2), (mid v, v.2)), ((u.1, mid u), (mid v, v.2))]

/-- The cells of the second surface (dqr.py:57-62), in the first two with the middles `m1`, `n1` of the ranges of the first surface. -/
def cells2 (m1 n1 : K) (u v : Rng K) : List (Cell K) :=
  [((u.1, m1), (v.1, n1)), ((mid u, u.2), (v.1, n1)), ((mid u, u.2), (mid v, v.2)), ((u.1, mid u), (mid v, v.2))]

/-- The state of the loop over pairs: `visited`, the entries of `ixs` that are true, and `candidates`. -/
structure Scan where
  visited : List (Nat × Nat)
  ixs : List (Nat × Nat)
  cands : List (Nat × Nat)

/-- One pair of the loop (dqr.py:73-83). -/
def scanStep (hit : Nat → Nat → Bool) (step : Nat) (s : Scan) (p : Nat × Nat) : Scan :=
  if p ∈ s.visited then s
  else
    let s := { s with visited := p :: (p.2, p.1) :: s.visited }
    if (s.ixs.any fun q => decide (q.1 = p.1)) && decide (2 ≤ step) then s
    else if hit p.1 p.2 then { s with ixs := p :: s.ixs, cands := s.cands ++ [p] } else s

/-- The pairs in the order of the loop. -/
def pairs : List (Nat × Nat) := (List.range 4).flatMap fun i => (List.range 4).map fun j => (i, j)

/-- `candidates` (dqr.py:70-83). -/
def candidates (hit : Nat → Nat → Bool) (step : Nat) : List (Nat × Nat) := (pairs.foldl (scanStep hit step) ⟨[], [], []⟩).cands

/-- A cell of each surface: the pair of middles reported for it. -/
def centre (c1 c2 : Cell K) : (K × K) × (K × K) := ((mid c1.1, mid c1.2), (mid c2.1, mid c2.2))

/-- `inner` (dqr.py:22-115); the first argument is the depth of recursion available. -/
def inner (s1 s2 : K → K → V3 K) (tol ptol htol : K) : Nat → Cell K → Cell K → Nat → Option (List ((K × K) × (K × K)))
  | 0, _, _, _ => none
  | n + 1, c1, c2, step =>
    if c1.1.2 - c1.1.1 < tol ∧ c1.2.2 - c1.2.1 < ptol then some [centre c1 c2]
    else
      let fb := cells1 c1.1 c1.2
      let sb := cells2 (mid c1.1) (mid c1.2) c2.1 c2.2
      let b1 := fun i => bbox s1 (fb.getD i c1)
      let b2 := fun j => bbox s2 (sb.getD j c2)
      let cs := candidates (fun i j => (boxesIntersection (b1 i) (b2 j)).isSome) step
      (cs.mapM fun (ij : Nat × Nat) =>
        match boxesIntersection (b1 ij.1) (b2 ij.2) with
        | none => some []
        | some (lo, hi) =>
          let d := sub hi lo
          if dot d d < tol ∨ d.z < htol then some [centre c1 c2]
          else inner s1 s2 tol ptol htol n (fb.getD ij.1 c1) (sb.getD ij.2 c2) (step + 1)).map List.flatten

/-- `find_intersections` (dqr.py:11-124). -/
def findIntersections (s1 s2 : K → K → V3 K) (tol ptol htol : K) (n : Nat) (c1 c2 : Cell K) : Option (List ((K × K) × (K × K))) :=
  if !boxesIntersect (bbox s1 c1) (bbox s2 c2) then some [] else inner s1 s2 tol ptol htol n c1 c2 1

end Verif.Dqr
