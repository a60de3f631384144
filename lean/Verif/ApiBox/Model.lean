import Mathlib.Algebra.Order.Field.Basic

/-!
# Model of mmcore/api/bbox.py

Coordinates are elements of a linear order.  A point object is a mutable object, so boxes hold
locations of a heap; the pure functions below are on the values read through it.
-/

namespace Verif.ApiBox

variable {K : Type} [LinearOrder K]

/-- A point of three coordinates. -/
@[ext]
structure P3 (K : Type) where
  x : K
  y : K
  z : K
deriving DecidableEq

/-- The value of a `BoundingBox3D`. -/
@[ext]
structure B3 (K : Type) where
  min : P3 K
  max : P3 K
deriving DecidableEq

/-- A point of two coordinates. -/
@[ext]
structure P2 (K : Type) where
  x : K
  y : K
deriving DecidableEq

/-- The value of a `BoundingBox2D`. -/
@[ext]
structure B2 (K : Type) where
  min : P2 K
  max : P2 K
deriving DecidableEq

/-- `BoundingBox3D.create` (bbox.py:298-302). -/
def create3 (lo hi : P3 K) : B3 K := ⟨lo, hi⟩

/-- `BoundingBox2D.create` (bbox.py:198-202). -/
def create2 (lo hi : P2 K) : B2 K := ⟨lo, hi⟩

/-- `create_from_min_max_points` (bbox.py:68-80) for three coordinates: the first argument becomes
the maximum. -/
def fromMinMax3 (lo hi : P3 K) : B3 K := ⟨hi, lo⟩

/-- `create_from_min_max_points` (bbox.py:68-80) for two coordinates. -/
def fromMinMax2 (lo hi : P2 K) : B2 K := ⟨hi, lo⟩

/-- `copy` (bbox.py:134-141) for three coordinates. -/
def copy3 (b : B3 K) : B3 K := fromMinMax3 b.min b.max

/-- `copy` (bbox.py:134-141) for two coordinates. -/
def copy2 (b : B2 K) : B2 K := fromMinMax2 b.min b.max

/-- `BoundingBox3D.contains` (bbox.py:316-325): `x` and `y` only. -/
def contains3 (b : B3 K) (p : P3 K) : Bool :=
  decide (b.max.x ≥ p.x ∧ p.x ≥ b.min.x) && decide (b.max.y ≥ p.y ∧ p.y ≥ b.min.y)

/-- `BoundingBox2D.contains` (bbox.py:211-220). -/
def contains2 (b : B2 K) (p : P2 K) : Bool :=
  decide (b.max.x ≥ p.x ∧ p.x ≥ b.min.x) && decide (b.max.y ≥ p.y ∧ p.y ≥ b.min.y)

/-- `BoundingBox3D.expand` (bbox.py:327-340). -/
def expand3 (b : B3 K) (p : P3 K) : B3 K :=
  ⟨⟨min b.min.x p.x, min b.min.y p.y, min b.min.z p.z⟩,
   ⟨max b.max.x p.x, max b.max.y p.y, max b.max.z p.z⟩⟩

/-- `BoundingBox2D.expand` (bbox.py:222-233). -/
def expand2 (b : B2 K) (p : P2 K) : B2 K :=
  ⟨⟨min b.min.x p.x, min b.min.y p.y⟩, ⟨max b.max.x p.x, max b.max.y p.y⟩⟩

/-- `BoundingBox3D.combine` (bbox.py:384-400). -/
def combine3 (a b : B3 K) : B3 K :=
  ⟨⟨min a.min.x b.min.x, min a.min.y b.min.y, min a.min.z b.min.z⟩,
   ⟨max a.max.x b.max.x, max a.max.y b.max.y, max a.max.z b.max.z⟩⟩

/-- `BoundingBox2D.combine` (bbox.py:247-262). -/
def combine2 (a b : B2 K) : B2 K :=
  ⟨⟨min a.min.x b.min.x, min a.min.y b.min.y⟩, ⟨max a.max.x b.max.x, max a.max.y b.max.y⟩⟩

/-- `BoundingBox3D.intersects` (bbox.py:370-382). -/
def intersects3 (a b : B3 K) : Bool :=
  !(decide (a.max.x < b.min.x) || decide (b.max.x < a.min.x) ||
    (decide (a.max.y < b.min.y) || decide (b.max.y < a.min.y)) ||
    (decide (a.max.z < b.min.z) || decide (b.max.z < a.min.z)))

/-- `BoundingBox2D.intersects` (bbox.py:235-245). -/
def intersects2 (a b : B2 K) : Bool :=
  !(decide (a.max.x < b.min.x) || decide (b.max.x < a.min.x) ||
    (decide (a.max.y < b.min.y) || decide (b.max.y < a.min.y)))

/-- `BoundingBox3D.overlap` (bbox.py:402-417); `d > 0` for a difference is a comparison. -/
def overlap3 (a b : B3 K) : Bool :=
  if b.min.x > a.max.x ∨ b.min.y > a.max.y ∨ b.min.z > a.max.z then false
  else if a.min.x > b.max.x ∨ a.min.y > b.max.y ∨ a.min.z > b.max.z then false
  else true

/-- `BoundingBox2D.overlap` (bbox.py:264-273). -/
def overlap2 (a b : B2 K) : Bool :=
  if b.min.x > a.max.x ∨ b.min.y > a.max.y then false
  else if a.min.x > b.max.x ∨ a.min.y > b.max.y then false
  else true

/-- `BoundingBox3D.intersection` (bbox.py:342-368). -/
def intersection3 (a b : B3 K) : Option (B3 K) :=
  if intersects3 a b then
    some ⟨⟨max a.min.x b.min.x, max a.min.y b.min.y, max a.min.z b.min.z⟩,
          ⟨min a.max.x b.max.x, min a.max.y b.max.y, min a.max.z b.max.z⟩⟩
  else none

/-- Corners of a two dimensional box (`to_vertices`, bbox.py:29-30 and aabb.py:11-12). -/
def vertices2 (b : B2 K) : List (P2 K) :=
  [⟨b.min.x, b.min.y⟩, ⟨b.min.x, b.max.y⟩, ⟨b.max.x, b.min.y⟩, ⟨b.max.x, b.max.y⟩]

/-- `set_from_array` (bbox.py:208-209): `none` for the exception on an empty array. -/
def fromArray2 : List (P2 K) → Option (B2 K)
  | [] => none
  | p :: ps => some (ps.foldl expand2 ⟨p, p⟩)

/-- `set_from_array` (bbox.py:304-310). -/
def fromArray3 : List (P3 K) → Option (B3 K)
  | [] => none
  | p :: ps => some (ps.foldl expand3 ⟨p, p⟩)

/-- `BoundingBox2D.intersection` (bbox.py:275-283): `none` for the exception. -/
def intersection2 (a b : B2 K) : Option (B2 K) :=
  fromArray2 ((vertices2 a).filter (contains2 b) ++ (vertices2 b).filter (contains2 a))

/-- `union` (bbox.py:42-45); `__array__` gives the maximum and the minimum (39-40). -/
def union3 (a b : B3 K) : Option (B3 K) := fromArray3 ([a.max, a.min] ++ [b.max, b.min])

/-! ## Boxes as objects

A box holds two references to point objects. -/

/-- A box object: locations of its corner points. -/
structure BoxRef where
  min : Nat
  max : Nat
deriving DecidableEq

/-- Heap of point objects (`next` is the first free location) and the boxes made so far. -/
structure Heap (K : Type) where
  pts : Nat → P3 K
  next : Nat
  boxes : List BoxRef

/-- What can be done with three dimensional boxes. -/
inductive Op (K : Type)
  /-- `BoundingBox3D.create(lo, hi)`; copies its arguments. -/
  | create (lo hi : P3 K)
  /-- `boxes[i].copy()`. -/
  | copy (i : Nat)
  /-- `boxes[i].intersection(boxes[j])`. -/
  | inter (i j : Nat)
  /-- `boxes[i].expand(p)`. -/
  | expand (i : Nat) (p : P3 K)
  /-- `boxes[i].combine(boxes[j])`. -/
  | combine (i j : Nat)
  /-- `boxes[i].min_point = boxes[j].min_point` (bbox.py:162-167). -/
  | setMin (i j : Nat)

/-- The value of a box. -/
def Heap.val (h : Heap K) (r : BoxRef) : B3 K := ⟨h.pts r.min, h.pts r.max⟩

/-- Allocate a box with two new points. -/
def Heap.alloc (h : Heap K) (b : B3 K) : Heap K :=
  ⟨fun l => if l = h.next then b.min else if l = h.next + 1 then b.max else h.pts l,
   h.next + 2, h.boxes ++ [⟨h.next, h.next + 1⟩]⟩

/-- Write both corners of a box. -/
def Heap.write (h : Heap K) (r : BoxRef) (b : B3 K) : Heap K :=
  { h with pts := fun l => if l = r.max then b.max else if l = r.min then b.min else h.pts l }

/-- One operation; indices that do not exist do nothing. -/
def Heap.step (h : Heap K) : Op K → Heap K
  | .create lo hi => h.alloc (create3 lo hi)
  | .copy i => match h.boxes[i]? with
    | some r => h.alloc (copy3 (h.val r))
    | none => h
  | .inter i j => match h.boxes[i]?, h.boxes[j]? with
    | some r, some s => match intersection3 (h.val r) (h.val s) with
      | some b => h.alloc b
      | none => h
    | _, _ => h
  | .expand i p => match h.boxes[i]? with
    | some r => h.write r (expand3 (h.val r) p)
    | none => h
  | .combine i j => match h.boxes[i]?, h.boxes[j]? with
    | some r, some s => h.write r (combine3 (h.val r) (h.val s))
    | _, _ => h
  | .setMin i j => match h.boxes[i]?, h.boxes[j]? with
    | some r, some s => { h with boxes := h.boxes.set i ⟨s.min, r.max⟩ }
    | _, _ => h

/-- A history of operations. -/
def Heap.run (h : Heap K) (ops : List (Op K)) : Heap K := ops.foldl Heap.step h

/-- No boxes yet. -/
def Heap.empty (p : P3 K) : Heap K := ⟨fun _ => p, 0, []⟩

/-- The box an operation is called on, if it changes one. -/
def Op.target : Op K → Option Nat
  | .expand i _ => some i
  | .combine i _ => some i
  | .setMin i _ => some i
  | _ => none

/-- The setter of the corner point. -/
def Op.isSetMin : Op K → Bool
  | .setMin _ _ => true
  | _ => false

end Verif.ApiBox
