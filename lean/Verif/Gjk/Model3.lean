import Verif.Gjk.Model

/-!
# Model of the GJK collision test in Python

`mmcore/numeric/algorithms/gjk.py`.  `support_vector` and `support` (gjk.py:44-67, 82-86) compute what the functions of the C++ version
do (`Model.lean`); the treatment of the simplex differs: in the nested calls a new list is handed over, so changes of that list do not
reach the simplex of the search, its points are in the other order, and the tolerance is the default one.

Vectors of three components; `visited` and `visited_pts` (lines 79-80) are one partial map, addressed by `i * cols + j` as in the C++
version. -/

namespace Verif.Gjk.Py
open Verif.Gjk

variable {K : Type} [CommRing K] [LinearOrder K]

/-- What a call of `handle_simplex` does: it raises, returns `True`, or returns `False` and leaves a simplex and a direction. -/
inductive Out (K : Type) where
  | raised
  | hit
  | goes (simplex : List (V K)) (d : V K)

/-- `handle_simplex` on two points (gjk.py:136-147). -/
def handle2 (tol : K) (b a : V K) : List (V K) × V K := Gjk.handle2 tol b a

/-- `handle_simplex` on three points (gjk.py:149-173); `tol0` is the default tolerance.  In lines 164 and 167 the list `[a, b]` is new:
only the direction is changed. -/
def handle3 (tol0 tol : K) (c b a : V K) : List (V K) × V K :=
  let ab := sub b a
  let ac := sub c a
  let ao := neg a
  let abc := cross ab ac
  if tol < dot (cross abc ac) ao then
    if tol < dot ac ao then ([c, a], cross (cross ac ao) ac)
    else ([c, b, a], (handle2 tol0 a b).2)
  else if tol < dot (cross ab abc) ao then ([c, b, a], (handle2 tol0 a b).2)
  else if tol < dot abc ao then ([c, b, a], abc)
  else ([b, c, a], neg abc)

/-- `handle_simplex` on four points (gjk.py:174-200): a point is removed, then the remaining ones are handed over in the other order
in a new list. -/
def handle4 (tol0 : K) (e c b a : V K) : Out K :=
  let ab := sub b a
  let ac := sub c a
  let ad := sub e a
  let ao := neg a
  let abc := cross ab ac
  let acd := cross ac ad
  let adb := cross ad ab
  if 0 < dot abc ao then .goes [c, b, a] (handle3 tol0 tol0 a b c).2
  else if 0 < dot acd ao then .goes [e, b, a] (handle3 tol0 tol0 a b e).2
  else if 0 < dot adb ao then .goes [e, c, a] (handle3 tol0 tol0 a c e).2
  else .hit

/-- `handle_simplex` (gjk.py:134-203): other sizes raise `ValueError` (line 202). -/
def handleSimplex (tol0 tol : K) : List (V K) → Out K
  | [b, a] => .goes (handle2 tol b a).1 (handle2 tol b a).2
  | [c, b, a] => .goes (handle3 tol0 tol c b a).1 (handle3 tol0 tol c b a).2
  | [e, c, b, a] => handle4 tol0 e c b a
  | _ => .raised

/-- The loop (gjk.py:100-131); `Verdict.invalid` stands for an exception. -/
def loop (vs ws : List (V K)) (tol0 tol : K) : Nat → List (V K) → V K → (Nat → Option (V K)) → Verdict
  | 0, _, _, _ => .exhausted
  | n + 1, simplex, d, cache =>
    match support vs ws d with
    | none => .invalid
    | some pk =>
      if cacheOk tol cache pk.2 pk.1 = false then .moved
      else if dot pk.1 d < 0 then .apart
      else
        match handleSimplex tol0 tol (simplex ++ [pk.1]) with
        | .raised => .invalid
        | .hit => .collide
        | .goes s' d' => loop vs ws tol0 tol n s' d' (remember cache pk.2 pk.1)

/-- `gjk_collision_detection` (gjk.py:70-131), the reason for the answer.  An empty list of vertices is an `IndexError` at line 92. -/
def verdict (vs ws : List (V K)) (tol0 tol : K) (maxIter : Nat) : Verdict :=
  match support vs ws ⟨1, 0, 0⟩ with
  | none => .invalid
  | some pk => loop vs ws tol0 tol maxIter [pk.1] (neg pk.1) (remember (fun _ => none) pk.2 pk.1)

/-- `gjk_collision_detection` (gjk.py:70-131): `none` is an exception. -/
def gjk (vs ws : List (V K)) (tol0 tol : K) (maxIter : Nat) : Option Bool :=
  match verdict vs ws tol0 tol maxIter with
  | .invalid => none
  | v => some v.answer

end Verif.Gjk.Py
