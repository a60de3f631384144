import Mathlib.Algebra.Order.Ring.Defs

/-!
# Model of the GJK collision test

`mmcore/numeric/algorithms/_gjk.cpp` (wrapped by `cygjk.pyx`, used by
`mmcore/numeric/intersection/ssx` through `separability/spatial.py`).

Numbers are elements of an ordered field (no rounding, no overflow, no NaN); `-max()` as the starting
value of a maximum is below every number.  A simplex is the list of its points, oldest first.
-/

namespace Verif.Gjk

variable {K : Type} [CommRing K] [LinearOrder K]

/-- `Vec3` (_gjk.cpp:8-9). -/
@[ext]
structure V (K : Type) where
  x : K
  y : K
  z : K
deriving DecidableEq

/-- `dot` (_gjk.cpp:14-17). -/
def dot (a b : V K) : K := a.x * b.x + a.y * b.y + a.z * b.z

/-- `cross` (_gjk.cpp:19-26). -/
def cross (a b : V K) : V K :=
  ⟨a.y * b.z - a.z * b.y, a.z * b.x - a.x * b.z, a.x * b.y - a.y * b.x⟩

/-- `operator-` (_gjk.cpp:28-31). -/
def sub (a b : V K) : V K := ⟨a.x - b.x, a.y - b.y, a.z - b.z⟩

/-- `{-a[0], -a[1], -a[2]}` (_gjk.cpp:56, 72, 92, 107, 150, 160). -/
def neg (a : V K) : V K := ⟨-a.x, -a.y, -a.z⟩

/-- The loop of `supportVector` (_gjk.cpp:38-44): `best` is the pair of `highest` and `supportIndex`
(`none`: still `-max()` and `-1`), `i` the running index. -/
def supportLoop (d : V K) : List (V K) → Nat → Option (K × Nat) → Option (K × Nat)
  | [], _, best => best
  | v :: vs, i, best =>
    let better : Bool := match best with
      | none => true
      | some (h, _) => decide (h < dot v d)
    supportLoop d vs (i + 1) (if better then some (dot v d, i) else best)

/-- `supportVector` (_gjk.cpp:33-47): `none` for the index `-1`. -/
def supportVector (vertices : List (V K)) (d : V K) : Option Nat :=
  (supportLoop d vertices 0 none).map Prod.snd

/-- The lambda `support` (_gjk.cpp:148-152) together with the index computed in lines 156 and 164:
the new point and `i * cols + j`.  `none` only when a vertex set is empty. -/
def support (vs ws : List (V K)) (d : V K) : Option (V K × Nat) := do
  let i ← supportVector vs d
  let j ← supportVector ws (neg d)
  let p ← vs[i]?
  let q ← ws[j]?
  return (sub p q, i * ws.length + j)

/-- `case 2` of `handleSimplex` (_gjk.cpp:52-65) for the simplex `[b, a]`: the remaining simplex and
the next direction. -/
def handle2 (tol : K) (b a : V K) : List (V K) × V K :=
  let ab := sub b a
  let ao := neg a
  if tol < dot ab ao then ([b, a], cross (cross ab ao) ab) else ([a], ao)

/-- `case 3` of `handleSimplex` (_gjk.cpp:66-97) for the simplex `[c, b, a]`. -/
def handle3 (tol : K) (c b a : V K) : List (V K) × V K :=
  let ab := sub b a
  let ac := sub c a
  let ao := neg a
  let abc := cross ab ac
  if tol < dot (cross abc ac) ao then
    if 0 < dot ac ao then ([c, a], cross (cross ac ao) ac)
    else handle2 tol b a
  else if tol < dot (cross ab abc) ao then handle2 tol b a
  else if tol < dot abc ao then ([c, b, a], abc)
  else ([b, c, a], neg abc)

/-- `case 4` of `handleSimplex` (_gjk.cpp:98-125) for the simplex `[e, c, b, a]` (`e` is `dPoint`):
`none` for the answer `true`.  The second and third test erase positions 1 and 2. -/
def handle4 (tol : K) (e c b a : V K) : Option (List (V K) × V K) :=
  let ab := sub b a
  let ac := sub c a
  let ad := sub e a
  let ao := neg a
  let abc := cross ab ac
  let acd := cross ac ad
  let adb := cross ad ab
  if 0 < dot abc ao then some (handle3 tol c b a)
  else if 0 < dot acd ao then some (handle3 tol e b a)
  else if 0 < dot adb ao then some (handle3 tol e c a)
  else none

/-- `handleSimplex` (_gjk.cpp:49-128): `none` for `true`, otherwise the simplex and the direction
after the call.  Other sizes leave both alone (line 127). -/
def handleSimplex (tol : K) (simplex : List (V K)) (d : V K) : Option (List (V K) × V K) :=
  match simplex with
  | [b, a] => some (handle2 tol b a)
  | [c, b, a] => some (handle3 tol c b a)
  | [e, c, b, a] => handle4 tol e c b a
  | s => some (s, d)

/-- Why the loop ended. -/
inductive Verdict
  /-- line 184, answer `true` -/
  | collide
  /-- line 178, answer `false` -/
  | apart
  /-- line 170, answer `false` -/
  | moved
  /-- line 188, answer `false` -/
  | exhausted
  /-- a support point could not be computed (empty vertex set) -/
  | invalid
deriving DecidableEq

/-- What the caller sees of a verdict. -/
def Verdict.answer : Verdict → Bool
  | .collide => true
  | _ => false

/-- The test of lines 166-175: the remembered point and the new one must not be further apart than
`tol` (lengths are compared through their squares; `tol` negative makes every length too large). -/
def cacheOk (tol : K) (cache : Nat → Option (V K)) (index : Nat) (p : V K) : Bool :=
  match cache index with
  | none => true
  | some q => decide (0 ≤ tol) && decide (dot (sub q p) (sub q p) ≤ tol * tol)

/-- Lines 166-175: the entry is only written when it was not visited. -/
def remember (cache : Nat → Option (V K)) (index : Nat) (p : V K) : Nat → Option (V K) := fun k =>
  if k = index then (match cache index with
    | none => some p
    | some q => some q) else cache k

/-- The loop (_gjk.cpp:162-186) with `n` rounds left.  `visited` and `cache` are one partial map. -/
def loop (vs ws : List (V K)) (tol : K) :
    Nat → List (V K) → V K → (Nat → Option (V K)) → Verdict
  | 0, _, _, _ => .exhausted
  | n + 1, simplex, d, cache =>
    match support vs ws d with
    | none => .invalid
    | some pk =>
      if cacheOk tol cache pk.2 pk.1 = false then .moved
      else if dot pk.1 d < 0 then .apart
      else
        match handleSimplex tol (simplex ++ [pk.1]) d with
        | none => .collide
        | some sd => loop vs ws tol n sd.1 sd.2 (remember cache pk.2 pk.1)

/-- `gjk_collision_detection` (_gjk.cpp:130-189), the verdict.  `none`: line 133 throws. -/
def verdict (vs ws : List (V K)) (tol : K) (maxIter : Nat) : Option Verdict :=
  if vs.isEmpty || ws.isEmpty then none
  else
    let rounds := if maxIter = 0 then vs.length * ws.length else maxIter
    match support vs ws ⟨1, 0, 0⟩ with
    | none => some .invalid
    | some pk =>
      some (loop vs ws tol rounds [pk.1] (neg pk.1) (remember (fun _ => none) pk.2 pk.1))

/-- `gjk_collision_detection` (_gjk.cpp:130-189; cygjk.pyx passes `tol=1e-6`, `max_iter=25` unless
told otherwise).  `none`: an exception. -/
def gjk (vs ws : List (V K)) (tol : K) (maxIter : Nat) : Option Bool :=
  (verdict vs ws tol maxIter).map Verdict.answer

end Verif.Gjk
